import Verif.Spec.Session
/-
Helper lemmas for C74, C75, C103, C104.
-/
namespace Verif.Session

theorem notMem_keys {d : AList Str Arg} {k : Str} (h : AList.get? d k = none) : k ∉ AList.keys d := by
  intro hm
  have := AList.get?_isSome.2 hm
  simp [h] at this

/-- Without `info` in the configuration, the loop only fills in what is missing. -/
theorem callLoop_noInfo (h : Heap) (loc kw : AList Str Arg) (hk : kInfo ∉ AList.keys kw) :
    ∃ r, callLoop h loc kw = (h, .ok r) ∧
      ∀ k, AList.get? r k = (AList.get? loc k).or (AList.get? kw k) := by
  induction kw generalizing loc with
  | nil => exact ⟨loc, rfl, fun k => by simp [AList.get?]⟩
  | cons p kw ih =>
    obtain ⟨k0, v⟩ := p
    simp only [AList.keys_cons, List.mem_cons, not_or] at hk
    obtain ⟨r, h1, h2⟩ := ih (if AList.contains loc k0 then loc else AList.set loc k0 v) hk.2
    refine ⟨r, ?_, fun k => ?_⟩
    · rw [callLoop, if_neg (Ne.symm hk.1)]; exact h1
    · rw [h2]
      by_cases hc : AList.contains loc k0 = true
      · rw [if_pos hc]
        by_cases e : k0 = k
        · subst e
          have : (AList.get? loc k0).isSome = true := hc
          cases hg : AList.get? loc k0 with
          | none => rw [hg] at this; simp at this
          | some x => simp
        · simp [AList.get?, e]
      · rw [if_neg hc, AList.get?_set]
        have hn : AList.get? loc k0 = none := by
          cases hg : AList.get? loc k0 with
          | none => rfl
          | some x => exact absurd (show AList.contains loc k0 = true by simp [AList.contains, hg]) hc
        by_cases e : k0 = k
        · subst e; simp [AList.get?, hn]
        · simp [AList.get?, e]

/-- Without `info` among the arguments of the call, the loop only fills in what is missing. -/
theorem callLoop_noLocal (h : Heap) (loc kw : AList Str Arg) (wf : AList.WF kw) (hl : AList.get? loc kInfo = none) :
    ∃ r, callLoop h loc kw = (h, .ok r) ∧
      ∀ k, AList.get? r k = (AList.get? loc k).or (AList.get? kw k) := by
  induction kw generalizing loc with
  | nil => exact ⟨loc, rfl, fun k => by simp [AList.get?]⟩
  | cons p kw ih =>
    obtain ⟨k0, v⟩ := p
    simp only [AList.WF, AList.keys_cons, List.nodup_cons] at wf
    by_cases hi : k0 = kInfo
    · subst hi
      obtain ⟨r, h1, h2⟩ := callLoop_noInfo h (AList.set loc kInfo v) kw wf.1
      refine ⟨r, ?_, fun k => ?_⟩
      · rw [callLoop, if_pos rfl, hl]
        simp only [AList.contains, hl, Option.isSome_none, Bool.false_eq_true, if_false]
        exact h1
      · rw [h2, AList.get?_set]
        by_cases e : kInfo = k
        · subst e; simp [AList.get?, hl]
        · simp [AList.get?, e]
    · obtain ⟨r, h1, h2⟩ := ih (if AList.contains loc k0 then loc else AList.set loc k0 v) wf.2 (by
        split
        · exact hl
        · rw [AList.get?_set_ne _ _ hi, hl])
      refine ⟨r, ?_, fun k => ?_⟩
      · rw [callLoop, if_neg hi]; exact h1
      · rw [h2]
        by_cases hc : AList.contains loc k0 = true
        · rw [if_pos hc]
          by_cases e : k0 = k
          · subst e
            have : (AList.get? loc k0).isSome = true := hc
            cases hg : AList.get? loc k0 with
            | none => rw [hg] at this; simp at this
            | some x => simp
          · simp [AList.get?, e]
        · rw [if_neg hc, AList.get?_set]
          have hn : AList.get? loc k0 = none := by
            cases hg : AList.get? loc k0 with
            | none => rfl
            | some x => exact absurd (show AList.contains loc k0 = true by simp [AList.contains, hg]) hc
          by_cases e : k0 = k
          · subst e; simp [AList.get?, hn]
          · simp [AList.get?, e]

/-- With `info` at both levels: the outcome of the merge decides. -/
theorem callLoop_both (h : Heap) (loc kw : AList Str Arg) (wf : AList.WF kw) (i v : Arg)
    (hl : AList.get? loc kInfo = some i) (hv : AList.get? kw kInfo = some v) :
    match mergeInfo h v i with
    | (h', .error e) => callLoop h loc kw = (h', .error e)
    | (h', .ok d) => ∃ r, callLoop h loc kw = (h', .ok r) ∧ AList.get? r kInfo = some d ∧
        ∀ k, k ≠ kInfo → AList.get? r k = (AList.get? loc k).or (AList.get? kw k) := by
  induction kw generalizing loc with
  | nil => simp [AList.get?] at hv
  | cons p kw ih =>
    obtain ⟨k0, v0⟩ := p
    simp only [AList.WF, AList.keys_cons, List.nodup_cons] at wf
    by_cases hi : k0 = kInfo
    · subst hi
      simp only [AList.get?, if_true, Option.some.injEq] at hv
      subst hv
      rw [callLoop, if_pos rfl, hl]
      rcases hm : mergeInfo h v0 i with ⟨h', e | d⟩
      · simp [hm]
      · obtain ⟨r, h1, h2⟩ := callLoop_noInfo h' (AList.set loc kInfo d) kw wf.1
        simp only [hm]
        refine ⟨r, h1, ?_, fun k hk => ?_⟩
        · rw [h2, AList.get?_set_self]; simp
        · rw [h2, AList.get?_set_ne _ _ (Ne.symm hk)]; simp [AList.get?, Ne.symm hk]
    · have hv' : AList.get? kw kInfo = some v := by simpa [AList.get?, hi] using hv
      have := ih (if AList.contains loc k0 then loc else AList.set loc k0 v0) wf.2 (by
        split
        · exact hl
        · rw [AList.get?_set_ne _ _ hi, hl]) hv'
      rw [callLoop, if_neg hi]
      rcases hm : mergeInfo h v i with ⟨h', e | d⟩
      · simp only [hm] at this ⊢; exact this
      · simp only [hm] at this ⊢
        obtain ⟨r, h1, h2, h3⟩ := this
        refine ⟨r, h1, h2, fun k hk => ?_⟩
        rw [h3 k hk]
        by_cases hc : AList.contains loc k0 = true
        · rw [if_pos hc]
          by_cases e : k0 = k
          · subst e
            have : (AList.get? loc k0).isSome = true := hc
            cases hg : AList.get? loc k0 with
            | none => rw [hg] at this; simp at this
            | some x => simp
          · simp [AList.get?, e]
        · rw [if_neg hc, AList.get?_set]
          have hn : AList.get? loc k0 = none := by
            cases hg : AList.get? loc k0 with
            | none => rfl
            | some x => exact absurd (show AList.contains loc k0 = true by simp [AList.contains, hg]) hc
          by_cases e : k0 = k
          · subst e; simp [AList.get?, hn]
          · simp [AList.get?, e]

theorem get?_filter_notMem (given : AList Str Arg) (l : List Str) (k : Str) :
    AList.get? (given.filter (fun p => p.1 ∉ l)) k = if k ∈ l then none else AList.get? given k := by
  induction given with
  | nil => simp [AList.get?]
  | cons p g ih =>
    obtain ⟨k0, v⟩ := p
    by_cases h : k0 ∈ l
    · rw [List.filter_cons_of_neg (by simpa using h), ih]
      by_cases e : k0 = k
      · subst e; simp [h]
      · simp [AList.get?, e]
    · rw [List.filter_cons_of_pos (by simpa using h)]
      by_cases e : k0 = k
      · subst e; simp [AList.get?, h]
      · simp only [AList.get?, if_neg e]; exact ih

theorem wf_filter {d : AList Str Arg} (wf : AList.WF d) (p : Str × Arg → Bool) : AList.WF (d.filter p) := by
  unfold AList.WF AList.keys at *
  exact wf.sublist ((List.filter_sublist).map _)

theorem wf_makerInit {given : AList Str Arg} (wf : AList.WF given) : AList.WF (makerInit given) := by
  unfold makerInit
  have h0 := wf_filter wf (fun p => decide (p.1 ∉ [kBind, kAutoflush, kAutocommit, kExpire, kInfo]))
  have h4 : AList.WF _ := AList.wf_set (AList.wf_set (AList.wf_set (AList.wf_set h0 kBind ((AList.get? given kBind).getD (.val .none)))
    kAutoflush ((AList.get? given kAutoflush).getD (.val (.bool true)))) kAutocommit
    ((AList.get? given kAutocommit).getD (.val (.bool false)))) kExpire ((AList.get? given kExpire).getD (.val (.bool true)))
  split
  · exact h4
  · exact h4
  · exact AList.wf_set h4 _ _

theorem wf_configures {kw : AList Str Arg} (wf : AList.WF kw) (configs : List (AList Str Arg)) :
    AList.WF (configs.foldl configure kw) := by
  induction configs generalizing kw with
  | nil => exact wf
  | cons c cs ih => exact ih (AList.wf_update wf c)

/-- Four options with defaults are set, a fifth is left out, the others are kept. -/
theorem get?_setFour (given : AList Str Arg) (a b c d i : Str) (da db dc dd : Arg)
    (e1 : a ≠ b) (e2 : a ≠ c) (e3 : a ≠ d) (e4 : a ≠ i) (e5 : b ≠ c) (e6 : b ≠ d) (e7 : b ≠ i) (e8 : c ≠ d)
    (e9 : c ≠ i) (e10 : d ≠ i) (k : Str) :
    AList.get? (AList.set (AList.set (AList.set (AList.set
      (given.filter (fun p => p.1 ∉ [a, b, c, d, i])) a ((AList.get? given a).getD da))
        b ((AList.get? given b).getD db)) c ((AList.get? given c).getD dc)) d ((AList.get? given d).getD dd)) k =
      if k = i then none else (AList.get? given k).or
        (if k = a then some da else if k = b then some db else if k = c then some dc
          else if k = d then some dd else none) := by
  rw [AList.get?_set, AList.get?_set, AList.get?_set, AList.get?_set, get?_filter_notMem]
  by_cases h1 : d = k
  · subst h1; cases AList.get? given d <;> simp [e10, e3.symm, e6.symm, e8.symm]
  by_cases h2 : c = k
  · subst h2; cases AList.get? given c <;> simp [e9, e2.symm, e5.symm, e8.symm]
  by_cases h3 : b = k
  · subst h3; cases AList.get? given b <;> simp [e1.symm, e5.symm, e6.symm, *]
  by_cases h4 : a = k
  · subst h4; cases AList.get? given a <;> simp [e1.symm, e2.symm, e3.symm, *]
  rw [if_neg h1, if_neg h2, if_neg h3, if_neg h4]
  have h1' := Ne.symm h1
  have h2' := Ne.symm h2
  have h3' := Ne.symm h3
  have h4' := Ne.symm h4
  by_cases h5 : k = i
  · rw [if_pos h5, if_pos (by simp [h5])]
  · rw [if_neg h5, if_neg (by simp [*]), if_neg h4', if_neg h3', if_neg h2', if_neg h1', Option.or_none]

theorem documentedDefault_eq (k : Str) : documentedDefault k =
    if k = kBind then some (.val .none) else if k = kAutoflush then some (.val (.bool true))
    else if k = kAutocommit then some (.val (.bool false)) else if k = kExpire then some (.val (.bool true)) else none := rfl

theorem configured_nil (given : AList Str Arg) (k : Str) : configured given [] k =
    (if k = kInfo ∧ AList.get? given k = some (.val .none) then none else AList.get? given k).or (documentedDefault k) := rfl

theorem get?_makerInit (given : AList Str Arg) (k : Str) :
    AList.get? (makerInit given) k = configured given [] k := by
  have base := get?_setFour given kBind kAutoflush kAutocommit kExpire kInfo (.val .none) (.val (.bool true))
    (.val (.bool false)) (.val (.bool true)) (by decide) (by decide) (by decide) (by decide) (by decide) (by decide)
    (by decide) (by decide) (by decide) (by decide)
  have hd : documentedDefault kInfo = none := by decide
  simp only [← documentedDefault_eq] at base
  rw [configured_nil]
  unfold makerInit
  cases hg : AList.get? given kInfo with
  | none =>
    show AList.get? _ k = _
    refine (base k).trans ?_
    by_cases h : k = kInfo
    · subst h; rw [if_pos rfl, hg, hd]; simp
    · rw [if_neg h, if_neg (fun x => h x.1)]
  | some a =>
    by_cases ha : a = .val .none
    · subst ha
      refine (base k).trans ?_
      by_cases h : k = kInfo
      · subst h; rw [if_pos rfl, hg, hd]; simp
      · rw [if_neg h, if_neg (fun x => h x.1)]
    · have hset : ∀ kw : AList Str Arg, (match (some a : Option Arg) with
          | none => kw
          | some (.val .none) => kw
          | some a => AList.set kw kInfo a) = AList.set kw kInfo a := by
        intro kw
        split
        · rename_i h; simp at h
        · rename_i h; simp at h; exact absurd h ha
        · rename_i h; simp at h; rw [h]
      simp only [hset]
      rw [AList.get?_set]
      by_cases h : k = kInfo
      · subst h; rw [if_pos rfl, hg, hd]; simp [ha]
      · rw [if_neg (Ne.symm h), if_neg (fun x => h x.1)]
        refine (base k).trans ?_
        rw [if_neg h]

theorem get?_configures (kw : AList Str Arg) (configs : List (AList Str Arg)) (wf : ∀ c ∈ configs, AList.WF c) (k : Str) :
    AList.get? (configs.foldl configure kw) k = (lastGiven configs k).or (AList.get? kw k) := by
  induction configs generalizing kw with
  | nil => simp [lastGiven]
  | cons c cs ih =>
    rw [List.foldl_cons, ih _ (fun x hx => wf x (by simp [hx])), configure, AList.get?_update _ (wf c (by simp))]
    simp only [lastGiven, List.reverse_cons, List.findSome?_append]
    cases List.findSome? (fun c => AList.get? c k) cs.reverse <;> simp [List.findSome?]
    cases AList.get? c k <;> simp

theorem configured_eq (given : AList Str Arg) (configs : List (AList Str Arg)) (wfc : ∀ c ∈ configs, AList.WF c) (k : Str) :
    AList.get? (configs.foldl configure (makerInit given)) k = configured given configs k := by
  rw [get?_configures _ _ wfc, get?_makerInit]
  unfold configured
  simp only [lastGiven, List.reverse_nil, List.findSome?_nil, Option.none_or]
  cases List.findSome? (fun c => AList.get? c k) configs.reverse <;> simp

/-! ### Scoped sessions -/

variable {σ : Type} [DecidableEq σ]

/-- Registered sessions exist, and no session is registered in two scopes. -/
structure Inv (s : State σ) : Prop where
  wf : AList.WF s.registry
  lt : ∀ sc i, AList.get? s.registry sc = some i → i < s.created.length
  inj : ∀ sc sc' i, AList.get? s.registry sc = some i → AList.get? s.registry sc' = some i → sc = sc'

omit [DecidableEq σ] in
theorem create_spec (ctor : AList Str Arg → Option Exc) (s : State σ) (kw : AList Str Arg) :
    (create ctor s kw).1.registry = s.registry ∧
    (∀ e, (create ctor s kw).2 = .error e → (create ctor s kw).1.created = s.created) ∧
    (∀ i, (create ctor s kw).2 = .ok i → i = s.created.length ∧ ∃ a, (create ctor s kw).1.created = s.created ++ [a]) := by
  unfold create
  split
  · simp
  · split
    · simp
    · simp

/-- What a call does. -/
theorem call_spec (ctor : AList Str Arg → Option Exc) (s : State σ) (sc : σ) (kw : AList Str Arg) :
    (∀ e, (call ctor s sc kw).2 = .error e → (call ctor s sc kw).1.registry = s.registry ∧
        (call ctor s sc kw).1.created = s.created) ∧
    (∀ i, (call ctor s sc kw).2 = .ok i →
      (AList.get? s.registry sc = some i ∧ (call ctor s sc kw).1 = s) ∨
      (AList.get? s.registry sc = none ∧ i = s.created.length ∧
        (call ctor s sc kw).1.registry = AList.set s.registry sc i ∧ ∃ a, (call ctor s sc kw).1.created = s.created ++ [a])) := by
  unfold call
  split
  · split
    · simp
    · rename_i hc
      have hn : AList.get? s.registry sc = none := by
        cases h : AList.get? s.registry sc with
        | none => rfl
        | some x => exact absurd (show AList.contains s.registry sc = true by simp [AList.contains, h]) hc
      have sp := create_spec ctor s kw
      split
      · rename_i s' e h; rw [h] at sp; simp at sp ⊢; simp [sp]
      · rename_i s' i h; rw [h] at sp; simp at sp ⊢; simp [sp, hn]
  · split
    · rename_i i h; simp [h]
    · rename_i hn
      have sp := create_spec ctor s []
      split
      · rename_i s' e h; rw [h] at sp; simp at sp ⊢; simp [sp]
      · rename_i s' i h; rw [h] at sp; simp at sp ⊢; simp [sp, hn]

theorem inv_call (ctor : AList Str Arg → Option Exc) {s : State σ} (h : Inv s) (sc : σ) (kw : AList Str Arg) :
    Inv (call ctor s sc kw).1 := by
  obtain ⟨h1, h2⟩ := call_spec ctor s sc kw
  cases hr : (call ctor s sc kw).2 with
  | error e =>
    obtain ⟨a, b⟩ := h1 e hr
    exact ⟨by rw [a]; exact h.wf, by rw [a, b]; exact h.lt, by rw [a]; exact h.inj⟩
  | ok i =>
    rcases h2 i hr with ⟨_, e⟩ | ⟨hn, rfl, hreg, a, ha⟩
    · rw [e]; exact h
    · refine ⟨by rw [hreg]; exact AList.wf_set h.wf _ _, ?_, ?_⟩
      · rw [hreg, ha]
        intro sc' i hi
        rw [AList.get?_set] at hi
        simp only [List.length_append, List.length_singleton]
        split at hi
        · simp at hi; omega
        · have := h.lt _ _ hi; omega
      · rw [hreg]
        intro x y i hx hy
        rw [AList.get?_set] at hx hy
        split at hx <;> split at hy
        · rename_i e e'; rw [← e, e']
        · simp at hx; subst hx; exact absurd (h.lt _ _ hy) (by omega)
        · simp at hy; subst hy; exact absurd (h.lt _ _ hx) (by omega)
        · exact h.inj _ _ _ hx hy

theorem inv_step (ctor : AList Str Arg → Option Exc) {s : State σ} (h : Inv s) (o : Op σ) : Inv (step ctor s o) := by
  cases o with
  | call sc kw => exact inv_call ctor h sc kw
  | remove sc =>
    refine ⟨AList.wf_erase h.wf _, ?_, ?_⟩
    · intro x i hi
      simp only [step, remove, AList.get?_erase] at hi ⊢
      split at hi
      · simp at hi
      · exact h.lt _ _ hi
    · intro x y i hx hy
      simp only [step, remove, AList.get?_erase] at hx hy
      split at hx
      · simp at hx
      · split at hy
        · simp at hy
        · exact h.inj _ _ _ hx hy
  | configure sc kw =>
    simp only [step, scopedConfigure]
    split
    · exact h
    · exact ⟨h.wf, h.lt, h.inj⟩

theorem inv_run (ctor : AList Str Arg → Option Exc) {s : State σ} (h : Inv s) (ops : List (Op σ)) : Inv (run ctor s ops) := by
  induction ops generalizing s with
  | nil => exact h
  | cons o ops ih => exact ih (inv_step ctor h o)

/-- A session once created stays in its scope until it is removed, and then is nowhere. -/
theorem follow (ctor : AList Str Arg → Option Exc) (s : State σ) (sc : σ) (i : Nat) (hi : i < s.created.length)
    (ops : List (Op σ)) :
    i < (run ctor s ops).created.length ∧
    (AList.get? s.registry sc = some i → (∀ o ∈ ops, ¬ o.isRemove sc) →
      AList.get? (run ctor s ops).registry sc = some i) ∧
    ((∀ sc', AList.get? s.registry sc' ≠ some i) → ∀ sc', AList.get? (run ctor s ops).registry sc' ≠ some i) ∧
    ((∀ sc', sc' ≠ sc → AList.get? s.registry sc' ≠ some i) → (∃ o ∈ ops, o.isRemove sc) →
      ∀ sc', AList.get? (run ctor s ops).registry sc' ≠ some i) := by
  induction ops generalizing s with
  | nil => exact ⟨hi, fun h _ => h, fun h => h, fun _ h => by simp at h⟩
  | cons o ops ih =>
    have hstep : i < (step ctor s o).created.length ∧
        (AList.get? s.registry sc = some i → ¬ o.isRemove sc → AList.get? (step ctor s o).registry sc = some i) ∧
        (∀ sc', AList.get? s.registry sc' ≠ some i → AList.get? (step ctor s o).registry sc' ≠ some i) ∧
        (o.isRemove sc → AList.get? (step ctor s o).registry sc = none) := by
      cases o with
      | call sc' kw =>
        obtain ⟨h1, h2⟩ := call_spec ctor s sc' kw
        simp only [step]
        cases hr : (call ctor s sc' kw).2 with
        | error e =>
          obtain ⟨a, b⟩ := h1 e hr
          rw [a, b]
          exact ⟨hi, fun h _ => h, fun _ h => h, fun h => absurd h (by simp [Op.isRemove])⟩
        | ok j =>
          rcases h2 j hr with ⟨_, e⟩ | ⟨hn, rfl, hreg, a, ha⟩
          · rw [e]; exact ⟨hi, fun h _ => h, fun _ h => h, fun h => absurd h (by simp [Op.isRemove])⟩
          · rw [hreg, ha]
            refine ⟨by simp; omega, fun h _ => ?_, fun x h => ?_, fun h => absurd h (by simp [Op.isRemove])⟩
            · rw [AList.get?_set, if_neg]
              · exact h
              · rintro rfl; rw [hn] at h; simp at h
            · rw [AList.get?_set]
              split
              · simp; omega
              · exact h
      | remove sc' =>
        refine ⟨hi, fun h hne => ?_, fun x h => ?_, fun h => ?_⟩
        · simp only [step, remove, AList.get?_erase]
          rw [if_neg]
          · exact h
          · rintro rfl; exact hne rfl
        · simp only [step, remove, AList.get?_erase]
          split
          · simp
          · exact h
        · have : sc' = sc := h
          subst this
          simp [step, remove, AList.get?_erase]
      | configure sc' kw =>
        have e1 : (step ctor s (.configure sc' kw)).registry = s.registry := by
          simp only [step, scopedConfigure]; split <;> rfl
        have e2 : (step ctor s (.configure sc' kw)).created = s.created := by
          simp only [step, scopedConfigure]; split <;> rfl
        rw [e1, e2]
        exact ⟨hi, fun h _ => h, fun _ h => h, fun h => absurd h (by simp [Op.isRemove])⟩
    obtain ⟨s1, s2, s3, s4⟩ := hstep
    obtain ⟨i1, i2, i3, i4⟩ := ih (step ctor s o) s1
    refine ⟨i1, fun h hne => ?_, fun h => ?_, fun h hex => ?_⟩
    · exact i2 (s2 h (hne o (by simp))) (fun o' ho' => hne o' (by simp [ho']))
    · exact i3 (fun x => s3 x (h x))
    · obtain ⟨o', ho', hr⟩ := hex
      rcases List.mem_cons.1 ho' with rfl | ho'
      · refine i3 (fun x => ?_)
        by_cases e : x = sc
        · subst e; rw [s4 hr]; simp
        · exact s3 x (h x e)
      · exact i4 (fun x hx => s3 x (h x hx)) ⟨o', ho', hr⟩

end Verif.Session
