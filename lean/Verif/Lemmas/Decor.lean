import Verif.Spec.Decor
/-
Helper lemmas for C31, C32, C85-C87.
-/
namespace Verif.Decor

theorem callAll_ok {α ρ : Type} (f : List (Arg α) → Res ρ) (calls : List (List (Arg α))) (rs : List ρ)
    (h : Results f calls rs) : callAll f calls = (calls, .ok rs) := by
  unfold Results at h
  induction calls generalizing rs with
  | nil => cases rs <;> simp_all [callAll]
  | cons c calls ih =>
    cases rs with
    | nil => simp at h
    | cons r rs =>
      simp only [List.map_cons, List.cons.injEq] at h
      simp [callAll, h.1, ih rs h.2]

theorem callAll_fail {α ρ : Type} (f : List (Arg α) → Res ρ) (before : List (List (Arg α))) (rs : List ρ)
    (h : Results f before rs) (c : List (Arg α)) (e : Exc) (hc : f c = .error e)
    (after : List (List (Arg α))) :
    callAll f (before ++ c :: after) = (before ++ [c], .error e) := by
  unfold Results at h
  induction before generalizing rs with
  | nil => simp [callAll, hc]
  | cons b before ih =>
    cases rs with
    | nil => simp at h
    | cons r rs =>
      simp only [List.map_cons, List.cons.injEq] at h
      simp [callAll, h.1, ih rs h.2]

theorem run_append {σ ρ : Type} (fget : σ → Res ρ × σ) (m : Memo σ ρ) (a b : List (MemoOp σ)) :
    m.run fget (a ++ b) =
      (((m.run fget a).1 ++ ((m.run fget a).2.run fget b).1), ((m.run fget a).2.run fget b).2) := by
  induction a generalizing m with
  | nil => simp [Memo.run]
  | cons op a ih =>
    cases op with
    | read => simp [Memo.run, ih]
    | reset => simp [Memo.run, ih]
    | change g => simp [Memo.run, ih]

/-- With a value held and no reset, every read returns it and the getter does not run. -/
theorem run_cached {σ ρ : Type} (fget : σ → Res ρ × σ) (ops : List (MemoOp σ)) (hn : NoReset ops)
    (m : Memo σ ρ) (v : ρ) (hm : m.cache = some v) :
    (∀ r ∈ (m.run fget ops).1, r = .ok v) ∧ (m.run fget ops).2.cache = some v ∧
    (m.run fget ops).2.calls = m.calls := by
  induction ops generalizing m with
  | nil => simp [Memo.run, hm]
  | cons op ops ih =>
    have hn' : NoReset ops := fun o ho => hn o (by simp [ho])
    cases op with
    | read =>
      have := ih hn' m hm
      simp only [Memo.run, Memo.read, hm]
      refine ⟨?_, this.2⟩
      intro r hr
      rcases List.mem_cons.1 hr with rfl | hr
      · rfl
      · exact this.1 r hr
    | reset => exact absurd rfl (hn _ (by simp))
    | change g => exact ih hn' { m with env := g m.env } hm

theorem run_calls {σ ρ : Type} (fget : σ → Res ρ × σ) (hok : ∀ s, ∃ r, (fget s).1 = .ok r)
    (ops : List (MemoOp σ)) (m : Memo σ ρ) :
    (m.run fget ops).2.calls = m.calls + runsOfReads m.cache.isSome ops := by
  induction ops generalizing m with
  | nil => simp [Memo.run, runsOfReads]
  | cons op ops ih =>
    cases op with
    | read =>
      cases hc : m.cache with
      | some v => simp only [Memo.run, Memo.read, hc, ih]; rfl
      | none =>
        obtain ⟨r, hr⟩ := hok m.env
        cases hf : fget m.env with
        | mk a env =>
          rw [hf] at hr; simp only at hr; subst hr
          simp only [Memo.run, Memo.read, hc, hf, ih, Option.isSome_some, Option.isSome_none,
            runsOfReads]
          omega
    | reset =>
      rw [Memo.run, ih]
      simp only [Memo.reset, Option.isSome_none]
      cases m.cache.isSome <;> rfl
    | change g =>
      rw [Memo.run, ih]
      cases h : m.cache.isSome <;> simp [runsOfReads, h]

/-! The bounded cache -/

variable {κ ρ : Type} [DecidableEq κ]

/-- Entries are results of the function. -/
def Lru.Sound (f : κ → Res ρ) (c : Lru κ ρ) : Prop := ∀ kr ∈ c.entries, f kr.1 = .ok kr.2

theorem Lru.call_sound {f : κ → Res ρ} {c : Lru κ ρ} (h : c.Sound f) (k : κ) :
    (c.call f k).1 = f k ∧ (c.call f k).2.2.Sound f := by
  unfold Lru.call
  cases hg : AList.get? c.entries k with
  | some r =>
    have := h _ (AList.mem_of_get? hg)
    refine ⟨this.symm, ?_⟩
    intro kr hkr
    simp only [List.mem_cons] at hkr
    rcases hkr with rfl | hkr
    · exact this
    · exact h kr (List.mem_filter.1 hkr).1
  | none =>
    cases hf : f k with
    | error e => exact ⟨rfl, h⟩
    | ok r =>
      refine ⟨rfl, ?_⟩
      intro kr hkr
      simp only at hkr
      have : kr ∈ (k, r) :: c.entries := by
        split at hkr
        · exact hkr
        · exact List.mem_of_mem_take hkr
      rcases List.mem_cons.1 this with rfl | h'
      · exact hf
      · exact h kr h'

/-- The entry of `k` is at most as deep as the number of entries in front of it. -/
structure Lru.Recent (k : κ) (v : ρ) (seen : List κ) (c : Lru κ ρ) : Prop where
  wf : AList.WF c.entries
  split : ∃ a b, c.entries = a ++ (k, v) :: b ∧ ∀ kr ∈ a, kr.1 ∈ seen

theorem nodup_length_le {α} [DecidableEq α] {l m : List α} (hl : l.Nodup) (h : ∀ x ∈ l, x ∈ m) :
    l.length ≤ m.length := by
  induction l generalizing m with
  | nil => simp
  | cons x l ih =>
    rw [List.nodup_cons] at hl
    have := ih (m := m.erase x) hl.2 (fun y hy => by
      have hne : y ≠ x := by rintro rfl; exact hl.1 hy
      rw [List.mem_erase_of_ne hne]
      exact h y (by simp [hy]))
    have hx := h x (by simp)
    rw [List.length_erase_of_mem hx] at this
    have : 0 < m.length := List.length_pos_of_mem hx
    simp only [List.length_cons]; omega

theorem Lru.call_cap (f : κ → Res ρ) (c : Lru κ ρ) (k : κ) : (c.call f k).2.2.cap = c.cap := by
  unfold Lru.call; repeat' split
  all_goals rfl

theorem Lru.call_recent {f : κ → Res ρ} {c : Lru κ ρ} {k : κ} {v : ρ} {seen : List κ}
    (h : c.Recent k v seen) (j : κ) (seen' : List κ) (hj : j = k ∨ j ∈ seen')
    (hsub : ∀ x ∈ seen, x ∈ seen') (hcap : ∀ n, c.cap = some n → seen'.length < n) :
    (c.call f j).2.2.Recent k v seen' := by
  obtain ⟨wf, a, b, e, ha⟩ := h
  have hks : (a.map Prod.fst).Nodup ∧ k ∉ a.map Prod.fst ∧ k ∉ b.map Prod.fst := by
    have := wf; unfold AList.WF AList.keys at this
    rw [e, List.map_append, List.map_cons] at this
    have h2 := List.nodup_append.1 this
    refine ⟨h2.1, ?_, ?_⟩
    · intro hk; exact h2.2.2 k hk k (by simp) rfl
    · exact (List.nodup_cons.1 h2.2.1).1
  unfold Lru.call
  cases hg : AList.get? c.entries j with
  | some r =>
    refine ⟨?_, ?_⟩
    · simp only [AList.WF, AList.keys, List.map_cons, List.nodup_cons]
      refine ⟨?_, AList.wf_erase wf j⟩
      intro hm
      have : j ∈ AList.keys (AList.erase c.entries j) := hm
      rw [AList.keys_erase] at this
      simp at this
    · by_cases hjk : j = k
      · subst hjk
        have : AList.get? c.entries j = some v := AList.get?_of_mem wf (by rw [e]; simp)
        rw [this] at hg; cases hg
        exact ⟨[], _, rfl, by simp⟩
      · refine ⟨(j, r) :: a.filter (fun p => p.1 ≠ j), b.filter (fun p => p.1 ≠ j), ?_, ?_⟩
        · simp only [AList.erase, e, List.filter_append, List.filter_cons]
          simp [Ne.symm hjk]
        · intro kr hkr
          rcases List.mem_cons.1 hkr with rfl | hkr
          · exact hj.resolve_left hjk
          · exact hsub _ (ha kr (List.mem_filter.1 hkr).1)
  | none =>
    have hjk : j ≠ k := by
      rintro rfl
      have : AList.get? c.entries j = some v := AList.get?_of_mem wf (by rw [e]; simp)
      rw [this] at hg; cases hg
    have hjn : j ∉ AList.keys c.entries := AList.get?_eq_none.1 hg
    cases hf : f j with
    | error er => exact ⟨wf, a, b, e, fun kr hkr => hsub _ (ha kr hkr)⟩
    | ok r =>
      have hwf : AList.WF ((j, r) :: c.entries) := by
        simp only [AList.WF, AList.keys, List.map_cons, List.nodup_cons]
        exact ⟨hjn, wf⟩
      have hfull : ((j, r) :: c.entries) = ((j, r) :: a) ++ (k, v) :: b := by rw [e]; rfl
      have hmem : ∀ kr ∈ (j, r) :: a, kr.1 ∈ seen' := by
        intro kr hkr
        rcases List.mem_cons.1 hkr with rfl | hkr
        · exact hj.resolve_left hjk
        · exact hsub _ (ha kr hkr)
      have hnd : (((j, r) :: a).map Prod.fst).Nodup := by
        have := hwf; unfold AList.WF AList.keys at this
        rw [hfull, List.map_append] at this
        exact (List.nodup_append.1 this).1
      have hlen : ((j, r) :: a).length ≤ seen'.length := by
        have := nodup_length_le hnd (m := seen') (by
          intro x hx; obtain ⟨kr, hkr, rfl⟩ := List.mem_map.1 hx; exact hmem kr hkr)
        simpa using this
      simp only
      cases hcp : c.cap with
      | none => exact ⟨hwf, (j, r) :: a, b, hfull, hmem⟩
      | some n =>
        have hn := hcap n hcp
        refine ⟨?_, (j, r) :: a, b.take (n - (((j, r) :: a).length + 1)), ?_, hmem⟩
        · simp only [AList.WF, AList.keys]
          rw [List.map_take]
          exact List.Nodup.sublist (List.take_sublist _ _) hwf
        · simp only
          rw [hfull, List.take_append, List.take_of_length_le (by omega)]
          have : n - ((j, r) :: a).length = (n - (((j, r) :: a).length + 1)) + 1 := by omega
          rw [this, List.take_succ_cons]

end Verif.Decor
