import Verif.Lemmas.Array
import Verif.Spec.Mixins
namespace Verif.Mixins
open Verif.Arr Verif.Arr.Spec Verif.Mixins.Spec
open Query (pyEq)

theorem rel_len {c : Val → Res Val} {raw s} (h : Rel c raw s) : s.data.length = raw.length := by
  obtain ⟨T, rfl, rfl, _⟩ := h; simp [arrOf]

theorem reached_rel {cfg : Cfg} {c : Val → Res Val} (hu : Uniform cfg c) (hid : Idempotent c) {raw s}
    (h : Reached cfg c raw s) : Rel c raw s := by
  obtain ⟨data, s0, ops, hc, hl, hg, rfl, rfl⟩ := h
  exact run_rel' hu hid ops (create_rel hu hid hc) hl hg

theorem rel_reads {cfg : Cfg} {c : Val → Res Val} (hu : Uniform cfg c) (hid : Idempotent c) {raw s}
    (h : Rel c raw s) : ReadsAs cfg c raw s := ⟨rel_len h, fun i => (getitem_rel hu hid h i).1⟩

theorem read_nat (c : Val → Res Val) (raw : List Val) (i : Nat) :
    read c raw i = match raw[i]? with | some r => c r | none => .error .indexError := by
  have hp : place raw.length (i : Int) = i := by unfold place; split <;> omega
  unfold Arr.Spec.read
  by_cases h : i < raw.length
  · have : inside raw.length (i : Int) := by unfold inside; rw [hp]; omega
    rw [if_pos this, hp]
    simp only [Int.toNat_natCast]
    cases raw[i]? <;> rfl
  · have : ¬ inside raw.length (i : Int) := by unfold inside; rw [hp]; omega
    rw [if_neg this, List.getElem?_eq_none (by omega)]

theorem converted_cons {c : Val → Res Val} {r rs vs} (h : Converted c (r :: rs) vs) :
    ∃ v ws, vs = v :: ws ∧ c r = .ok v ∧ Converted c rs ws := by
  cases vs with
  | nil => simp [Converted] at h
  | cons v ws => simp [Converted] at h; exact ⟨v, ws, rfl, h.1, h.2⟩

theorem converted_len {c : Val → Res Val} {raw vs} (h : Converted c raw vs) : raw.length = vs.length := by
  have := congrArg List.length h; simpa using this

theorem converted_get {c : Val → Res Val} {raw vs} (h : Converted c raw vs) {k : Nat} {r} (hr : raw[k]? = some r) :
    ∃ v, vs[k]? = some v ∧ c r = .ok v := by
  have := congrArg (fun l => l[k]?) h
  simp only [List.getElem?_map, hr, Option.map_some] at this
  cases hv : vs[k]? with
  | none => rw [hv] at this; simp at this
  | some v => rw [hv] at this; simp at this; exact ⟨v, rfl, this⟩

/-! ### Reading in turn -/

theorem iterFrom_ok {cfg : Cfg} {c : Val → Res Val} (hu : Uniform cfg c) (hid : Idempotent c) {raw : List Val}
    (rest : List Val) : ∀ (good vs : List Val) (i : Nat) (s : Arr), Rel c raw s → raw = raw.take i ++ good ++ rest →
      i + good.length + rest.length = raw.length → Converted c good vs →
      (∀ r rs, rest = r :: rs → ∃ e, c r = .error e) →
      (iterFrom cfg (good.length + rest.length + 1) i s).1 = (match rest with
        | [] => .ok vs
        | r :: _ => match c r with
          | .error .indexError => .ok vs
          | .error e => .error e
          | .ok _ => .ok vs) ∧
      Rel c raw (iterFrom cfg (good.length + rest.length + 1) i s).2 := by
  intro good
  induction good with
  | nil =>
    intro vs i s h hraw hlen hc hbad
    have hvs : vs = [] := by have := converted_len hc; simpa using this.symm
    subst hvs
    have hg := getitem_rel (cfg := cfg) hu hid h (i : Int)
    rw [read_nat] at hg
    simp only [List.length_nil, Nat.zero_add, Nat.add_zero] at hlen ⊢
    unfold iterFrom
    cases hrest : rest with
    | nil =>
      subst hrest
      rw [List.getElem?_eq_none (by simp at hlen; omega)] at hg
      simp only at hg
      obtain ⟨hg1, hg2⟩ := hg
      cases hgi : getitem cfg (i : Int) s with
      | mk x y => rw [hgi] at hg1 hg2; simp at hg1; subst hg1; exact ⟨rfl, hg2⟩
    | cons r rs =>
      subst hrest
      have hget : raw[i]? = some r := by
        rw [hraw]
        have hli : (raw.take i).length = i := by simp; simp at hlen; omega
        simp [List.getElem?_append, hli]
      rw [hget] at hg
      obtain ⟨e, he⟩ := hbad r rs rfl
      simp only [he] at hg ⊢
      obtain ⟨hg1, hg2⟩ := hg
      cases hgi : getitem cfg (i : Int) s with
      | mk x y => rw [hgi] at hg1 hg2; simp at hg1; subst hg1; cases e <;> exact ⟨rfl, hg2⟩
  | cons g good ih =>
    intro vs i s h hraw hlen hc hbad
    obtain ⟨v, ws, rfl, hv, hws⟩ := converted_cons hc
    have hli : (raw.take i).length = i := by simp; simp at hlen; omega
    have hget : raw[i]? = some g := by
      rw [hraw]; simp [List.getElem?_append, hli]
    have hg := getitem_rel (cfg := cfg) hu hid h (i : Int)
    rw [read_nat, hget] at hg
    simp only [hv] at hg
    obtain ⟨hg1, hg2⟩ := hg
    have hn : (g :: good).length + rest.length + 1 = (good.length + rest.length + 1) + 1 := by simp; omega
    rw [hn]
    unfold iterFrom
    cases hgi : getitem cfg (i : Int) s with
    | mk x y =>
      rw [hgi] at hg1 hg2
      simp at hg1; subst hg1
      have hraw' : raw = raw.take (i + 1) ++ good ++ rest := by
        have : raw.take (i + 1) = raw.take i ++ [g] := by
          rw [List.take_add_one, hget]; rfl
        rw [this]; conv => lhs; rw [hraw]
        simp
      have := ih ws (i + 1) y hg2 hraw' (by simp at hlen; omega) hws hbad
      obtain ⟨h1, h2⟩ := this
      simp only
      cases hit : iterFrom cfg (good.length + rest.length + 1) (i + 1) y with
      | mk a b =>
        rw [hit] at h1 h2
        simp only at h1 h2
        subst h1
        cases rest with
        | nil => exact ⟨rfl, h2⟩
        | cons r rs =>
          obtain ⟨e, he⟩ := hbad r rs rfl
          simp only [he]
          cases e <;> exact ⟨rfl, h2⟩

theorem items_rel {cfg : Cfg} {c : Val → Res Val} (hu : Uniform cfg c) (hid : Idempotent c) {raw s} (h : Rel c raw s)
    {vs} (hv : Converted c raw vs) : (items cfg s).1 = .ok vs ∧ Rel c raw (items cfg s).2 := by
  have := iterFrom_ok (cfg := cfg) hu hid [] raw vs 0 s h (by simp) (by simp) hv (by simp)
  simpa [items, rel_len h] using this

/-! ### Deleting -/

theorem delitem_fst {cfg : Cfg} (hs : ∀ s, cfg.okSelf s = none) {c : Val → Res Val} {raw s} (h : Rel c raw s) (i : Int)
    (hi : inside raw.length i) : (delitem cfg i s).1 = .ok () := by
  obtain ⟨T, rfl, rfl, hT⟩ := h
  have hn := norm_inside T.length i
  rw [if_pos (by simpa using hi)] at hn
  have hd : ∀ {β : Type} (f : Row → β), delAt (T.map f) i = .ok ((T.eraseIdx (place T.length i).toNat).map f) := by
    intro β f
    simp only [delAt, List.length_map, hn, map_eraseIdx']
  simp only [delitem, arrOf, hd, hs]

theorem delitem_refused {cfg : Cfg} {c : Val → Res Val} {raw s} (h : Rel c raw s) (i : Int)
    (hi : inside raw.length i) {e : Exc} (he : cfg.okSelf (delitem cfg i s).2 = some e) :
    (delitem cfg i s).1 = .error e := by
  obtain ⟨T, rfl, rfl, hT⟩ := h
  have hn := norm_inside T.length i
  rw [if_pos (by simpa using hi)] at hn
  have hd : ∀ {β : Type} (f : Row → β), delAt (T.map f) i = .ok ((T.eraseIdx (place T.length i).toNat).map f) := by
    intro β f
    simp only [delAt, List.length_map, hn, map_eraseIdx']
  simp only [delitem, arrOf, hd] at he ⊢
  split at he
  · rename_i e' h'
    rw [h'] at he
    simp only [h'] at he ⊢
    cases he; rfl
  · rename_i h'
    simp only [h'] at he
    cases he

theorem read_ok_inside {c : Val → Res Val} {raw i v} (h : read c raw i = .ok v) : inside raw.length i := by
  unfold Arr.Spec.read at h
  split at h
  · assumption
  · cases h

theorem pop_rel {cfg : Cfg} {c : Val → Res Val} (hu : Uniform cfg c) (hid : Idempotent c)
    (hs : ∀ s, cfg.okSelf s = none) {raw s} (h : Rel c raw s) (i : Int) :
    (pop cfg i s).1 = read c raw i ∧
    (∀ v, read c raw i = .ok v → Rel c (Arr.Spec.step raw (.del i)) (pop cfg i s).2) ∧
    (∀ e, read c raw i = .error e → Rel c raw (pop cfg i s).2) := by
  obtain ⟨hg1, hg2⟩ := getitem_rel (cfg := cfg) hu hid h i
  unfold pop
  cases hgi : getitem cfg i s with
  | mk x y =>
    rw [hgi] at hg1 hg2
    simp only at hg1 hg2
    cases x with
    | error e =>
      rw [← hg1]
      exact ⟨rfl, (fun v hv => by cases hv), fun e' _ => hg2⟩
    | ok v =>
      rw [← hg1]
      have hin := read_ok_inside hg1.symm
      have hd1 := delitem_fst hs hg2 i hin
      have hd2 := delitem_rel (cfg := cfg) hg2 i
      simp only [next]
      cases hdi : delitem cfg i y with
      | mk a b =>
        rw [hdi] at hd1 hd2
        simp only at hd1 hd2
        subst hd1
        exact ⟨rfl, (fun v' _ => hd2), (fun e' he => by cases he)⟩

theorem read_last (c : Val → Res Val) (raw : List Val) (r : Val) : read c (raw ++ [r]) (-1) = c r := by
  have hp : place (raw ++ [r]).length (-1) = raw.length := by unfold place; simp; omega
  unfold Arr.Spec.read
  have : inside (raw ++ [r]).length (-1) := by unfold inside; rw [hp]; simp; omega
  rw [if_pos this, hp]; simp

theorem del_last (raw : List Val) (r : Val) : Arr.Spec.step (raw ++ [r]) (.del (-1)) = raw := by
  have hp : place (raw ++ [r]).length (-1) = raw.length := by unfold place; simp; omega
  unfold Arr.Spec.step
  have : inside (raw ++ [r]).length (-1) := by unfold inside; rw [hp]; simp; omega
  simp only []
  rw [if_pos this, hp]
  simp [List.eraseIdx_append_of_length_le]

theorem read_nil (c : Val → Res Val) (i : Int) : read c [] i = .error .indexError := by
  unfold Arr.Spec.read
  split
  · simp
  · rfl

/-- `clear` on items the last of which are converted. -/
theorem clearLoop_rel {cfg : Cfg} {c : Val → Res Val} (hu : Uniform cfg c) (hid : Idempotent c)
    (hs : ∀ s, cfg.okSelf s = none) (pre : List Val) : ∀ (n : Nat) (post ws : List Val) (s : Arr) (rounds : Nat),
      post.length = n → Rel c (pre ++ post) s → Converted c post ws → post.length + 1 ≤ rounds →
      (∀ q r, pre = q ++ [r] → ∃ e, c r = .error e) →
      (clearLoop cfg rounds s).1 = (match pre.getLast? with
        | none => .ok ()
        | some r => match c r with
          | .error .indexError => .ok ()
          | .error e => .error e
          | .ok _ => .ok ()) ∧
      Rel c pre (clearLoop cfg rounds s).2 := by
  intro n
  induction n with
  | zero =>
    intro post ws s rounds hn h hc hr hbad
    have : post = [] := by simpa using hn
    subst this
    obtain ⟨m, rfl⟩ : ∃ m, rounds = m + 1 := ⟨rounds - 1, by simp at hr; omega⟩
    simp only [List.append_nil] at h
    obtain ⟨h1, _, h3⟩ := pop_rel (cfg := cfg) hu hid hs h (-1)
    unfold clearLoop
    rcases List.eq_nil_or_concat pre with rfl | ⟨q, r, rfl⟩
    · rw [read_nil] at h1 h3
      cases hp : pop cfg (-1) s with
      | mk a b =>
        rw [hp] at h1 h3
        simp only at h1
        subst h1
        exact ⟨rfl, h3 _ rfl⟩
    · rw [List.concat_eq_append] at *
      obtain ⟨e, he⟩ := hbad q r rfl
      rw [read_last, he] at h1 h3
      cases hp : pop cfg (-1) s with
      | mk a b =>
        rw [hp] at h1 h3
        simp only at h1
        subst h1
        have := h3 _ rfl
        simp only [List.getLast?_append, List.getLast?_singleton, Option.some_or, he]
        cases e <;> exact ⟨rfl, this⟩
  | succ n ih =>
    intro post ws s rounds hn h hc hr hbad
    obtain ⟨m, rfl⟩ : ∃ m, rounds = m + 1 := ⟨rounds - 1, by omega⟩
    rcases List.eq_nil_or_concat post with rfl | ⟨q, r, rfl⟩
    · simp at hn
    · rw [List.concat_eq_append] at *
      have hcq : Converted c q ws.dropLast ∧ ∃ w, c r = .ok w := by
        have hl := converted_len hc
        rcases List.eq_nil_or_concat ws with rfl | ⟨wq, w, rfl⟩
        · simp at hl
        · rw [List.concat_eq_append] at *
          simp only [Converted, List.map_append, List.map_cons, List.map_nil] at hc
          have := List.append_inj hc (by simp at hl ⊢; exact hl)
          refine ⟨by simp [Converted, this.1], w, by simpa using this.2⟩
      obtain ⟨hcq, w, hw⟩ := hcq
      rw [← List.append_assoc] at h
      obtain ⟨h1, h2, _⟩ := pop_rel (cfg := cfg) hu hid hs h (-1)
      rw [read_last, hw] at h1 h2
      rw [del_last] at h2
      unfold clearLoop
      cases hp : pop cfg (-1) s with
      | mk a b =>
        rw [hp] at h1 h2
        simp only at h1
        subst h1
        exact ih q _ b m (by simpa using hn) (h2 _ rfl) hcq (by simp at hr; omega) hbad

/-! ### Searching -/

theorem indexFrom_rel {cfg : Cfg} {c : Val → Res Val} (hu : Uniform cfg c) (hid : Idempotent c) {raw : List Val}
    (x : Val) : ∀ (good vs : List Val) (i : Nat) (s : Arr), Rel c raw s → raw.drop i = good → Converted c good vs →
      (indexFrom cfg x (good.length + 1) i s).1 = (match vs.findIdx? (fun v => pyEq v x) with
        | some k => .ok (i + k)
        | none => .error .valueError) ∧
      Rel c raw (indexFrom cfg x (good.length + 1) i s).2 ∧
      (containsFrom cfg x (good.length + 1) i s).1 = .ok (vs.any (fun v => pyEq v x)) ∧
      Rel c raw (containsFrom cfg x (good.length + 1) i s).2 := by
  intro good
  induction good with
  | nil =>
    intro vs i s h hd hc
    have hvs : vs = [] := by have := converted_len hc; simpa using this.symm
    subst hvs
    have hg := getitem_rel (cfg := cfg) hu hid h (i : Int)
    have hl : raw.length ≤ i := by simpa using hd
    rw [read_nat, List.getElem?_eq_none hl] at hg
    unfold indexFrom containsFrom
    cases hgi : getitem cfg (i : Int) s with
    | mk a b =>
      rw [hgi] at hg
      obtain ⟨hg1, hg2⟩ := hg
      simp only at hg1
      subst hg1
      exact ⟨rfl, hg2, rfl, hg2⟩
  | cons g good ih =>
    intro vs i s h hd hc
    obtain ⟨v, ws, rfl, hv, hws⟩ := converted_cons hc
    have hget : raw[i]? = some g := by
      have := congrArg (fun l => l[0]?) hd
      simpa using this
    have hg := getitem_rel (cfg := cfg) hu hid h (i : Int)
    rw [read_nat, hget] at hg
    simp only [hv] at hg
    have hd' : raw.drop (i + 1) = good := by
      have := congrArg List.tail hd
      simpa [List.tail_drop] using this
    unfold indexFrom containsFrom
    cases hgi : getitem cfg (i : Int) s with
    | mk a b =>
      rw [hgi] at hg
      obtain ⟨hg1, hg2⟩ := hg
      simp only at hg1
      subst hg1
      by_cases hp : pyEq v x = true
      · simp only [hp, if_true, List.findIdx?_cons, List.any_cons, Bool.true_or]
        exact ⟨by simp, hg2, by simp, hg2⟩
      · simp only [hp, List.findIdx?_cons, List.any_cons, Bool.false_or]
        obtain ⟨i1, i2, i3, i4⟩ := ih ws (i + 1) b hg2 hd' hws
        refine ⟨?_, i2, i3, i4⟩
        simp only [List.length_cons]
        refine i1.trans ?_
        cases List.findIdx? (fun v => pyEq v x) ws <;> simp
        omega

/-! ### Assigning -/

theorem setitem_fst {cfg : Cfg} {c : Val → Res Val} (hu : Uniform cfg c) (hid : Idempotent c) (hl : cfg.lazy = false)
    {raw s} (h : Rel c raw s) {i : Int} (hi : inside raw.length i) {v w : Val} (hv : c v = .ok w) :
    (setitem cfg i v s).1 = .ok () := by
  obtain ⟨T, rfl, rfl, hT⟩ := h
  have hn := norm_inside T.length i
  rw [if_pos (by simpa using hi)] at hn
  have hset : setAt (arrOf T).data i v = .ok ((T.map (fun t => t.2.1)).set (place T.length i).toNat v) := by
    simp only [arrOf]; rw [setAt_some v (by simpa using hn)]
  have hk := norm_lt hn
  simp only [setitem, hset, hl]
  simp only [Bool.false_eq_true, if_false]
  simp only [evaluate, arrOf]
  have h1 : setAt (T.map (fun _ => ())) i () = .ok ((T.map (fun _ => ())).set (place T.length i).toNat ()) :=
    setAt_some () (by simpa using hn)
  rw [h1]
  have h2 : getAt ((T.map (fun t : Row => t.2.1)).set (place T.length i).toNat v) i = .ok v := by
    rw [getAt_some (k := (place T.length i).toNat) (by simpa using hn)]
    simp
  simp only [h2, hu i, hv]
  have h3 : setAt ((T.map (fun t : Row => t.2.1)).set (place T.length i).toNat v) i w =
      .ok (((T.map (fun t : Row => t.2.1)).set (place T.length i).toNat v).set (place T.length i).toNat w) :=
    setAt_some w (by simpa using hn)
  have h4 : setAt (T.map (fun t : Row => t.2.2)) i w = .ok ((T.map (fun t : Row => t.2.2)).set (place T.length i).toNat w) :=
    setAt_some w (by simpa using hn)
  simp only [setValidated, h2, h3, h4]
  split <;> (rename_i heq; split at heq <;> cases heq <;> rfl)

theorem step_set_nat (raw : List Val) {i : Nat} (v : Val) (h : i < raw.length) :
    inside raw.length (i : Int) ∧ Arr.Spec.step raw (.set i v) = raw.set i v := by
  have hp : place raw.length (i : Int) = i := by unfold place; split <;> omega
  have hi : inside raw.length (i : Int) := by unfold inside; rw [hp]; omega
  refine ⟨hi, ?_⟩
  simp only [Arr.Spec.step]
  rw [if_pos hi, hp]
  simp

theorem converted_set {c : Val → Res Val} {raw vs} (h : Converted c raw vs) (k : Nat) {v w} (hv : c v = .ok w) :
    Converted c (raw.set k v) (vs.set k w) := by
  simp only [Converted, List.map_set] at *
  rw [h, hv]

theorem set_rel {cfg : Cfg} {c : Val → Res Val} (hu : Uniform cfg c) (hid : Idempotent c) (hl : cfg.lazy = false)
    {raw s} (h : Rel c raw s) {i : Nat} (hi : i < raw.length) {v w} (hv : c v = .ok w) :
    ∃ s', setitem cfg (i : Int) v s = (.ok (), s') ∧ Rel c (raw.set i v) s' := by
  obtain ⟨hin, hst⟩ := step_set_nat raw v hi
  have h1 := setitem_fst (cfg := cfg) hu hid hl h hin hv
  have h2 := setitem_rel (cfg := cfg) hu hid hl h (i : Int) v ⟨w, hv⟩
  rw [hst] at h2
  cases hs : setitem cfg (i : Int) v s with
  | mk a b => rw [hs] at h1 h2; simp only at h1; subst h1; exact ⟨b, rfl, h2⟩

theorem get_rel {cfg : Cfg} {c : Val → Res Val} (hu : Uniform cfg c) (hid : Idempotent c)
    {raw s} (h : Rel c raw s) {i : Nat} {r v} (hr : raw[i]? = some r) (hv : c r = .ok v) :
    ∃ s', getitem cfg (i : Int) s = (.ok v, s') ∧ Rel c raw s' := by
  obtain ⟨h1, h2⟩ := getitem_rel (cfg := cfg) hu hid h (i : Int)
  rw [read_nat, hr] at h1
  simp only [hv] at h1
  cases hs : getitem cfg (i : Int) s with
  | mk a b => rw [hs] at h1 h2; simp only at h1; subst h1; exact ⟨b, rfl, h2⟩

theorem swap_rel {cfg : Cfg} {c : Val → Res Val} (hu : Uniform cfg c) (hid : Idempotent c) (hl : cfg.lazy = false)
    {raw s vs} (h : Rel c raw s) (hc : Converted c raw vs) {i j : Nat} {a b : Val} (ha : vs[i]? = some a)
    (hb : vs[j]? = some b) :
    ∃ raw' s', swap cfg i j s = (.ok (), s') ∧ Rel c raw' s' ∧ Converted c raw' ((vs.set i b).set j a) := by
  have hlen := converted_len hc
  have hi : i < raw.length := by
    rcases Nat.lt_or_ge i vs.length with h' | h'
    · omega
    · rw [List.getElem?_eq_none h'] at ha; cases ha
  have hj : j < raw.length := by
    rcases Nat.lt_or_ge j vs.length with h' | h'
    · omega
    · rw [List.getElem?_eq_none h'] at hb; cases hb
  have hri : raw[i]? = some raw[i] := List.getElem?_eq_getElem hi
  have hrj : raw[j]? = some raw[j] := List.getElem?_eq_getElem hj
  obtain ⟨a', ha', hca⟩ := converted_get hc hri
  obtain ⟨b', hb', hcb⟩ := converted_get hc hrj
  rw [ha] at ha'; cases ha'
  rw [hb] at hb'; cases hb'
  obtain ⟨s1, e1, r1⟩ := get_rel (cfg := cfg) hu hid h hrj hcb
  obtain ⟨s2, e2, r2⟩ := get_rel (cfg := cfg) hu hid r1 hri hca
  obtain ⟨s3, e3, r3⟩ := set_rel (cfg := cfg) hu hid hl r2 hi (hid _ _ hcb)
  obtain ⟨s4, e4, r4⟩ := set_rel (cfg := cfg) hu hid hl r3 (i := j) (by simpa using hj) (hid _ _ hca)
  refine ⟨_, s4, ?_, r4, converted_set (converted_set hc i (hid _ _ hcb)) j (hid _ _ hca)⟩
  simp only [swap, e1, next, e2, e3, e4]

/-- `l` is `vs` with the first `i` and the last `i` items reversed. -/
def Swapped (vs : List Val) (i : Nat) (l : List Val) : Prop :=
  l.length = vs.length ∧ ∀ k, k < vs.length →
    l[k]? = if k < i ∨ vs.length - i ≤ k then vs[vs.length - 1 - k]? else vs[k]?

theorem reverseFrom_rel {cfg : Cfg} {c : Val → Res Val} (hu : Uniform cfg c) (hid : Idempotent c)
    (hl : cfg.lazy = false) (vs : List Val) : ∀ (count i : Nat) (raw l : List Val) (s : Arr),
      Rel c raw s → Converted c raw l → Swapped vs i l → count + i = vs.length / 2 →
      ∃ raw' l' s', reverseFrom cfg vs.length count i s = (.ok (), s') ∧ Rel c raw' s' ∧ Converted c raw' l' ∧
        Swapped vs (vs.length / 2) l' := by
  intro count
  induction count with
  | zero =>
    intro i raw l s h hc hsw hi
    have : i = vs.length / 2 := by omega
    subst this
    exact ⟨raw, l, s, rfl, h, hc, hsw⟩
  | succ count ih =>
    intro i raw l s h hc hsw hi
    obtain ⟨hsl, hsg⟩ := hsw
    have hin : i < vs.length := by omega
    have hjn : vs.length - i - 1 < vs.length := by omega
    have ha : l[i]? = some vs[i] := by
      rw [hsg i hin, if_neg (by omega)]; exact List.getElem?_eq_getElem hin
    have hb : l[vs.length - i - 1]? = some vs[vs.length - i - 1] := by
      rw [hsg _ hjn, if_neg (by omega)]; exact List.getElem?_eq_getElem hjn
    obtain ⟨raw', s', e, r, hc'⟩ := swap_rel (cfg := cfg) hu hid hl h hc ha hb
    have hsw' : Swapped vs (i + 1) ((l.set i vs[vs.length - i - 1]).set (vs.length - i - 1) vs[i]) := by
      refine ⟨by simpa using hsl, fun k hk => ?_⟩
      by_cases hkj : vs.length - i - 1 = k
      · subst hkj
        rw [List.getElem?_set_self (by simp; omega), if_pos (by omega)]
        have : vs.length - 1 - (vs.length - i - 1) = i := by omega
        rw [this]; exact (List.getElem?_eq_getElem hin).symm
      · rw [List.getElem?_set_ne hkj]
        by_cases hki : i = k
        · subst hki
          rw [List.getElem?_set_self (by omega), if_pos (by omega)]
          have : vs.length - 1 - i = vs.length - i - 1 := by omega
          rw [this]; exact (List.getElem?_eq_getElem hjn).symm
        · rw [List.getElem?_set_ne hki, hsg k hk]
          by_cases hcond : k < i ∨ vs.length - i ≤ k
          · rw [if_pos hcond, if_pos (by omega)]
          · rw [if_neg hcond, if_neg (by omega)]
    obtain ⟨raw'', l', s'', e', r', c', sw'⟩ := ih (i + 1) raw' _ s' r hc' hsw' (by omega)
    refine ⟨raw'', l', s'', ?_, r', c', sw'⟩
    simp only [reverseFrom, e, next, e']

theorem swapped_all {vs l : List Val} (h : Swapped vs (vs.length / 2) l) : l = vs.reverse := by
  obtain ⟨h1, h2⟩ := h
  apply List.ext_getElem?
  intro k
  rcases Nat.lt_or_ge k vs.length with hk | hk
  · rw [h2 k hk, List.getElem?_reverse hk]
    by_cases hcond : k < vs.length / 2 ∨ vs.length - vs.length / 2 ≤ k
    · rw [if_pos hcond]
    · rw [if_neg hcond]
      have : vs.length - 1 - k = k := by omega
      rw [this]
  · rw [List.getElem?_eq_none (by omega), List.getElem?_eq_none (by simpa using hk)]

theorem reverse_rel {cfg : Cfg} {c : Val → Res Val} (hu : Uniform cfg c) (hid : Idempotent c) (hl : cfg.lazy = false)
    {raw s vs} (h : Rel c raw s) (hc : Converted c raw vs) :
    ∃ raw' s', reverse cfg s = (.ok (), s') ∧ Rel c raw' s' ∧ Converted c raw' vs.reverse := by
  have hn : s.data.length = vs.length := (rel_len h).trans (converted_len hc)
  obtain ⟨raw', l', s', e, r, c', sw⟩ := reverseFrom_rel (cfg := cfg) hu hid hl vs (vs.length / 2) 0 raw vs s h hc
    ⟨rfl, fun k hk => by rw [if_neg (by omega)]⟩ (by omega)
  refine ⟨raw', s', ?_, r, ?_⟩
  · simp only [reverse, hn, e]
  · rw [← swapped_all sw]; exact c'

/-! ### Appending -/

theorem append_rel {cfg : Cfg} {c : Val → Res Val} (hu : Uniform cfg c) (hid : Idempotent c)
    {raw s} (h : Rel c raw s) (v : Val) : Rel c (raw ++ [v]) (append cfg v s).2 := by
  have := insert_rel (cfg := cfg) hu hid h raw.length v
  rw [app_ins] at this
  simpa [append, rel_len h, Arr.Spec.step] using this

theorem append_fst {cfg : Cfg} {c : Val → Res Val} (hu : Uniform cfg c) (hid : Idempotent c)
    (hok : ∀ x, cfg.okItem x = none) {raw s} (h : Rel c raw s) {v w : Val} (hv : c v = .ok w) :
    (append cfg v s).1 = if sequence v then .ok () else .error .invalidValue := by
  obtain ⟨T, rfl, rfl, hT⟩ := h
  have hn : clamp T.length (T.length : Int) = T.length := by unfold clamp; split <;> omega
  have hs : (Arr.mk (insertAt (arrOf T).data (T.length : Int) v) (insertAt (arrOf T).validated (T.length : Int) .none)
      (insertAt (arrOf T).inputs (T.length : Int) ())) = arrOf (T ++ [(v, v, .none)]) := by
    simp [arrOf, insertAt, hn, ← List.map_take, ← List.map_drop]
  have hT' : ∀ t ∈ T ++ [((v, v, .none) : Row)], Good c t := by
    intro t ht
    rcases List.mem_append.1 ht with ht | ht
    · exact hT t ht
    · simp at ht; subst ht; exact Or.inl ⟨rfl, rfl⟩
  have hk : norm (T ++ [((v, v, .none) : Row)]).length (T.length : Int) = some T.length := by
    unfold norm
    simp
    omega
  have hlt : T.length < (T ++ [((v, v, .none) : Row)]).length := by simp
  have hdl : (arrOf T).data.length = T.length := by simp [arrOf]
  simp only [append, Arr.insert, hdl]
  rw [hs]
  rcases evaluate_arrOf (cfg := cfg) hu hid _ hT' hk hlt with ⟨e, hc, he⟩ | ⟨w', d, hw, hd, he⟩
  · simp [hv] at hc
  · rw [he]
    by_cases hq : sequence v = true <;> by_cases hz : cfg.lazy = true <;> simp [checkItem, hok, hq, hz]

theorem extend_rel {cfg : Cfg} {c : Val → Res Val} (hu : Uniform cfg c) (hid : Idempotent c)
    (hok : ∀ x, cfg.okItem x = none) : ∀ (ws : List Val) {raw s}, Rel c raw s →
      (∀ v ∈ ws, sequence v = true ∧ ∃ w, c v = .ok w) →
      (extend cfg ws s).1 = .ok () ∧ Rel c (raw ++ ws) (extend cfg ws s).2
  | [], raw, s, h, _ => ⟨rfl, by simpa [extend] using h⟩
  | v :: ws, raw, s, h, hw => by
    obtain ⟨hq, w, hv⟩ := hw v List.mem_cons_self
    have h1 := append_fst (cfg := cfg) hu hid hok h hv
    have h2 := append_rel (cfg := cfg) hu hid h v
    rw [if_pos hq] at h1
    unfold extend
    cases ha : append cfg v s with
    | mk a b =>
      rw [ha] at h1 h2
      simp only at h1
      subst h1
      have := extend_rel hu hid hok ws h2 (fun x hx => hw x (List.mem_cons_of_mem _ hx))
      simpa [next] using this

/-! ### Objects -/

open Verif.Obj (Obj Cls Out getItem setItem delItem)

theorem rawName_plain {c : Cls} (hp : Plain c) (k : Str) :
    Obj.rawName c k = if k ∈ c.props ∨ c.additional = true then some k else none := by
  by_cases h : k ∈ c.props
  · simp [Obj.rawName, h]
  · by_cases ha : c.additional = true <;>
      simp [Obj.rawName, h, ha, Obj.translated, hp.translation, Obj.aliasOf, hp.aliases, hp.negated, AList.get?]

theorem unalias_plain {c : Cls} (hp : Plain c) (k : Str) : Obj.unalias c k = k := by
  simp [Obj.unalias, hp.negated, hp.aliases, AList.get?]

theorem op_plain {c : Cls} (hp : Plain c) (k : Str) (v : Val) : Obj.op c k v = .ok v := by
  simp [Obj.op, hp.negated, AList.contains, AList.get?]

theorem isOutdated_plain {c : Cls} (hp : Plain c) {m : AList Str Val} {s : Obj} (h : Holds c m s) (rd) {k : Str} {v}
    (hk : m.get? k = some v) : Obj.isOutdated c rd k s = (.ok false, s) := by
  have hin : k ∈ s.data.keys := (h.keys k).2 ((AList.get?_isSome ..).1 (by rw [hk]; rfl))
  have hd : ∃ d, s.data.get? k = some d := Option.isSome_iff_exists.1 ((AList.get?_isSome ..).2 hin)
  obtain ⟨d, hd⟩ := hd
  have hi : Obj.inputsChanged c rd k s = (.ok false, s) := by
    have : Obj.inputsOf c rd k s = (.ok [], s) := by
      simp only [Obj.inputsOf, Obj.depsOf, hp.deps, AList.get?, Option.getD_none, Obj.collect]
      split
      · simp only [hd, hp.reads, Obj.collect]
      · rfl
    simp only [Obj.inputsChanged, this, h.inputs k]
    rfl
  unfold Obj.isOutdated
  rw [h.values, hk]
  cases v with
  | none => simp only [h.nones k hk, hi]
  | _ => exact hi

theorem getItem_holds {c : Cls} (hp : Plain c) {m : AList Str Val} {s : Obj} (h : Holds c m s) (n : Nat) (k : Str) :
    getItem c (n + 1) k s = match m.get? k with
      | some v => (.ok v, s)
      | none => (.error .keyError, s) := by
  cases hk : m.get? k with
  | none =>
    have hnd : ¬ k ∈ s.data.keys := by
      intro hin
      have := (AList.get?_isSome ..).2 ((h.keys k).1 hin)
      rw [hk] at this; cases this
    have hc : s.data.contains k = false := by
      cases hcc : s.data.contains k with
      | false => rfl
      | true => exact absurd ((AList.contains_iff ..).1 hcc) hnd
    simp only [getItem, unalias_plain hp, rawName_plain hp]
    split
    · rfl
    · rename_i raw heq
      split at heq
      · cases heq; simp [hc]
      · cases heq
  | some v =>
    have hkm : k ∈ m.keys := (AList.get?_isSome ..).1 (by rw [hk]; rfl)
    have hc : s.data.contains k = true := (AList.contains_iff ..).2 ((h.keys k).2 hkm)
    have hv : s.validated.get? k = some v := by rw [h.values]; exact hk
    simp only [getItem, unalias_plain hp, rawName_plain hp]
    rw [if_pos (h.known k hkm)]
    simp only [hc]
    by_cases hprop : k ∈ c.props
    · simp [hprop, Obj.through, Obj.descGet, isOutdated_plain hp h _ hk, hp.getter, Obj.validatedOf, hv, op_plain hp]
    · simp [hprop, Obj.through, Obj.plainGet, hp.lazy, isOutdated_plain hp h _ hk, Obj.validatedOf, hv, op_plain hp]

theorem mem_keys_erase {υ : Type} (d : AList Str υ) (k x : Str) :
    x ∈ (d.erase k).keys ↔ x ∈ d.keys ∧ x ≠ k := by
  rw [AList.keys_erase]; simp

theorem delItem_holds {c : Cls} (hp : Plain c) {m : AList Str Val} {s : Obj} (h : Holds c m s) (hr : Recorded s)
    {k : Str} (hk : k ∈ m.keys) :
    ∃ s', delItem c k s = (.ok (), s') ∧ Holds c (m.erase k) s' ∧ Recorded s' := by
  have hd : s.data.contains k = true := AList.contains_iff.2 ((h.keys k).2 hk)
  have hv : s.validated.contains k = true := AList.contains_iff.2 (by rw [h.values]; exact hk)
  have hi : s.inputs.contains k = true := AList.contains_iff.2 (hr k (by rw [h.values]; exact hk))
  refine ⟨{ data := s.data.erase k, validated := s.validated.erase k, inputs := s.inputs.erase k }, ?_, ?_, ?_⟩
  · simp [delItem, Obj.translated, hp.translation, Obj.delData, hd, Obj.andThen, Obj.delInputs, hi, Obj.delValidated, hv]
  · constructor
    · exact AList.wf_erase h.wf k
    · intro x hx; exact h.known x ((mem_keys_erase ..).1 hx).1
    · simp only [h.values]
    · intro x; simp only [mem_keys_erase, h.keys x]
    · intro x hx
      simp only [AList.get?_erase] at hx ⊢
      split at hx
      · cases hx
      · rename_i hne; rw [if_neg hne]; exact h.nones x hx
    · intro x
      simp only [AList.get?_erase]
      split
      · rfl
      · exact h.inputs x
  · intro x hx
    simp only [mem_keys_erase] at hx ⊢
    exact ⟨hr x hx.1, hx.2⟩

theorem setItem_new {c : Cls} (hp : Plain c) {m : AList Str Val} {s : Obj} (h : Holds c m s) (n : Nat) {k : Str}
    (v : Val) (hk : k ∉ c.props) (ha : c.additional = true) :
    ∃ s', setItem c n k v s = (.ok (), s') ∧ Holds c (m.set k v) s' := by
  refine ⟨{ s with data := s.data.set k v, validated := s.validated.set k v }, ?_, ?_⟩
  · simp [setItem, rawName_plain hp, ha, hk, op_plain hp]
  · constructor
    · exact AList.wf_set h.wf k v
    · intro x _; exact Or.inr ha
    · simp only [h.values]
    · intro x; simp only [AList.mem_keys_set, h.keys x]
    · intro x hx
      rw [AList.get?_set] at hx
      simp only [AList.get?_set]
      split at hx
      · rename_i hxk; rw [if_pos hxk]; exact hx
      · rename_i hxk; rw [if_neg hxk]; exact h.nones x hx
    · exact h.inputs

theorem erase_head {υ : Type} {k : Str} {v : υ} {m : AList Str υ} (hw : AList.WF ((k, v) :: m)) :
    AList.erase ((k, v) :: m) k = m := by
  unfold AList.WF at hw
  rw [AList.keys_cons, List.nodup_cons] at hw
  unfold AList.erase
  rw [List.filter_cons_of_neg (by simp)]
  rw [List.filter_eq_self]
  intro p hp
  have : p.1 ∈ AList.keys m := List.mem_map.2 ⟨p, hp, rfl⟩
  simp only [decide_eq_true_eq]
  intro he
  exact hw.1 (he ▸ this)

theorem popitem_holds {c : Cls} (hp : Plain c) {k : Str} {v : Val} {m : AList Str Val} {s : Obj}
    (h : Holds c ((k, v) :: m) s) (hr : Recorded s) (n : Nat) :
    ∃ s', popitem c (n + 1) s = (.ok (k, v), s') ∧ Holds c m s' ∧ Recorded s' := by
  have hg := getItem_holds hp h n k
  have hget : AList.get? ((k, v) :: m) k = some v := by simp [AList.get?]
  rw [hget] at hg
  obtain ⟨s', e, h', r'⟩ := delItem_holds hp h hr (k := k) (by rw [AList.keys_cons]; exact List.mem_cons_self)
  rw [erase_head h.wf] at h'
  refine ⟨s', ?_, h', r'⟩
  simp only [popitem, h.values, hg, next, e]

theorem wipeLoop_holds {c : Cls} (hp : Plain c) (n : Nat) : ∀ (m : AList Str Val) (s : Obj) (rounds : Nat),
    Holds c m s → Recorded s → m.length < rounds →
    ∃ s', wipeLoop c (n + 1) rounds s = (.ok (), s') ∧ Holds c [] s'
  | [], s, 0, _, _, hl => by simp at hl
  | [], s, r + 1, h, _, _ => ⟨s, by simp only [wipeLoop, popitem, h.values], h⟩
  | (k, v) :: m, s, 0, _, _, hl => by simp at hl
  | (k, v) :: m, s, r + 1, h, hr, hl => by
    obtain ⟨s1, e1, h1, r1⟩ := popitem_holds hp h hr n
    obtain ⟨s2, e2, h2⟩ := wipeLoop_holds hp n m s1 r h1 r1 (by simpa using hl)
    exact ⟨s2, by simp only [wipeLoop, e1, e2], h2⟩

/-! ### Creation -/

/-- What holds while the items are read in turn: `done` have been read. -/
structure Progress (data : AList Str Val) (g : Str → Val → Val) (done : List Str) (s : Obj) : Prop where
  kd : s.data.keys = data.keys
  kv : s.validated.keys = data.keys
  ki : s.inputs.keys = data.keys
  inputs : ∀ k, (s.inputs.get? k).getD [] = []
  entries : ∀ k v, data.get? k = some v →
    (s.validated.get? k = some .none ∧ s.data.get? k = some v ∧ (k ∈ done → v = .none)) ∨
    (s.validated.get? k = some (g k v) ∧ g k v ≠ .none ∧ v ≠ .none)

theorem keys_set_in {υ : Type} (d : AList Str υ) {k : Str} (v : υ) (h : k ∈ d.keys) : (d.set k v).keys = d.keys := by
  rw [AList.keys_set, if_pos h]

theorem inputsOf_plain {c : Cls} (hp : Plain c) (rd) {k : Str} {s : Obj} {d} (hd : s.data.get? k = some d) :
    Obj.inputsOf c rd k s = (.ok [], s) := by
  simp only [Obj.inputsOf, Obj.depsOf, hp.deps, AList.get?, Option.getD_none, Obj.collect]
  split
  · simp only [hd, hp.reads, Obj.collect]
  · rfl

theorem getD_set_nil {υ : Type} (d : AList Str (List υ)) (k x : Str) (h : (d.get? x).getD [] = []) :
    ((d.set k []).get? x).getD [] = [] := by
  rw [AList.get?_set]
  split
  · rfl
  · exact h

theorem progress_store {c : Cls} {data : AList Str Val} {g : Str → Val → Val} (hg : Converts c g data)
    {done : List Str} {s : Obj} (h : Progress data g done s) {k : Str} {v : Val} (hk : data.get? k = some v)
    (hv : v ≠ .none) (hd : s.data.get? k = some v) :
    ∃ s', Obj.store c k s = (.ok (), s') ∧ Progress data g (k :: done) { s' with inputs := s'.inputs.set k [] } ∧
      s'.inputs = s.inputs ∧ s'.validated.get? k = some (g k v) := by
  obtain ⟨hc, hne⟩ := hg.conv k v (fun x => s.validated.get? x) hk hv
  have hkd : k ∈ data.keys := AList.get?_isSome.1 (by rw [hk]; rfl)
  have hset : ∃ d', (d' = s.data ∨ d' = s.data.set k (g k v)) ∧ Obj.store c k s =
      (.ok (), { s with data := d', validated := s.validated.set k (g k v) }) := by
    simp only [Obj.store, Obj.evaluate, hd, hc, Obj.setValidated]
    by_cases hpr : c.prim k = true
    · by_cases ht : c.tpl v = true
      · exact ⟨s.data, Or.inl rfl, by simp [hpr, ht]⟩
      · exact ⟨_, Or.inr rfl, by simp [hpr, ht]⟩
    · exact ⟨_, Or.inr rfl, by simp [hpr]⟩
  obtain ⟨d', hd', hst⟩ := hset
  refine ⟨_, hst, ?_, rfl, by simp [AList.get?_set_self]⟩
  have hoth : ∀ x, x ≠ k → d'.get? x = s.data.get? x := by
    intro x hx
    rcases hd' with rfl | rfl
    · rfl
    · rw [AList.get?_set, if_neg (Ne.symm hx)]
  constructor
  · rcases hd' with rfl | rfl
    · exact h.kd
    · simp only [keys_set_in s.data (g k v) (by rw [h.kd]; exact hkd), h.kd]
  · simp only [keys_set_in s.validated (g k v) (by rw [h.kv]; exact hkd), h.kv]
  · simp only [keys_set_in s.inputs [] (by rw [h.ki]; exact hkd), h.ki]
  · intro x; exact getD_set_nil _ _ _ (h.inputs x)
  · intro x u hx
    by_cases hxk : x = k
    · subst hxk
      rw [hk] at hx; cases hx
      exact Or.inr ⟨by simp [AList.get?_set_self], hne, hv⟩
    · have hvx : (s.validated.set k (g k v)).get? x = s.validated.get? x := by rw [AList.get?_set, if_neg (Ne.symm hxk)]
      rcases h.entries x u hx with ⟨a1, a2, a3⟩ | ⟨a1, a2, a3⟩
      · refine Or.inl ⟨by simp only [hvx]; exact a1, by simp only [hoth x hxk]; exact a2, ?_⟩
        intro hm
        rcases List.mem_cons.1 hm with hm | hm
        · exact absurd hm hxk
        · exact a3 hm
      · exact Or.inr ⟨by simp only [hvx]; exact a1, a2, a3⟩

theorem getItem_progress {c : Cls} (hp : Plain c) {data : AList Str Val} {g : Str → Val → Val}
    (hg : Converts c g data) {done : List Str} {s : Obj} (h : Progress data g done s) (n : Nat) {k : Str} {v : Val}
    (hk : data.get? k = some v) :
    ∃ w s', getItem c (n + 1) k s = (.ok w, s') ∧ Progress data g (k :: done) s' := by
  have hkd : k ∈ data.keys := AList.get?_isSome.1 (by rw [hk]; rfl)
  have hc : s.data.contains k = true := AList.contains_iff.2 (by rw [h.kd]; exact hkd)
  obtain ⟨d, hd⟩ : ∃ d, s.data.get? k = some d :=
    Option.isSome_iff_exists.1 (AList.get?_isSome.2 (by rw [h.kd]; exact hkd))
  have hio : ∀ rd, Obj.inputsOf c rd k s = (.ok [], s) := fun rd => inputsOf_plain hp rd hd
  have hic : ∀ rd, Obj.inputsChanged c rd k s = (.ok false, s) := by
    intro rd
    simp only [Obj.inputsChanged, hio, h.inputs k]
    rfl
  have hfin : ∀ r : Obj.Out Val, (∃ w s', r = (.ok w, s') ∧ Progress data g (k :: done) s') →
      ∃ w s', Obj.through c k r = (.ok w, s') ∧ Progress data g (k :: done) s' := by
    rintro r ⟨w, s', rfl, hs⟩
    exact ⟨w, s', by simp only [Obj.through, op_plain hp], hs⟩
  simp only [getItem, unalias_plain hp, rawName_plain hp]
  rw [if_pos (hg.known k hkd)]
  simp only [hc, Bool.not_true, Bool.false_eq_true, if_false]
  have hkeep : (v = .none ∨ s.validated.get? k = some (g k v)) → Progress data g (k :: done) s := by
    intro hcase
    refine ⟨h.kd, h.kv, h.ki, h.inputs, ?_⟩
    intro x u hx
    rcases h.entries x u hx with ⟨a1, a2, a3⟩ | a
    · by_cases hxk : x = k
      · subst hxk
        rw [hk] at hx; cases hx
        rcases hcase with rfl | hcase
        · exact Or.inl ⟨a1, a2, fun _ => rfl⟩
        · rw [a1] at hcase
          by_cases hvn : v = .none
          · exact Or.inl ⟨a1, a2, fun _ => hvn⟩
          · exact absurd (Option.some.inj hcase).symm (hg.conv x v (fun _ => none) hk hvn).2
      · refine Or.inl ⟨a1, a2, fun hm => ?_⟩
        rcases List.mem_cons.1 hm with hm | hm
        · exact absurd hm hxk
        · exact a3 hm
    · exact Or.inr a
  have hcases : (∃ w, s.validated.get? k = some w ∧ (∀ rd, Obj.isOutdated c rd k s = (.ok false, s)) ∧
      Progress data g (k :: done) s) ∨
      (v ≠ .none ∧ s.data.get? k = some v ∧ ∀ rd, Obj.isOutdated c rd k s = (.ok true, s)) := by
    rcases h.entries k v hk with ⟨a1, a2, a3⟩ | ⟨a1, a2, a3⟩
    · by_cases hvn : v = .none
      · refine Or.inl ⟨_, a1, fun rd => ?_, hkeep (Or.inl hvn)⟩
        subst hvn
        simp only [Obj.isOutdated, a1, a2, hic]
      · refine Or.inr ⟨hvn, a2, fun rd => ?_⟩
        simp only [Obj.isOutdated, a1, a2]
    · refine Or.inl ⟨_, a1, fun rd => ?_, hkeep (Or.inr a1)⟩
      simp only [Obj.isOutdated, a1]
      cases hgv : g k v with
      | none => exact absurd hgv a2
      | _ => exact hic rd
  rcases hcases with ⟨w, hw, hout, hpr⟩ | ⟨hvn, hdv, hout⟩
  · split <;> apply hfin
    · exact ⟨w, s, by simp [Obj.descGet, hout, hp.getter, Obj.validatedOf, hw], hpr⟩
    · exact ⟨w, s, by simp [Obj.plainGet, hp.lazy, hout, Obj.validatedOf, hw], hpr⟩
  · split <;> apply hfin
    · obtain ⟨s', e, hpr, _, hval⟩ := progress_store hg h hk hvn hdv
      exact ⟨g k v, _, by simp [Obj.descGet, hout, Obj.refresh, hio, Obj.runGetter, hp.getter, e, Obj.validatedOf, hval], hpr⟩
    · have h' : Progress data g done { s with inputs := s.inputs.set k [] } :=
        ⟨h.kd, h.kv, by simp only [keys_set_in s.inputs [] (by rw [h.ki]; exact hkd), h.ki],
          fun x => getD_set_nil _ _ _ (h.inputs x), h.entries⟩
      obtain ⟨s', e, hpr, hin, hval⟩ := progress_store hg h' hk hvn hdv
      refine ⟨g k v, s', by simp [Obj.plainGet, hp.lazy, hout, Obj.reload, hio, e, Obj.validatedOf, hval], ?_⟩
      refine ⟨hpr.kd, hpr.kv, ?_, ?_, hpr.entries⟩
      · rw [hin]; exact h'.ki
      · intro x; rw [hin]; exact h'.inputs x

theorem readAll_progress {c : Cls} (hp : Plain c) {data : AList Str Val} {g : Str → Val → Val}
    (hg : Converts c g data) (n : Nat) : ∀ (ks done : List Str) (s : Obj), Progress data g done s →
      (∀ k ∈ ks, k ∈ data.keys) →
      ∃ s', Obj.readAll c (n + 1) ks s = (.ok (), s') ∧ Progress data g (ks.reverse ++ done) s'
  | [], done, s, h, _ => ⟨s, rfl, by simpa using h⟩
  | k :: ks, done, s, h, hks => by
    obtain ⟨v, hv⟩ : ∃ v, data.get? k = some v :=
      Option.isSome_iff_exists.1 (AList.get?_isSome.2 (hks k List.mem_cons_self))
    obtain ⟨w, s1, e1, h1⟩ := getItem_progress hp hg h n hv
    obtain ⟨s2, e2, h2⟩ := readAll_progress hp hg n ks (k :: done) s1 h1 (fun x hx => hks x (List.mem_cons_of_mem _ hx))
    exact ⟨s2, by simp only [Obj.readAll, e1, e2], by simpa using h2⟩

theorem get?_map_const {υ : Type} (data : AList Str Val) (x : υ) (k : Str) :
    AList.get? (data.map (fun p => (p.1, x))) k = (data.get? k).map (fun _ => x) := by
  induction data with
  | nil => rfl
  | cons p data ih =>
    obtain ⟨a, b⟩ := p
    simp only [List.map_cons, AList.get?]
    split
    · rfl
    · exact ih

/-- A created instance holds the conversions of its items. -/
theorem create_holds {c : Cls} (hp : Plain c) {data : AList Str Val} {g : Str → Val → Val}
    (hw : data.WF) (hg : Converts c g data) (n : Nat) :
    ∃ s, Obj.create c (n + 1) data = (.ok (), s) ∧ Holds c s.validated s ∧ Recorded s ∧
      s.validated.keys = data.keys ∧ ∀ k, s.validated.get? k = (data.get? k).map (g k) := by
  have h0 : Progress data g [] (Obj.touched data) := by
    refine ⟨rfl, ?_, ?_, ?_, ?_⟩
    · simp [Obj.touched, AList.keys, Function.comp_def]
    · simp [Obj.touched, AList.keys, Function.comp_def]
    · intro k
      simp only [Obj.touched, get?_map_const]
      cases data.get? k <;> rfl
    · intro k v hk
      refine Or.inl ⟨by simp only [Obj.touched, get?_map_const, hk]; rfl, hk, by simp⟩
  obtain ⟨s, e, h⟩ := readAll_progress hp hg n data.keys [] _ h0 (fun _ hk => hk)
  have hval : ∀ k, s.validated.get? k = (data.get? k).map (g k) := by
    intro k
    cases hk : data.get? k with
    | none =>
      have hn : k ∉ s.validated.keys := by
        rw [h.kv]; intro hin
        have := AList.get?_isSome.2 hin
        rw [hk] at this; cases this
      exact AList.get?_eq_none.2 hn
    | some v =>
      rcases h.entries k v hk with ⟨a1, a2, a3⟩ | ⟨a1, _, _⟩
      · have := a3 (by simpa using AList.get?_isSome.1 (by rw [hk]; rfl))
        subst this
        simp [a1, hg.nones]
      · simpa using a1
  refine ⟨s, by simp only [Obj.create, hp.lazy, e, Bool.false_eq_true, if_false], ?_, ?_, h.kv, hval⟩
  · constructor
    · unfold AList.WF at *; rw [h.kv]; exact hw
    · intro k hk; exact hg.known k (h.kv ▸ hk)
    · rfl
    · intro k; rw [h.kd, h.kv]
    · intro k hk
      rw [hval] at hk
      cases hdk : data.get? k with
      | none => rw [hdk] at hk; cases hk
      | some v =>
        rcases h.entries k v hdk with ⟨a1, a2, a3⟩ | ⟨a1, a2, _⟩
        · have := a3 (by simpa using AList.get?_isSome.1 (by rw [hdk]; rfl))
          subst this; exact a2
        · rw [hdk] at hk; simp at hk; exact absurd hk a2
    · exact h.inputs
  · intro k hk; rw [h.ki, ← h.kv]; exact hk

end Verif.Mixins
