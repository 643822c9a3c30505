import Verif.Spec.Strings
/-
Helper lemmas for C26-C30.
-/
namespace Verif.Strings

theorem occurs_iff_infix (old s : Str) : Occurs old s ↔ old <:+: s := by
  constructor
  · rintro ⟨a, b, rfl⟩; exact ⟨a, b, rfl⟩
  · rintro ⟨a, b, rfl⟩; exact ⟨a, b, rfl⟩

theorem inline_flatMap (s : Str) :
    inline s = s.flatMap (fun c => if c = '\n' then ['\\', 'n'] else [c]) := by
  unfold inline
  induction s with
  | nil => rfl
  | cons c cs ih =>
    rw [List.flatMap_cons, ← ih, splitOn]
    cases hs : splitOn '\n' cs with
    | nil => exact absurd hs (splitOn_ne_nil _ _)
    | cons w ws =>
      by_cases h : c = '\n'
      · simp [h, joinWith]
      · simp only [h, if_false]
        cases ws <;> simp [joinWith]

theorem cutLast_none {old s : Str} (hne : old ≠ []) : cutLast old s = none ↔ ¬ Occurs old s := by
  induction s with
  | nil =>
    rw [cutLast]
    cases old with
    | nil => exact absurd rfl hne
    | cons x xs =>
      simp only [List.isPrefixOf, Bool.false_eq_true, if_false, true_iff]
      rintro ⟨a, b, h⟩
      have := congrArg List.length h; simp at this
  | cons c cs ih =>
    rw [cutLast]
    cases h : cutLast old cs with
    | some ab =>
      simp only [reduceCtorEq, false_iff, Decidable.not_not]
      have : Occurs old cs := by
        apply Classical.byContradiction
        intro hn; rw [ih.2 hn] at h; cases h
      obtain ⟨a, b, e⟩ := this
      exact fun hn => hn ⟨c :: a, b, by simp [e]⟩
    | none =>
      have hn := ih.1 h
      simp only
      by_cases hp : old.isPrefixOf (c :: cs) = true
      · simp only [hp, if_true, reduceCtorEq, false_iff]
        intro hno
        obtain ⟨b, hb⟩ := List.isPrefixOf_iff_prefix.1 hp
        exact hno ⟨[], b, by simp [hb]⟩
      · simp only [hp, Bool.false_eq_true, if_false, true_iff]
        rintro ⟨a, b, e⟩
        cases a with
        | nil =>
          apply hp
          rw [List.isPrefixOf_iff_prefix]
          exact ⟨b, by rw [e]; simp⟩
        | cons x a =>
          simp only [List.cons_append, List.cons.injEq] at e
          exact hn ⟨a, b, e.2⟩

theorem cutLast_some {old s a b : Str} (hne : old ≠ []) (h : cutLast old s = some (a, b)) :
    LastCut old s a b := by
  induction s generalizing a with
  | nil =>
    rw [cutLast] at h
    cases old with
    | nil => exact absurd rfl hne
    | cons x xs => simp at h
  | cons c cs ih =>
    rw [cutLast] at h
    cases hc : cutLast old cs with
    | some ab =>
      obtain ⟨a', b'⟩ := ab
      rw [hc] at h
      simp only [Option.some.injEq, Prod.mk.injEq] at h
      obtain ⟨rfl, rfl⟩ := h
      obtain ⟨h1, h2⟩ := ih hc
      exact ⟨by simp [h1], h2⟩
    | none =>
      rw [hc] at h
      have hn := (cutLast_none hne).1 hc
      simp only at h
      split at h
      · rename_i hp
        simp only [Option.some.injEq, Prod.mk.injEq] at h
        obtain ⟨rfl, rfl⟩ := h
        obtain ⟨r, hr⟩ := List.isPrefixOf_iff_prefix.1 hp
        have hd : (c :: cs).drop old.length = r := by rw [← hr]; simp
        refine ⟨by rw [hd, List.nil_append, hr], ?_⟩
        rw [hd]
        cases old with
        | nil => exact absurd rfl hne
        | cons x xs =>
          simp only [List.cons_append, List.cons.injEq] at hr
          rw [List.tail_cons, hr.2]
          exact hn
      · cases h

/-- The cut is determined by its description. -/
theorem lastCut_unique {old s a b a' b' : Str} (hne : old ≠ []) (h : LastCut old s a b)
    (h' : LastCut old s a' b') : a = a' ∧ b = b' := by
  have key : ∀ {a b a' b' : Str}, LastCut old s a b → LastCut old s a' b' → ¬ a.length < a'.length := by
    intro a b a' b' h h' hlt
    obtain ⟨e, hn⟩ := h
    obtain ⟨e', _⟩ := h'
    apply hn
    -- the later occurrence lies in old.tail ++ b
    have e2 : a ++ (old ++ b) = a' ++ (old ++ b') := by
      rw [← List.append_assoc, ← List.append_assoc, ← e, ← e']
    rw [List.append_eq_append_iff] at e2
    rcases e2 with ⟨u, hu, hv⟩ | ⟨u, hu, hv⟩
    · cases u with
      | nil => simp at hu; rw [hu] at hlt; omega
      | cons x u =>
        cases old with
        | nil => exact absurd rfl hne
        | cons y ys =>
          simp only [List.cons_append, List.cons.injEq] at hv
          refine ⟨u, b', ?_⟩
          rw [List.tail_cons, hv.2]; simp
    · have := congrArg List.length hu; simp at this; omega
  have hlen : a.length = a'.length := by
    have h1 := key h h'; have h2 := key h' h; omega
  have e : a ++ (old ++ b) = a' ++ (old ++ b') := by
    rw [← List.append_assoc, ← List.append_assoc, ← h.1, ← h'.1]
  obtain ⟨h1, h2⟩ := List.append_inj e hlen
  exact ⟨h1, List.append_cancel_left h2⟩

theorem joinWith_append_singleton (sep : Str) (ws : List Str) (hne : ws ≠ []) (b : Str) :
    joinWith sep (ws ++ [b]) = joinWith sep ws ++ sep ++ b := by
  induction ws with
  | nil => exact absurd rfl hne
  | cons w ws ih =>
    cases ws with
    | nil => simp [joinWith]
    | cons w' ws =>
      have := ih (by simp)
      simp only [List.cons_append, joinWith] at this ⊢
      rw [this]; simp

theorem rsplit_ne_nil (old : Str) (n : Nat) (s : Str) : rsplit old n s ≠ [] := by
  cases n with
  | zero => simp [rsplit]
  | succ n => rw [rsplit]; split <;> simp

theorem splitAny_spec (ds s : Str) :
    splitAny ds s ≠ [] ∧
    (splitAny ds s).length = (s.filter (· ∈ ds)).length + 1 ∧
    (∀ w ∈ splitAny ds s, ∀ c ∈ w, c ∉ ds) ∧
    interleave (splitAny ds s) (s.filter (· ∈ ds)) = s := by
  induction s with
  | nil => simp [splitAny, interleave]
  | cons c cs ih =>
    obtain ⟨h0, h1, h2, h3⟩ := ih
    rw [splitAny]
    by_cases hc : c ∈ ds
    · simp only [hc, if_true, List.filter_cons, decide_true]
      refine ⟨by simp, by simp [h1], ?_, ?_⟩
      · intro w hw
        rcases List.mem_cons.1 hw with rfl | hw
        · simp
        · exact h2 w hw
      · cases hs : splitAny ds cs with
        | nil => exact absurd hs h0
        | cons w ws => rw [hs] at h3; simp [interleave, h3]
    · simp only [hc, if_false, List.filter_cons, decide_false, Bool.false_eq_true]
      cases hs : splitAny ds cs with
      | nil => exact absurd hs h0
      | cons w ws =>
        rw [hs] at h1 h2 h3
        refine ⟨by simp, by simpa using h1, ?_, ?_⟩
        · intro v hv
          rcases List.mem_cons.1 hv with rfl | hv
          · intro x hx
            rcases List.mem_cons.1 hx with rfl | hx
            · exact hc
            · exact h2 w (by simp) x hx
          · exact h2 v (by simp [hv])
        · cases ws with
          | nil => simp only [interleave] at h3 ⊢; rw [h3]
          | cons w' ws =>
            cases hf : cs.filter (· ∈ ds) with
            | nil => rw [hf] at h3; simp only [interleave] at h3 ⊢; rw [← h3]; rfl
            | cons d r => rw [hf] at h3; simp only [interleave] at h3 ⊢; rw [← h3]; rfl

theorem firstKey_none {table : AList Str Str} {s : Str} :
    firstKey table s = none ↔ ∀ kv ∈ table, ¬ kv.1 <+: s := by
  simp [firstKey, List.find?_eq_none]

theorem firstKey_some {table : AList Str Str} {s : Str} {kv : Str × Str}
    (h : firstKey table s = some kv) :
    kv.1 <+: s ∧ ∃ before after, table = before ++ kv :: after ∧ ∀ x ∈ before, ¬ x.1 <+: s := by
  obtain ⟨h1, as, bs, h2, h3⟩ := List.find?_eq_some_iff_append.1 h
  refine ⟨by simpa using h1, as, bs, h2, ?_⟩
  intro x hx
  have := h3 x hx
  intro hp
  rw [← List.isPrefixOf_iff_prefix] at hp
  simp [hp] at this

theorem subLoop_replaced (table : AList Str Str) (hk : ∀ kv ∈ table, kv.1 ≠ []) (s : Str) :
    Replaced table s (subLoop table s) := by
  fun_induction subLoop table s with
  | case1 => exact .nil
  | case2 c cs k v h ih =>
    obtain ⟨hp, before, after, e, hb⟩ := firstKey_some h
    have hkne : k ≠ [] := hk (k, v) (by rw [e]; simp)
    obtain ⟨r, hr⟩ := hp
    have hd : cs.drop (k.length - 1) = r := by
      cases k with
      | nil => exact absurd rfl hkne
      | cons x k =>
        simp only [List.cons_append, List.cons.injEq] at hr
        rw [← hr.2]; simp
    simp only at hr
    rw [hd] at ih ⊢
    rw [← hr] at hb ⊢
    exact .hit e hb ih
  | case3 c cs h ih => exact .keep (firstKey_none.1 h) ih

theorem append_cons_first {α} {P : α → Prop} {l1 l2 m1 m2 : List α} {x y : α}
    (e : l1 ++ x :: l2 = m1 ++ y :: m2) (hx : P x) (hy : P y) (h1 : ∀ z ∈ l1, ¬ P z)
    (h2 : ∀ z ∈ m1, ¬ P z) : x = y := by
  induction l1 generalizing m1 with
  | nil =>
    cases m1 with
    | nil => simp at e; exact e.1
    | cons z m1 => simp at e; exact absurd (e.1 ▸ hx) (h2 z (by simp))
  | cons z l1 ih =>
    cases m1 with
    | nil => simp at e; exact absurd (e.1 ▸ hy) (h1 z (by simp))
    | cons w m1 =>
      simp at e
      exact ih e.2 (fun z hz => h1 z (by simp [hz])) (fun z hz => h2 z (by simp [hz]))

theorem replaced_eq (table : AList Str Str) (hk : ∀ kv ∈ table, kv.1 ≠ []) {s t : Str}
    (h : Replaced table s t) : t = subLoop table s := by
  induction h with
  | nil => rw [subLoop]
  | @keep c s t hn _ ih =>
    rw [subLoop, firstKey_none.2 hn]; simp only; rw [ih]
  | @hit before k v after s t e hb _ ih =>
    have hkne : k ≠ [] := hk (k, v) (by rw [e]; simp)
    cases k with
    | nil => exact absurd rfl hkne
    | cons x k =>
      rw [List.cons_append, subLoop]
      cases hf : firstKey table (x :: (k ++ s)) with
      | none =>
        have := firstKey_none.1 hf ((x :: k), v) (by rw [e]; simp)
        exact absurd ⟨s, rfl⟩ this
      | some kv =>
        obtain ⟨hp, b', a', e', hb'⟩ := firstKey_some hf
        have : kv = (x :: k, v) := by
          refine append_cons_first (P := fun kv => kv.1 <+: x :: (k ++ s)) (e'.symm.trans e) hp
            ⟨s, rfl⟩ hb' hb
        subst this
        simp only
        rw [ih]; simp

end Verif.Strings
