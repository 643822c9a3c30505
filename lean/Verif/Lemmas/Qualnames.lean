import Verif.Spec.Qualnames
/-
Lemmas for C343.
-/
namespace Verif.Qualnames

/-! ### The visitor -/

mutual
/-- What a visit stores, in order. -/
def defs (st : List Str) : Ast → List (Nat × Str)
  | .func n l b => (l, dotted (st ++ [n])) :: defsAll (st ++ [n] ++ [locals]) b
  | .cls n l b => (l, dotted (st ++ [n])) :: defsAll (st ++ [n]) b
  | .coro _ _ b => defsAll st b
  | .other b => defsAll st b
def defsAll (st : List Str) : List Ast → List (Nat × Str)
  | [] => []
  | a :: as => defs st a ++ defsAll st as
end

def store (t : AList Nat Str) : List (Nat × Str) → AList Nat Str
  | [] => t
  | (l, q) :: r => store (AList.set t l q) r

theorem store_append (t : AList Nat Str) (a b : List (Nat × Str)) : store t (a ++ b) = store (store t a) b := by
  induction a generalizing t with
  | nil => rfl
  | cons x a ih => simp [store, ih]

mutual
theorem visit_eq (v : Vis) : ∀ a, visit v a = ⟨v.stack, store v.names (defs v.stack a)⟩
  | .func n l b => by
    rw [visit, visitAll_eq]
    simp [Vis.push, Vis.pop, Vis.store, defs, store, dotted]
  | .cls n l b => by
    rw [visit, visitAll_eq]
    simp [Vis.push, Vis.pop, Vis.store, defs, store, dotted]
  | .coro n l b => by rw [visit, visitAll_eq, defs]
  | .other b => by rw [visit, visitAll_eq, defs]
theorem visitAll_eq (v : Vis) : ∀ b, visitAll v b = ⟨v.stack, store v.names (defsAll v.stack b)⟩
  | [] => rfl
  | a :: as => by rw [visitAll, visit_eq, visitAll_eq, defsAll, store_append]
end

theorem app2 (st : List Str) (n x : Str) (p : List Str) : st ++ [n] ++ [x] ++ p = st ++ n :: x :: p := by simp

mutual
theorem defs_sound (st : List Str) : ∀ a x, x ∈ defs st a → ∃ p, At false a p x.1 ∧ x.2 = dotted (st ++ p)
  | .func n l b, x, h => by
    rw [defs, List.mem_cons] at h
    rcases h with h | h
    · rw [h]; exact ⟨[n], .func, Eq.refl _⟩
    · obtain ⟨a, p, ha, hp, e⟩ := defsAll_sound _ b x h
      exact ⟨_, .inFunc ha hp, by rw [e, app2]; rfl⟩
  | .cls n l b, x, h => by
    rw [defs, List.mem_cons] at h
    rcases h with h | h
    · rw [h]; exact ⟨[n], .cls, Eq.refl _⟩
    · obtain ⟨a, p, ha, hp, e⟩ := defsAll_sound _ b x h
      exact ⟨_, .inCls ha hp, by rw [e]; simp⟩
  | .coro n l b, x, h => by
    rw [defs] at h
    obtain ⟨a, p, ha, hp, e⟩ := defsAll_sound _ b x h
    exact ⟨_, .pastCoro rfl ha hp, e⟩
  | .other b, x, h => by
    rw [defs] at h
    obtain ⟨a, p, ha, hp, e⟩ := defsAll_sound _ b x h
    exact ⟨_, .inOther ha hp, e⟩
theorem defsAll_sound (st : List Str) : ∀ b x, x ∈ defsAll st b →
    ∃ a p, a ∈ b ∧ At false a p x.1 ∧ x.2 = dotted (st ++ p)
  | [], x, h => by simp [defsAll] at h
  | a :: as, x, h => by
    rw [defsAll, List.mem_append] at h
    rcases h with h | h
    · obtain ⟨p, hp, e⟩ := defs_sound st a x h
      exact ⟨a, p, List.mem_cons_self, hp, e⟩
    · obtain ⟨a', p, ha, hp, e⟩ := defsAll_sound st as x h
      exact ⟨a', p, List.mem_cons_of_mem _ ha, hp, e⟩
end

theorem mem_defsAll (st : List Str) (a : Ast) (x : Nat × Str) (h : x ∈ defs st a) :
    ∀ b, a ∈ b → x ∈ defsAll st b
  | [], hb => by simp at hb
  | c :: b, hb => by
    rw [defsAll, List.mem_append]
    rcases List.mem_cons.1 hb with hb | hb
    · exact .inl (hb ▸ h)
    · exact .inr (mem_defsAll st a x h b hb)

theorem defs_complete {a : Ast} {p : List Str} {l : Nat} (h : At false a p l) :
    ∀ st, (l, dotted (st ++ p)) ∈ defs st a := by
  induction h with
  | func => intro st; simp [defs]
  | @inFunc n _ _ _ _ _ ha _ ih =>
    intro st; rw [defs]
    refine List.mem_cons_of_mem _ (mem_defsAll _ _ _ ?_ _ ha)
    have := ih (st ++ [n] ++ [locals])
    rw [app2] at this
    exact this
  | cls => intro st; simp [defs]
  | @inCls n _ _ _ _ _ ha _ ih =>
    intro st; rw [defs]
    refine List.mem_cons_of_mem _ (mem_defsAll _ _ _ ?_ _ ha)
    have := ih (st ++ [n])
    simpa using this
  | coro h => simp at h
  | inCoro h => simp at h
  | pastCoro _ ha _ ih => intro st; rw [defs]; exact mem_defsAll _ _ _ (ih st) _ ha
  | inOther ha _ ih => intro st; rw [defs]; exact mem_defsAll _ _ _ (ih st) _ ha

theorem store_sound (ds : List (Nat × Str)) : ∀ t l q, AList.get? (store t ds) l = some q →
    AList.get? t l = some q ∨ (l, q) ∈ ds := by
  induction ds with
  | nil => intro t l q h; exact .inl h
  | cons d ds ih =>
    intro t l q h
    obtain ⟨l', q'⟩ := d
    rcases ih _ _ _ h with h | h
    · rw [AList.get?_set] at h
      split at h
      · rename_i e; simp at h; subst h; subst e; exact .inr List.mem_cons_self
      · exact .inl h
    · exact .inr (List.mem_cons_of_mem _ h)

theorem store_mono (ds : List (Nat × Str)) : ∀ t l, (AList.get? t l).isSome → (AList.get? (store t ds) l).isSome := by
  induction ds with
  | nil => intro t l h; exact h
  | cons d ds ih =>
    intro t l h
    refine ih _ _ ?_
    rw [AList.get?_set]
    split
    · rfl
    · exact h

theorem store_complete (ds : List (Nat × Str)) : ∀ t l q, (l, q) ∈ ds → (AList.get? (store t ds) l).isSome := by
  induction ds with
  | nil => intro t l q h; simp at h
  | cons d ds ih =>
    intro t l q h
    rcases List.mem_cons.1 h with h | h
    · subst h
      exact store_mono ds _ _ (by rw [AList.get?_set_self]; rfl)
    · exact ih _ _ _ h

theorem store_wf (ds : List (Nat × Str)) : ∀ t, AList.WF t → AList.WF (store t ds) := by
  induction ds with
  | nil => intro t h; exact h
  | cons d ds ih => intro t h; exact ih _ (AList.wf_set h _ _)

/-! ### Decorator lines -/

theorem lstrip_blanks (b : Str) (h : ∀ c ∈ b, isSpace c = true) (r : Str) : lstrip isSpace (b ++ r) = lstrip isSpace r := by
  induction b with
  | nil => rfl
  | cons c b ih =>
    rw [lstrip, List.cons_append, List.dropWhile_cons, h c (by simp), if_pos rfl]
    exact ih (fun c hc => h c (List.mem_cons_of_mem _ hc))

theorem lstrip_split (s : Str) : ∃ b, s = b ++ lstrip isSpace s ∧ ∀ c ∈ b, isSpace c = true := by
  induction s with
  | nil => exact ⟨[], rfl, by simp⟩
  | cons c s ih =>
    by_cases hc : isSpace c = true
    · obtain ⟨b, e, hb⟩ := ih
      refine ⟨c :: b, ?_, ?_⟩
      · rw [lstrip, List.dropWhile_cons, if_pos hc, List.cons_append, ← lstrip, ← e]
      · intro x hx
        rcases List.mem_cons.1 hx with hx | hx
        · exact hx ▸ hc
        · exact hb x hx
    · exact ⟨[], by rw [lstrip, List.dropWhile_cons, if_neg hc]; rfl, by simp⟩

/-- Stripping the end keeps a first character that is no blank. -/
theorem rstrip_head (c : Char) (hc : isSpace c = false) (r : Str) :
    ∃ r', (lstrip isSpace (c :: r).reverse).reverse = c :: r' := by
  obtain ⟨b, e, hb⟩ := lstrip_split (c :: r).reverse
  have e' := congrArg List.reverse e
  rw [List.reverse_reverse, List.reverse_append] at e'
  cases h : (lstrip isSpace (c :: r).reverse).reverse with
  | nil =>
    rw [h, List.nil_append] at e'
    have : c ∈ b := by
      rw [← List.mem_reverse, ← e']; simp
    have := hb c this
    rw [hc] at this; simp at this
  | cons d r' =>
    rw [h, List.cons_append] at e'
    injection e' with e1 _
    exact ⟨r', by rw [e1]⟩

theorem head_lstrip (s : Str) (c : Char) (r : Str) (h : lstrip isSpace s = c :: r) : isSpace c = false := by
  induction s with
  | nil => simp [lstrip] at h
  | cons x s ih =>
    rw [lstrip, List.dropWhile_cons] at h
    split at h
    · exact ih h
    · rename_i hx
      injection h with h1 _
      subst h1; simpa using hx

theorem decorates_iff (s : Str) : (strip isSpace s).head? = some '@' ↔ Decorates s := by
  have hat : isSpace '@' = false := by decide
  constructor
  · intro h
    obtain ⟨b, e, hb⟩ := lstrip_split s
    rw [strip] at h
    cases hl : lstrip isSpace s with
    | nil => rw [hl] at h; simp [lstrip] at h
    | cons c r =>
      rw [hl] at h
      obtain ⟨r', hr'⟩ := rstrip_head c (head_lstrip s c r hl) r
      rw [hr'] at h
      simp at h
      subst h
      exact ⟨b, r, by rw [← hl]; exact e, hb⟩
  · rintro ⟨b, r, e, hb⟩
    rw [e, strip, lstrip_blanks b hb]
    have : lstrip isSpace ('@' :: r) = '@' :: r := by
      rw [lstrip, List.dropWhile_cons, hat, if_neg (by simp)]
    rw [this]
    obtain ⟨r', hr'⟩ := rstrip_head '@' hat r
    rw [hr']; rfl

theorem decorator_none (lines : List Str) (i : Nat) : decorator lines i = none ↔ lines[i - 1]? = none := by
  unfold decorator
  cases lines[i - 1]? <;> simp

theorem decorator_some (lines : List Str) (i : Nat) (b : Bool) :
    decorator lines i = some b ↔ ∃ s, LineIs lines i s ∧ (b = true ↔ Decorates s) := by
  unfold decorator LineIs
  cases lines[i - 1]? with
  | none => simp
  | some s =>
    have := decorates_iff s
    constructor
    · intro h
      refine ⟨s, rfl, ?_⟩
      rw [← this]
      simp at h
      rw [← h]; simp
    · rintro ⟨s', h, hb⟩
      simp at h; subst h
      rw [← this] at hb
      cases b <;> simp_all

theorem covers_refl (lines : List Str) (i : Nat) : Covers lines i i := ⟨Nat.le_refl _, fun x h1 h2 => by omega⟩

theorem covers_step {lines : List Str} {i m : Nat} (h : decorator lines i = some true) (hc : Covers lines (i + 1) m) :
    Covers lines i m := by
  obtain ⟨s, hs, hd⟩ := (decorator_some lines i true).1 h
  refine ⟨by have := hc.1; omega, fun x h1 h2 => ?_⟩
  by_cases e : x = i
  · subst e; exact ⟨s, hs, hd.1 rfl⟩
  · exact hc.2 x (by omega) h2

theorem covers_tail {lines : List Str} {i m : Nat} (h : Covers lines i m) (hm : m ≠ i) :
    decorator lines i = some true ∧ Covers lines (i + 1) m := by
  have hlt : i < m := by have := h.1; omega
  obtain ⟨s, hs, hd⟩ := h.2 i (Nat.le_refl _) hlt
  exact ⟨(decorator_some lines i true).2 ⟨s, hs, by simp [hd]⟩, hlt, fun x h1 h2 => h.2 x (by omega) h2⟩

/-! ### Following the decorators -/

theorem follow_sound (lines : List Str) (v : Str) : ∀ n i t m q, AList.get? (follow lines v n i t).1 m = some q →
    AList.get? t m = some q ∨ (q = v ∧ Covers lines i m) := by
  intro n
  induction n with
  | zero => intro i t m q h; exact .inl h
  | succ n ih =>
    intro i t m q h
    rw [follow] at h
    split at h
    · exact .inl h
    · exact .inl h
    · rename_i hd
      rcases ih _ _ _ _ h with h | ⟨h1, h2⟩
      · rw [AList.get?_set] at h
        split at h
        · rename_i e
          simp at h
          exact .inr ⟨h.symm, covers_step hd (e ▸ covers_refl _ _)⟩
        · exact .inl h
      · exact .inr ⟨h1, covers_step hd h2⟩

theorem follow_mono (lines : List Str) (v : Str) : ∀ n i t m, (AList.get? t m).isSome →
    (AList.get? (follow lines v n i t).1 m).isSome := by
  intro n
  induction n with
  | zero => intro i t m h; exact h
  | succ n ih =>
    intro i t m h
    rw [follow]
    split
    · exact h
    · exact h
    · refine ih _ _ _ ?_
      rw [AList.get?_set]
      split
      · rfl
      · exact h

theorem follow_complete (lines : List Str) (v : Str) : ∀ n i t m, m ≤ i + n → Covers lines i m → m ≠ i →
    (AList.get? (follow lines v n i t).1 m).isSome := by
  intro n
  induction n with
  | zero => intro i t m hm hc hne; have := hc.1; omega
  | succ n ih =>
    intro i t m hm hc hne
    obtain ⟨hd, hc'⟩ := covers_tail hc hne
    rw [follow, hd]
    by_cases e : m = i + 1
    · subst e
      exact follow_mono _ _ _ _ _ _ (by rw [AList.get?_set_self]; rfl)
    · exact ih _ _ _ (by omega) hc' e

/-- Only lines that are there can be decorators. -/
theorem covers_bound {lines : List Str} {i m : Nat} (hc : Covers lines i m) : m ≤ i + (lines.length + 1) := by
  by_cases h : i < m
  · obtain ⟨s, hs, _⟩ := hc.2 (m - 1) (by omega) (by omega)
    unfold LineIs at hs
    have := (List.getElem?_eq_some_iff.1 hs).1
    omega
  · omega

theorem follow_ends (lines : List Str) (v : Str) : ∀ n i t, Ends lines i → (follow lines v n i t).2 = none := by
  intro n
  induction n with
  | zero => intro i t h; rfl
  | succ n ih =>
    intro i t h
    obtain ⟨m, s, hc, hl, hn⟩ := h
    rw [follow]
    split
    · rename_i hd
      exfalso
      by_cases e : m = i
      · subst e
        rw [(decorator_some lines m false).2 ⟨s, hl, by simp [hn]⟩] at hd
        simp at hd
      · rw [(covers_tail hc e).1] at hd; simp at hd
    · rfl
    · rename_i hd
      by_cases e : m = i
      · subst e
        rw [(decorator_some lines m false).2 ⟨s, hl, by simp [hn]⟩] at hd
        simp at hd
      · exact ih _ _ ⟨m, s, (covers_tail hc e).2, hl, hn⟩

theorem follow_cases (lines : List Str) (v : Str) (n i : Nat) (t : AList Nat Str) :
    (follow lines v n i t).2 = none ∨ (follow lines v n i t).2 = some .indexError := by
  induction n generalizing i t with
  | zero => exact .inl rfl
  | succ n ih =>
    rw [follow]
    split
    · exact .inr rfl
    · exact .inl rfl
    · exact ih _ _

theorem spread_sound (lines : List Str) : ∀ es t m q, AList.get? (spread lines es t).1 m = some q →
    AList.get? t m = some q ∨ ∃ i, (i, q) ∈ es ∧ Covers lines i m := by
  intro es
  induction es with
  | nil => intro t m q h; exact .inl h
  | cons e es ih =>
    obtain ⟨i, v⟩ := e
    intro t m q h
    have key : AList.get? (follow lines v (lines.length + 1) i t).1 m = some q →
        AList.get? t m = some q ∨ ∃ i', (i', q) ∈ (i, v) :: es ∧ Covers lines i' m := by
      intro h
      rcases follow_sound _ _ _ _ _ _ _ h with h | ⟨h1, h2⟩
      · exact .inl h
      · exact .inr ⟨i, by rw [h1]; exact List.mem_cons_self, h2⟩
    rw [spread] at h
    split at h
    · rename_i t' e' he
      rw [he] at key
      exact key h
    · rename_i t' he
      rw [he] at key
      rcases ih _ _ _ h with h | ⟨i', h1, h2⟩
      · exact key h
      · exact .inr ⟨i', List.mem_cons_of_mem _ h1, h2⟩

theorem spread_mono (lines : List Str) : ∀ es t m, (AList.get? t m).isSome →
    (AList.get? (spread lines es t).1 m).isSome := by
  intro es
  induction es with
  | nil => intro t m h; exact h
  | cons e es ih =>
    obtain ⟨i, v⟩ := e
    intro t m h
    have key := follow_mono lines v (lines.length + 1) i t m h
    rw [spread]
    split
    · rename_i he; rw [he] at key; exact key
    · rename_i he; rw [he] at key; exact ih _ _ key

theorem spread_complete (lines : List Str) : ∀ es t m i q, (spread lines es t).2 = none → (i, q) ∈ es →
    Covers lines i m → m ≠ i → (AList.get? (spread lines es t).1 m).isSome := by
  intro es
  induction es with
  | nil => intro t m i q _ h; simp at h
  | cons e es ih =>
    obtain ⟨i', v⟩ := e
    intro t m i q hn h hc hne
    rw [spread] at hn ⊢
    split at hn
    · simp at hn
    · rename_i t' he
      rcases List.mem_cons.1 h with h | h
      · injection h with h1 h2
        subst h1
        have := follow_complete lines v (lines.length + 1) i t m (covers_bound hc) hc hne
        rw [he] at this
        exact spread_mono _ _ _ _ this
      · exact ih _ _ _ _ hn h hc hne

theorem spread_ends (lines : List Str) : ∀ es t, (∀ e ∈ es, Ends lines e.1) → (spread lines es t).2 = none := by
  intro es
  induction es with
  | nil => intro t _; rfl
  | cons e es ih =>
    obtain ⟨i, v⟩ := e
    intro t h
    have key := follow_ends lines v (lines.length + 1) i t (h _ List.mem_cons_self)
    rw [spread]
    split
    · rename_i he; rw [he] at key; simp at key
    · exact ih _ (fun e he => h e (List.mem_cons_of_mem _ he))

/-! ### The names of a source -/

theorem names_sound (a : Ast) (l : Nat) (q : Str) (h : AList.get? (visit {} a).names l = some q) :
    ∃ p, At false a p l ∧ q = dotted p := by
  rw [visit_eq] at h
  rcases store_sound _ _ _ _ h with h | h
  · simp [AList.get?] at h
  · obtain ⟨p, hp, e⟩ := defs_sound _ _ _ h
    exact ⟨p, hp, e⟩

theorem names_complete (a : Ast) (l : Nat) (p : List Str) (h : At false a p l) :
    (AList.get? (visit {} a).names l).isSome := by
  rw [visit_eq]
  exact store_complete _ _ _ _ (defs_complete h _)

theorem names_wf (a : Ast) : AList.WF (visit {} a).names := by
  rw [visit_eq]
  exact store_wf _ _ (by unfold AList.WF; exact List.nodup_nil)

theorem table_sound (s : Source) (m : Nat) (q : Str) (h : AList.get? (table s).1 m = some q) :
    ∃ p i, At false s.tree p i ∧ Covers s.lines i m ∧ q = dotted p := by
  rcases spread_sound _ _ _ _ _ h with h | ⟨i, h1, h2⟩
  · obtain ⟨p, hp, e⟩ := names_sound _ _ _ h
    exact ⟨p, m, hp, covers_refl _ _, e⟩
  · obtain ⟨p, hp, e⟩ := names_sound _ _ _ (AList.get?_of_mem (names_wf _) h1)
    exact ⟨p, i, hp, h2, e⟩

theorem table_complete (s : Source) (hn : (table s).2 = none) (p : List Str) (i m : Nat) (h : At false s.tree p i)
    (hc : Covers s.lines i m) : ∃ q, AList.get? (table s).1 m = some q := by
  have h0 := names_complete _ _ _ h
  apply Option.isSome_iff_exists.1
  by_cases e : m = i
  · subst e
    exact spread_mono _ _ _ _ h0
  · obtain ⟨q, hq⟩ := Option.isSome_iff_exists.1 h0
    exact spread_complete _ _ _ _ _ _ hn (AList.mem_of_get? hq) hc e

theorem table_ends (s : Source) (h : ∀ p i, At false s.tree p i → Ends s.lines i) : (table s).2 = none := by
  refine spread_ends _ _ _ (fun e he => ?_)
  obtain ⟨p, hp, _⟩ := names_sound s.tree e.1 e.2 (AList.get?_of_mem (names_wf _) he)
  exact h _ _ hp

end Verif.Qualnames
