import Verif.Lemmas.Doc
import Verif.Spec.Query
/-
Lemmas for C43-C55, C99, C100.
-/
namespace Verif.Query
open Doc (Key Follow getDescendant)

/-! ### Reading attributes -/

theorem desc_spec {obj : Val} {path : List Str} (hne : path ≠ []) (hs : Solid obj path) :
    ∃ o, getDescendant obj (path.map Key.name) = .ok o ∧ ∀ v, Has obj path v ↔ o ≠ .none ∧ v = o := by
  have hne' : path.map Key.name ≠ [] := by simpa using hne
  by_cases h : ∃ w, Follow obj (path.map Key.name) w
  · obtain ⟨w, hw⟩ := h
    have hd := Doc.getDescendant_follow _ hne' obj w hw
    refine ⟨w, hd, ?_⟩
    intro v
    constructor
    · rintro ⟨hv, hn⟩
      have := Doc.getDescendant_follow _ hne' obj v hv
      rw [hd] at this
      simp at this; subst this
      exact ⟨hn, rfl⟩
    · rintro ⟨hn, rfl⟩; exact ⟨hw, hn⟩
  · have h' : ∀ w, ¬ Follow obj (path.map Key.name) w := fun w hw => h ⟨w, hw⟩
    refine ⟨.none, ?_, fun v => ⟨fun hv => absurd hv.1 (h' v), fun hv => absurd rfl hv.1⟩⟩
    rcases Doc.getDescendant_nofollow _ hne' obj h' with h | ⟨pre, suf, w, e, h1, h2, hf, ht, hd⟩
    · exact h
    · have hl : ∃ p s, path = p ++ s ∧ p.map Key.name = pre ∧ s.map Key.name = suf := by
        refine ⟨path.take pre.length, path.drop pre.length, (List.take_append_drop _ _).symm, ?_, ?_⟩
        · rw [List.map_take, e]; simp
        · rw [List.map_drop, e]; simp
      obtain ⟨p, s, rfl, rfl, rfl⟩ := hl
      rw [hd, hs p s w rfl (by simpa using h1) (by simpa using h2) hf ht]

theorem enter_flat {obj o : Val} {c : Crit} (hf : Flat obj c) (ho : Follow obj (c.path.map Key.name) o) :
    enter c o = (o, c, false) := by
  unfold enter
  rcases hf with h | h
  · simp [h]
  · rw [if_neg]
    cases o with
    | dict d => exact absurd ho (h d)
    | _ => simp [isDict]

theorem applyOpsTest_true {rx : Rx} {ops : List Str} {neg : Bool} {a b : Val} {t : Bool}
    (h : applyOpsTest rx ops neg a b = .ok t) : t = true ↔ ∃ r, foldOps rx ops a b = .ok r ∧ r.truthy = !neg := by
  unfold applyOpsTest at h
  split at h
  · cases h
  · rename_i v hv
    simp only [Except.ok.injEq] at h
    subst h
    rw [hv]
    simp only [Except.ok.injEq]
    cases neg <;> simp

theorem critLoop_all {rx : Rx} {obj : Val} (cs : List Crit)
    (hp : ∀ c ∈ cs, c.path ≠ [] ∧ Solid obj c.path ∧ Flat obj c) :
    (critLoop rx false obj true cs).2 = cs ∧
    ∀ b, (critLoop rx false obj true cs).1 = .ok b → (b = true ↔ ∀ c ∈ cs, Satisfies rx obj c) := by
  induction cs with
  | nil => simp [critLoop]
  | cons c cs ih =>
    obtain ⟨h1, h2, h3⟩ := hp c (by simp)
    obtain ⟨o, ho, hv⟩ := desc_spec h1 h2
    have ih := ih (fun c hc => hp c (by simp [hc]))
    rw [critLoop, ho]
    simp only
    by_cases hn : o = .none
    · rw [if_pos hn]
      refine ⟨rfl, ?_⟩
      intro b hb
      simp at hb; subst hb
      simp only [Bool.false_eq_true, false_iff]
      intro hall
      obtain ⟨v, hh, _⟩ := hall c (by simp)
      exact ((hv v).1 hh).1 hn
    · have hfo : Has obj c.path o := (hv o).2 ⟨hn, rfl⟩
      rw [if_neg hn, enter_flat h3 hfo.1]
      simp only [Bool.false_eq_true, if_false]
      have hops : (if c.ops.isEmpty = true then ["eq".toList] else c.ops) =
          (if c.ops = [] then ["eq".toList] else c.ops) := by
        cases c.ops <;> simp
      rw [hops]
      have hsat : Satisfies rx obj c ↔ ∃ r, foldOps rx (if c.ops = [] then ["eq".toList] else c.ops) o c.value = .ok r ∧
          r.truthy = !c.neg := by
        constructor
        · rintro ⟨v, hh, hr⟩
          obtain ⟨_, rfl⟩ := (hv v).1 hh
          exact hr
        · intro hr; exact ⟨o, hfo, hr⟩
      cases ht : applyOpsTest rx (if c.ops = [] then ["eq".toList] else c.ops) c.neg o c.value with
      | error e => simp
      | ok t =>
        have := applyOpsTest_true ht
        rw [← hsat] at this
        simp only [Bool.true_and]
        cases t with
        | false =>
          simp only [Bool.not_false, if_true, Except.ok.injEq]
          refine ⟨trivial, ?_⟩
          rintro b rfl
          simp at this ⊢
          intro hc; exact absurd hc this
        | true =>
          simp only [Bool.not_true, Bool.false_eq_true, if_false]
          simp only [true_iff] at this
          refine ⟨by rw [ih.1], ?_⟩
          intro b hb
          rw [ih.2 b hb]
          simp [this]

theorem attrLoop_all {obj : Val} (attrs : List (List Str)) (hp : ∀ ks ∈ attrs, ks ≠ [] ∧ Solid obj ks)
    (test b : Bool) (h : attrLoop false obj test attrs = .ok b) :
    b = true ↔ test = true ∧ ∀ ks ∈ attrs, ∃ v, Has obj ks v := by
  induction attrs generalizing test with
  | nil => simp [attrLoop] at h; simp [h]
  | cons ks attrs ih =>
    obtain ⟨h1, h2⟩ := hp ks (by simp)
    obtain ⟨o, ho, hv⟩ := desc_spec h1 h2
    rw [attrLoop, ho] at h
    simp only [Bool.false_eq_true, if_false] at h
    by_cases hn : o = .none
    · subst hn
      have : ¬ ∃ v, Has obj ks v := by rintro ⟨v, hh⟩; exact ((hv v).1 hh).1 rfl
      simp at h
      simp [← h, this]
    · have hh : ∃ v, Has obj ks v := ⟨o, (hv o).2 ⟨hn, rfl⟩⟩
      cases test with
      | false =>
        simp [hn] at h
        simp [h]
      | true =>
        simp [hn] at h
        rw [ih (fun ks hk => hp ks (by simp [hk])) true h]
        simp [hh]

theorem critLoop_any {rx : Rx} {obj : Val} (cs : List Crit)
    (hp : ∀ c ∈ cs, c.path ≠ [] ∧ Solid obj c.path ∧ Flat obj c) (hx : ∀ c ∈ cs, ∃ v, Has obj c.path v) :
    (critLoop rx true obj false cs).2 = cs ∧
    ∀ b, (critLoop rx true obj false cs).1 = .ok b → (b = true ↔ ∃ c ∈ cs, Satisfies rx obj c) := by
  induction cs with
  | nil => simp [critLoop]
  | cons c cs ih =>
    obtain ⟨h1, h2, h3⟩ := hp c (by simp)
    obtain ⟨o, ho, hv⟩ := desc_spec h1 h2
    have ih := ih (fun c hc => hp c (by simp [hc])) (fun c hc => hx c (by simp [hc]))
    obtain ⟨v, hh⟩ := hx c (by simp)
    obtain ⟨hn, rfl⟩ := (hv v).1 hh
    rw [critLoop, ho]
    simp only
    rw [if_neg hn, enter_flat h3 hh.1]
    simp only [Bool.false_eq_true, if_false, if_true]
    have hops : (if c.ops.isEmpty = true then ["eq".toList] else c.ops) =
        (if c.ops = [] then ["eq".toList] else c.ops) := by
      cases c.ops <;> simp
    rw [hops]
    have hsat : Satisfies rx obj c ↔ ∃ r, foldOps rx (if c.ops = [] then ["eq".toList] else c.ops) v c.value = .ok r ∧
        r.truthy = !c.neg := by
      constructor
      · rintro ⟨v', hh', hr⟩
        obtain ⟨_, rfl⟩ := (hv v').1 hh'
        exact hr
      · intro hr; exact ⟨v, hh, hr⟩
    cases ht : applyOpsTest rx (if c.ops = [] then ["eq".toList] else c.ops) c.neg v c.value with
    | error e => simp
    | ok t =>
      have := applyOpsTest_true ht
      rw [← hsat] at this
      simp only [Bool.false_or]
      cases t with
      | true =>
        simp only [if_true, Except.ok.injEq]
        refine ⟨trivial, ?_⟩
        rintro b rfl
        simp at this ⊢
        exact .inl this
      | false =>
        simp only [Bool.false_eq_true, if_false]
        simp only [Bool.false_eq_true, false_iff] at this
        refine ⟨by rw [ih.1], ?_⟩
        intro b hb
        rw [ih.2 b hb]
        simp [this]

theorem attrLoop_any {obj : Val} (attrs : List (List Str)) (hp : ∀ ks ∈ attrs, ks ≠ [] ∧ Solid obj ks)
    (test b : Bool) (h : attrLoop true obj test attrs = .ok b) :
    b = true ↔ test = true ∨ ∃ ks ∈ attrs, ∃ v, Has obj ks v := by
  induction attrs generalizing test with
  | nil => simp [attrLoop] at h; simp [h]
  | cons ks attrs ih =>
    obtain ⟨h1, h2⟩ := hp ks (by simp)
    obtain ⟨o, ho, hv⟩ := desc_spec h1 h2
    rw [attrLoop, ho] at h
    simp only [if_true] at h
    by_cases hn : o = .none
    · subst hn
      have : ¬ ∃ v, Has obj ks v := by rintro ⟨v, hh⟩; exact ((hv v).1 hh).1 rfl
      simp at h
      rw [ih (fun ks hk => hp ks (by simp [hk])) test h]
      simp only [List.mem_cons, exists_eq_or_imp]
      constructor
      · rintro (h | h)
        · exact .inl h
        · exact .inr (.inr h)
      · rintro (h | h | h)
        · exact .inl h
        · exact absurd h this
        · exact .inr h
    · have hh : ∃ v, Has obj ks v := ⟨o, (hv o).2 ⟨hn, rfl⟩⟩
      simp [hn] at h
      subst h
      simp only [true_iff]
      exact .inr ⟨ks, by simp, hh⟩

/-- On a plain object the filter is unchanged and answers as specified. -/
theorem call_all {rx : Rx} {f : Filter} {obj : Val} (hf : f.anyOf = false) (hp : Plain f obj) (b : Bool)
    (h : (f.call rx obj).1 = .ok b) :
    (f.call rx obj).2 = f ∧ (b = !f.negate ↔ MatchesAll rx f obj) := by
  obtain ⟨h1, h2⟩ := critLoop_all (rx := rx) f.crits hp.1
  unfold Filter.call at h ⊢
  rw [hf] at h ⊢
  simp only [Bool.not_false] at h ⊢
  generalize hg : critLoop rx false obj true f.crits = G at h h1 h2 ⊢
  obtain ⟨r, cs⟩ := G
  simp only at h1; subst h1
  cases r with
  | error e => simp at h
  | ok t =>
    simp only at h ⊢
    cases ha : attrLoop false obj t f.attrs with
    | error e => rw [ha] at h; simp at h
    | ok u =>
      rw [ha] at h
      simp only [Except.ok.injEq] at h
      refine ⟨by cases f; simp at hf; simp [hf], ?_⟩
      have e1 := h2 t rfl
      have e2 := attrLoop_all f.attrs hp.2 t u ha
      unfold MatchesAll
      rw [← e1, ← e2, ← h]
      cases u <;> cases f.negate <;> simp

theorem call_any {rx : Rx} {f : Filter} {obj : Val} (hf : f.anyOf = true) (hp : Plain f obj)
    (hx : ∀ c ∈ f.crits, ∃ v, Has obj c.path v) (b : Bool) (h : (f.call rx obj).1 = .ok b) :
    (f.call rx obj).2 = f ∧ (b = !f.negate ↔ MatchesAny rx f obj) := by
  obtain ⟨h1, h2⟩ := critLoop_any (rx := rx) f.crits hp.1 hx
  unfold Filter.call at h ⊢
  rw [hf] at h ⊢
  simp only [Bool.not_true] at h ⊢
  generalize hg : critLoop rx true obj false f.crits = G at h h1 h2 ⊢
  obtain ⟨r, cs⟩ := G
  simp only at h1; subst h1
  cases r with
  | error e => simp at h
  | ok t =>
    simp only at h ⊢
    cases ha : attrLoop true obj t f.attrs with
    | error e => rw [ha] at h; simp at h
    | ok u =>
      rw [ha] at h
      simp only [Except.ok.injEq] at h
      refine ⟨by cases f; simp at hf; simp [hf], ?_⟩
      have e1 := h2 t rfl
      have e2 := attrLoop_any f.attrs hp.2 t u ha
      unfold MatchesAny
      rw [← e1, ← e2, ← h]
      cases u <;> cases f.negate <;> simp

/-- Negating the filter negates its answers and changes nothing else. -/
theorem call_negate (rx : Rx) (f : Filter) (obj : Val) :
    Filter.call rx { f with negate := !f.negate } obj =
      match f.call rx obj with
      | (.ok b, g) => (.ok !b, { g with negate := !f.negate })
      | (.error e, g) => (.error e, { g with negate := !f.negate }) := by
  unfold Filter.call
  simp only
  generalize critLoop rx f.anyOf obj (!f.anyOf) f.crits = G
  obtain ⟨r, cs⟩ := G
  cases r with
  | error e => rfl
  | ok t =>
    simp only
    cases attrLoop f.anyOf obj t f.attrs with
    | error e => rfl
    | ok u =>
      simp only
      cases u <;> cases f.negate <;> rfl

theorem call_fields (rx : Rx) (f : Filter) (obj : Val) :
    (f.call rx obj).2.negate = f.negate ∧ (f.call rx obj).2.anyOf = f.anyOf ∧
      (f.call rx obj).2.attrs = f.attrs := by
  unfold Filter.call
  split
  · exact ⟨rfl, rfl, rfl⟩
  · split <;> exact ⟨rfl, rfl, rfl⟩

/-! ### The generator -/

theorem select_partition (rx : Rx) (objs : List Val) (f : Filter) (r : List Val)
    (h : select rx false f [] objs = (r, none)) :
    ∃ marks : List Bool, marks.length = (objs.filter Val.truthy).length ∧
      r = pick marks (objs.filter Val.truthy) ∧
      select rx false { f with negate := !f.negate } [] objs =
        (pick (marks.map (!·)) (objs.filter Val.truthy), none) := by
  induction objs generalizing f r with
  | nil => simp [select] at h ⊢; exact ⟨h, rfl⟩
  | cons o objs ih =>
    rw [select] at h ⊢
    by_cases ht : o.truthy = true
    · rw [List.filter_cons_of_pos ht]
      rw [if_neg (by simp [ht])] at h ⊢
      rw [call_negate]
      have hn := (call_fields rx f o).1
      generalize hg : f.call rx o = G at h hn ⊢
      obtain ⟨res, g⟩ := G
      simp only at hn
      cases res with
      | error e => simp at h
      | ok b =>
        cases b with
        | false =>
          simp only at h
          obtain ⟨marks, h1, h2, h3⟩ := ih g r h
          refine ⟨false :: marks, by simp [h1], by simp [pick, h2], ?_⟩
          rw [hn] at h3
          simp [h3, pick]
        | true =>
          simp only [Bool.false_eq_true, if_false] at h
          generalize hs : select rx false g [] objs = S at h
          obtain ⟨r', e⟩ := S
          simp only [Prod.mk.injEq] at h
          obtain ⟨rfl, rfl⟩ := h
          obtain ⟨marks, h1, h2, h3⟩ := ih g r' hs
          refine ⟨true :: marks, by simp [h1], by simp [pick, h2], ?_⟩
          rw [hn] at h3
          simp [h3, pick]
    · simp only [Bool.not_eq_true] at ht
      rw [List.filter_cons_of_neg (by simp [ht])]
      rw [if_pos (by simp [ht])] at h ⊢
      exact ih f r h

theorem select_sublist (rx : Rx) (d : Bool) (objs : List Val) (f : Filter) (seen : List Val) :
    (select rx d f seen objs).1.Sublist objs := by
  induction objs generalizing f seen with
  | nil => simp [select]
  | cons o objs ih =>
    rw [select]
    split
    · exact (ih f seen).cons _
    · split
      · simp
      · exact (ih _ seen).cons _
      · split
        · split
          · simp
          · split
            · exact (ih _ seen).cons _
            · exact (ih _ _).cons_cons _
        · exact (ih _ _).cons_cons _

theorem select_truthy (rx : Rx) (d : Bool) (objs : List Val) (f : Filter) (seen : List Val) :
    ∀ x ∈ (select rx d f seen objs).1, x.truthy = true := by
  induction objs generalizing f seen with
  | nil => simp [select]
  | cons o objs ih =>
    rw [select]
    split
    · exact ih f seen
    · rename_i ht
      split
      · simp
      · exact ih _ seen
      · split
        · split
          · simp
          · split
            · exact ih _ seen
            · intro x hx
              simp only [List.mem_cons] at hx
              rcases hx with rfl | hx
              · simpa using ht
              · exact ih _ _ x hx
        · intro x hx
          simp only [List.mem_cons] at hx
          rcases hx with rfl | hx
          · simpa using ht
          · exact ih _ _ x hx

open Classical in
/-- A filter whose answers are described by `P` and that does not change selects the objects in `P`. -/
theorem select_eq (rx : Rx) (f : Filter) (P : Val → Prop) (objs : List Val)
    (hP : ∀ o ∈ objs, o.truthy = true → ∀ b, (f.call rx o).1 = .ok b → (f.call rx o).2 = f ∧ (b = true ↔ P o))
    (r : List Val) (h : select rx false f [] objs = (r, none)) :
    r = objs.filter (fun o => o.truthy && decide (P o)) := by
  induction objs generalizing r with
  | nil => simp [select] at h; simp [h]
  | cons o objs ih =>
    have ih := ih (fun o ho => hP o (by simp [ho]))
    rw [select] at h
    by_cases ht : o.truthy = true
    · rw [if_neg (by simp [ht])] at h
      have := hP o (by simp) ht
      generalize f.call rx o = G at h this
      obtain ⟨res, g⟩ := G
      cases res with
      | error e => simp at h
      | ok b =>
        obtain ⟨h1, h2⟩ := this b rfl
        simp only at h1; subst h1
        cases b with
        | false =>
          simp only at h
          have hn : ¬ P o := by simpa using h2
          rw [ih r h, List.filter_cons_of_neg (by simp [hn])]
        | true =>
          simp only [Bool.false_eq_true, if_false] at h
          generalize hs : select rx false g [] objs = S at h
          obtain ⟨r', e⟩ := S
          simp only [Prod.mk.injEq] at h
          obtain ⟨rfl, rfl⟩ := h
          have hn : P o := by simpa using h2
          rw [List.filter_cons_of_pos (by simp [ht, hn]), ih r' hs]
    · simp only [Bool.not_eq_true] at ht
      rw [if_pos (by simp [ht])] at h
      rw [ih r h, List.filter_cons_of_neg (by simp [ht])]

/-- Conversely, when no call raises, nothing is raised. -/
theorem select_ok (rx : Rx) (f : Filter) (objs : List Val)
    (hP : ∀ o ∈ objs, o.truthy = true → ∃ b, f.call rx o = (.ok b, f)) :
    ∃ r, select rx false f [] objs = (r, none) := by
  induction objs with
  | nil => exact ⟨[], rfl⟩
  | cons o objs ih =>
    obtain ⟨r, hr⟩ := ih (fun o ho => hP o (by simp [ho]))
    rw [select]
    by_cases ht : o.truthy = true
    · obtain ⟨b, hb⟩ := hP o (by simp) ht
      rw [if_neg (by simp [ht]), hb]
      cases b with
      | false => exact ⟨r, hr⟩
      | true => simp [hr]
    · exact ⟨r, by simp [ht, hr]⟩

/-! ### Criterion names -/

theorem splitDunder_ne_nil (s : Str) : splitDunder s ≠ [] := by
  fun_induction splitDunder s <;> simp

theorem joinWith_splitDunder (s : Str) : joinWith ['_', '_'] (splitDunder s) = s := by
  fun_induction splitDunder s with
  | case1 => rfl
  | case2 c => rfl
  | case3 a b s h ih =>
    rw [joinWith.eq_3 _ _ _ (by simpa using splitDunder_ne_nil s), ih]
    simp [h]
  | case4 a b s h hb ih => exact absurd hb (splitDunder_ne_nil _)
  | case5 a b s h w ws hb ih =>
    rw [hb] at ih
    cases ws with
    | nil => simpa [joinWith] using ih
    | cons x xs =>
      rw [joinWith.eq_3 _ _ _ (by simp)] at ih ⊢
      simp only [List.cons_append, ih]

end Verif.Query
