import Verif.Lemmas.Query
/-
C43-C50, C53 filters; C99 case-insensitive operators; C101 transforming operators.
-/
namespace Verif.Query
open Doc (Key Follow getDescendant)

/-- Example objects. -/
def obj1 : Val := .dict [("a".toList, .int 1), ("n".toList, .list [.int 3, .int 4])]
/-- Another. -/
def obj2 : Val := .dict [("a".toList, .int 2)]
/-- A regular-expression engine that never matches. -/
def noRx : Rx := ⟨fun _ _ _ _ => .ok false⟩

/-! ### C43 -/

/-- `filter` and `exclude` (and `filter_any_of` and `exclude_any_of`) with the same criteria cut the
non-empty objects in two, in order: positions are marked, `filter` yields the marked ones and `exclude`
the others. -/
theorem C43_partition (rx : Rx) (attrs : List Str) (criteria : List (Str × Val)) (anyOf : Bool)
    (objs r : List Val)
    (h : filterOrExclude rx false (.mk' attrs criteria false anyOf) (objs, none) = (r, none)) :
    ∃ marks : List Bool, marks.length = (objs.filter Val.truthy).length ∧
      r = pick marks (objs.filter Val.truthy) ∧
      filterOrExclude rx false (.mk' attrs criteria true anyOf) (objs, none) =
        (pick (marks.map (!·)) (objs.filter Val.truthy), none) := by
  have h' : select rx false (.mk' attrs criteria false anyOf) [] objs = (r, none) := by
    unfold filterOrExclude at h
    split at h
    · simp at h
    · rename_i r' heq; simp at h; subst h; simpa using heq
  obtain ⟨marks, h1, h2, h3⟩ := select_partition rx objs _ r h'
  refine ⟨marks, h1, h2, ?_⟩
  have e : ({ Filter.mk' attrs criteria false anyOf with negate := !(Filter.mk' attrs criteria false anyOf).negate } : Filter)
      = Filter.mk' attrs criteria true anyOf := rfl
  rw [e] at h3
  simp [filterOrExclude, h3]

/-- When `filter` raises, `exclude` raises the same exception. -/
theorem C43_same_exception (rx : Rx) (attrs : List Str) (criteria : List (Str × Val)) (anyOf : Bool)
    (objs : List Val) :
    (filterOrExclude rx false (.mk' attrs criteria false anyOf) (objs, none)).2 =
    (filterOrExclude rx false (.mk' attrs criteria true anyOf) (objs, none)).2 := by
  have key : ∀ (objs : List Val) (f : Filter),
      (select rx false f [] objs).2 = (select rx false { f with negate := !f.negate } [] objs).2 := by
    intro objs
    induction objs with
    | nil => intro f; rfl
    | cons o objs ih =>
      intro f
      rw [select, select]
      split
      · exact ih f
      · rw [call_negate]
        have hn := (call_fields rx f o).1
        generalize f.call rx o = G at hn ⊢
        obtain ⟨res, g⟩ := G
        simp only at hn
        have := ih g
        rw [hn] at this
        cases res with
        | error e => rfl
        | ok b => cases b <;> simp [this]
  have := key objs (.mk' attrs criteria false anyOf)
  have e : ({ Filter.mk' attrs criteria false anyOf with negate := !(Filter.mk' attrs criteria false anyOf).negate } : Filter)
      = Filter.mk' attrs criteria true anyOf := rfl
  rw [e] at this
  unfold filterOrExclude
  generalize select rx false (Filter.mk' attrs criteria false anyOf) [] (objs, none).1 = A at this ⊢
  generalize select rx false (Filter.mk' attrs criteria true anyOf) [] (objs, none).1 = B at this ⊢
  obtain ⟨a, ea⟩ := A
  obtain ⟨b, eb⟩ := B
  simp only at this; subst this
  cases ea <;> rfl

example : filterOrExclude noRx false (.mk' [] [("a".toList, .int 1)] false false) ([obj1, .dict [], obj2], none)
      = ([obj1], none) ∧
    filterOrExclude noRx false (.mk' [] [("a".toList, .int 1)] true false) ([obj1, .dict [], obj2], none)
      = ([obj2], none) := by decide +kernel

/-! ### C44 -/

/-- The result is a subsequence of the iterable without its empty objects, whatever the filter, the
`distinct` flag and the exceptions. -/
theorem C44_subsequence (rx : Rx) (distinct : Bool) (f : Filter) (src : Stream) :
    (filterOrExclude rx distinct f src).1.Sublist src.1 ∧
    ∀ x ∈ (filterOrExclude rx distinct f src).1, x.truthy = true := by
  have e : (filterOrExclude rx distinct f src).1 = (select rx distinct f [] src.1).1 := by
    unfold filterOrExclude; split <;> (rename_i h; rw [h])
  rw [e]
  exact ⟨select_sublist rx distinct src.1 f [], select_truthy rx distinct src.1 f []⟩

theorem filterOrExclude_none {rx : Rx} {d : Bool} {f : Filter} {objs r : List Val}
    (h : filterOrExclude rx d f (objs, none) = (r, none)) : select rx d f [] objs = (r, none) := by
  unfold filterOrExclude at h
  split at h
  · simp at h
  · rename_i r' heq; simp at h; subst h; simpa using heq

theorem call_pure {rx : Rx} {f : Filter} {obj : Val} (hp : Plain f obj)
    (hx : f.anyOf = true → ∀ c ∈ f.crits, ∃ v, Has obj c.path v) (b : Bool) (h : (f.call rx obj).1 = .ok b) :
    f.call rx obj = (.ok b, f) := by
  cases ha : f.anyOf with
  | false => exact Prod.ext h (call_all ha hp b h).1
  | true => exact Prod.ext h (call_any ha hp (hx ha) b h).1

theorem select_calls {rx : Rx} {f : Filter} {objs : List Val} (hp : ∀ o ∈ objs, Plain f o)
    (hx : f.anyOf = true → ∀ o ∈ objs, ∀ c ∈ f.crits, ∃ v, Has o c.path v) (r : List Val)
    (h : select rx false f [] objs = (r, none)) :
    (∀ o ∈ objs, o.truthy = true → ∃ b, f.call rx o = (.ok b, f)) ∧ (∀ x ∈ r, f.call rx x = (.ok true, f)) := by
  induction objs generalizing r with
  | nil => simp [select] at h; subst h; simp
  | cons o objs ih =>
    have ih := ih (fun o ho => hp o (by simp [ho])) (fun ha o ho => hx ha o (by simp [ho]))
    rw [select] at h
    by_cases ht : o.truthy = true
    · rw [if_neg (by simp [ht])] at h
      have hc := call_pure (rx := rx) (hp o (by simp)) (fun ha => hx ha o (by simp))
      generalize hg : f.call rx o = G at h hc
      obtain ⟨res, g⟩ := G
      cases res with
      | error e => simp at h
      | ok b =>
        have := hc b rfl
        simp only [Prod.mk.injEq, true_and] at this; subst this
        cases b with
        | false =>
          simp only at h
          obtain ⟨h1, h2⟩ := ih r h
          refine ⟨?_, h2⟩
          intro x hx
          rcases List.mem_cons.1 hx with rfl | hx
          · intro _; exact ⟨false, hg⟩
          · exact h1 x hx
        | true =>
          simp only [Bool.false_eq_true, if_false] at h
          generalize hs : select rx false g [] objs = S at h
          obtain ⟨r', e⟩ := S
          simp only [Prod.mk.injEq] at h
          obtain ⟨rfl, rfl⟩ := h
          obtain ⟨h1, h2⟩ := ih r' hs
          constructor
          · intro x hx
            rcases List.mem_cons.1 hx with rfl | hx
            · intro _; exact ⟨true, hg⟩
            · exact h1 x hx
          · intro x hx
            rcases List.mem_cons.1 hx with rfl | hx
            · exact hg
            · exact h2 x hx
    · simp only [Bool.not_eq_true] at ht
      rw [if_pos (by simp [ht])] at h
      obtain ⟨h1, h2⟩ := ih r h
      refine ⟨?_, h2⟩
      intro x hx
      rcases List.mem_cons.1 hx with rfl | hx
      · intro hh; rw [ht] at hh; simp at hh
      · exact h1 x hx

/-- Filtering the result again by the same criteria changes nothing (criteria that address plain
attributes, see `Plain`; for the any_of variants, attributes that exist). -/
theorem C44_idempotent (rx : Rx) (f : Filter) (objs r : List Val) (hp : ∀ o ∈ objs, Plain f o)
    (hx : f.anyOf = true → ∀ o ∈ objs, ∀ c ∈ f.crits, ∃ v, Has o c.path v)
    (h : filterOrExclude rx false f (objs, none) = (r, none)) :
    filterOrExclude rx false f (r, none) = (r, none) := by
  have h' := filterOrExclude_none h
  have ht : ∀ x ∈ r, x.truthy = true := by
    intro x hx; have := select_truthy rx false objs f [] x; rw [h'] at this; exact this hx
  have hc := (select_calls hp hx r h').2
  have : select rx false f [] r = (r, none) := by
    clear h h'
    induction r with
    | nil => rfl
    | cons x r ih =>
      rw [select, if_neg (by simp [ht x (by simp)]), hc x (by simp)]
      simp [ih (fun y hy => ht y (by simp [hy])) (fun y hy => hc y (by simp [hy]))]
  simp [filterOrExclude, this]

open Classical in
/-- Filtering by A and then by B selects, in order, the non-empty objects that match both. -/
theorem C44_chained (rx : Rx) (f g : Filter) (objs r s : List Val) (hf : f.anyOf = false ∧ f.negate = false)
    (hg : g.anyOf = false ∧ g.negate = false) (hp : ∀ o ∈ objs, Plain f o ∧ Plain g o)
    (h : filterOrExclude rx false f (objs, none) = (r, none))
    (h' : filterOrExclude rx false g (r, none) = (s, none)) :
    s = objs.filter (fun o => o.truthy && decide (MatchesAll rx f o ∧ MatchesAll rx g o)) := by
  have e1 := select_eq rx f (MatchesAll rx f) objs (fun o ho _ b hb => by
    have := call_all hf.1 (hp o ho).1 b hb
    rw [hf.2] at this; exact this) r (filterOrExclude_none h)
  have hsub : ∀ o ∈ r, o ∈ objs := by
    intro o ho; rw [e1] at ho; exact (List.mem_filter.1 ho).1
  have e2 := select_eq rx g (MatchesAll rx g) r (fun o ho _ b hb => by
    have := call_all hg.1 (hp o (hsub o ho)).2 b hb
    rw [hg.2] at this; exact this) s (filterOrExclude_none h')
  rw [e2, e1, List.filter_filter]
  apply List.filter_congr
  intro o _
  cases o.truthy <;> simp [Bool.and_comm]

example : filterOrExclude noRx false (.mk' [] [("a".toList, .int 1)] false false) ([obj1, obj2, obj1], none)
      = ([obj1, obj1], none) := by decide +kernel

/-! ### C45 -/

open Classical in
/-- Missing: paths through empty values. `filter` selects exactly the non-empty objects that satisfy all
criteria and have all named attributes, on objects whose addressed attributes are not mappings and are
not below an empty value; `exclude` selects the other non-empty ones. -/
theorem C45_filter_partial (rx : Rx) (attrs : List Str) (criteria : List (Str × Val)) (negate : Bool)
    (objs r : List Val) (hp : ∀ o ∈ objs, Plain (.mk' attrs criteria negate false) o)
    (h : filterOrExclude rx false (.mk' attrs criteria negate false) (objs, none) = (r, none)) :
    r = objs.filter (fun o => o.truthy &&
      (decide (MatchesAll rx (.mk' attrs criteria negate false) o) != negate)) := by
  have := select_eq rx (.mk' attrs criteria negate false)
    (fun o => (decide (MatchesAll rx (.mk' attrs criteria negate false) o) != negate) = true) objs
    (fun o ho _ b hb => by
      have := call_all rfl (hp o ho) b hb
      refine ⟨this.1, ?_⟩
      have hn : (Filter.mk' attrs criteria negate false).negate = negate := rfl
      have h2 := this.2
      rw [hn] at h2
      by_cases hm : MatchesAll rx (Filter.mk' attrs criteria negate false) o
      · have := h2.2 hm
        subst this; cases negate <;> simp [hm]
      · have : b = negate := by
          have := fun e => hm (h2.1 e)
          cases b <;> cases negate <;> simp_all
        subst this; cases b <;> simp [hm]) r (filterOrExclude_none h)
  rw [this]
  apply List.filter_congr
  intro o _
  congr 1
  rw [Bool.eq_iff_iff]
  exact @decide_eq_true_iff _ (propDecidable _)

/-- An object where `a` is zero matches `a__b=0`, although it has no attribute `a__b`. -/
theorem C45_filter_violated : ∃ (rx : Rx) (criteria : List (Str × Val)) (obj : Val),
    filterOrExclude rx false (.mk' [] criteria false false) ([obj], none) = ([obj], none) ∧
    ¬ MatchesAll rx (.mk' [] criteria false false) obj := by
  refine ⟨noRx, [("a__b".toList, .int 0)], .dict [("a".toList, .int 0)], by decide +kernel, ?_⟩
  intro h
  obtain ⟨v, ⟨hf, _⟩, _⟩ := h.1 ⟨["a".toList, "b".toList], [], false, .int 0⟩ (by decide +kernel)
  rw [List.map_cons, Doc.follow_cons_iff] at hf
  obtain ⟨w, hw, hf⟩ := hf
  have : w = .int 0 := by
    have : Doc.getItem (.dict [("a".toList, .int 0)]) (.name "a".toList) = some (.int 0) := by decide +kernel
    rw [this] at hw; simpa using hw.symm
  subst this
  rw [List.map_cons, Doc.follow_cons_iff] at hf
  obtain ⟨u, hu, _⟩ := hf
  simp [Doc.getItem] at hu

theorem solid_single (obj : Val) (k : Str) : Solid obj [k] := by
  intro pre suf w e h1 h2
  have := congrArg List.length e
  have := List.length_pos_iff.2 h1
  have := List.length_pos_iff.2 h2
  simp at *; omega

example : (∀ o ∈ [obj1, obj2], Plain (.mk' ["a".toList] [("n__size__ge".toList, .int 2)] false false) o) ∧
    filterOrExclude noRx false (.mk' ["a".toList] [("n__size__ge".toList, .int 2)] false false) ([obj1, obj2], none)
      = ([obj1], none) := by
  refine ⟨?_, by decide +kernel⟩
  have hc : (Filter.mk' ["a".toList] [("n__size__ge".toList, .int 2)] false false).crits =
      [⟨["n".toList], ["size".toList, "ge".toList], false, .int 2⟩] := by decide +kernel
  have ha : (Filter.mk' ["a".toList] [("n__size__ge".toList, .int 2)] false false).attrs = [["a".toList]] := by
    decide +kernel
  intro o ho
  unfold Plain
  rw [hc, ha]
  constructor
  · intro c hc
    simp only [List.mem_singleton] at hc; subst hc
    refine ⟨by simp, solid_single _ _, .inr ?_⟩
    intro d hd
    rw [List.map_cons, Doc.follow_cons_iff] at hd
    obtain ⟨v, hv, hd⟩ := hd
    rw [List.map_nil, Doc.follow_nil_iff] at hd
    subst hd
    simp only [List.mem_cons, List.not_mem_nil, or_false] at ho
    rcases ho with rfl | rfl
    · have : Doc.getItem obj1 (.name "n".toList) = some (.list [.int 3, .int 4]) := by decide +kernel
      rw [this] at hv; simp at hv
    · have : Doc.getItem obj2 (.name "n".toList) = none := by decide +kernel
      rw [this] at hv; simp at hv
  · intro ks hk
    simp only [List.mem_singleton] at hk; subst hk
    exact ⟨by simp, solid_single _ _⟩

/-! ### C46 -/

open Classical in
/-- Missing: objects that lack the attribute of some criterion. On objects that have the attributes of
all criteria (and are plain, as in C45), `filter_any_of` selects the non-empty ones that satisfy some
criterion or have some named attribute. -/
theorem C46_any_of_partial (rx : Rx) (attrs : List Str) (criteria : List (Str × Val))
    (objs r : List Val) (hp : ∀ o ∈ objs, Plain (.mk' attrs criteria false true) o)
    (hx : ∀ o ∈ objs, ∀ c ∈ (Filter.mk' attrs criteria false true).crits, ∃ v, Has o c.path v)
    (h : filterOrExclude rx false (.mk' attrs criteria false true) (objs, none) = (r, none)) :
    r = objs.filter (fun o => o.truthy && decide (MatchesAny rx (.mk' attrs criteria false true) o)) :=
  select_eq rx (.mk' attrs criteria false true) _ objs (fun o ho _ b hb => by
    have := call_any rfl (hp o ho) (hx o ho) b hb
    exact this) r (filterOrExclude_none h)

/-- An object that lacks the attribute of the first criterion and satisfies the second is not selected. -/
theorem C46_any_of_violated : ∃ (rx : Rx) (criteria : List (Str × Val)) (obj : Val),
    filterOrExclude rx false (.mk' [] criteria false true) ([obj], none) = ([], none) ∧ obj.truthy = true ∧
    MatchesAny rx (.mk' [] criteria false true) obj := by
  refine ⟨noRx, [("x".toList, .int 1), ("a".toList, .int 2)], obj2, by decide +kernel, by decide +kernel, .inl ?_⟩
  refine ⟨⟨["a".toList], [], false, .int 2⟩, by decide +kernel, .int 2, ⟨.dict ?_ (.here _), by simp⟩, .bool true, ?_⟩
  · decide +kernel
  · decide +kernel

example : filterOrExclude noRx false (.mk' [] [("a".toList, .int 1), ("a__gt".toList, .int 1)] false true)
    ([obj1, obj2], none) = ([obj1, obj2], none) := by decide +kernel

/-! ### C47 -/

theorem splitDunder_append_op (k op : Str) (h : '_' ∉ op) (hk : k.getLast? ≠ some '_') :
    splitDunder (k ++ "__".toList ++ op) = splitDunder k ++ [op] := by
  have hop : splitDunder op = [op] := by
    clear hk
    induction op with
    | nil => rfl
    | cons a s ih =>
      cases s with
      | nil => rfl
      | cons b s =>
        rw [splitDunder, if_neg (by rintro ⟨rfl, _⟩; simp at h), ih (fun hm => h (by simp [hm]))]
  fun_induction splitDunder k with
  | case1 => simp [splitDunder, hop]
  | case2 c =>
    have hc : c ≠ '_' := by rintro rfl; simp at hk
    simp only [List.cons_append, List.nil_append, show "__".toList = ['_', '_'] from rfl]
    rw [splitDunder, if_neg (by rintro ⟨rfl, _⟩; exact hc rfl), splitDunder, if_pos ⟨rfl, rfl⟩, hop]
  | case3 a b s hab ih =>
    simp only [List.cons_append]
    rw [splitDunder, if_pos hab]
    rw [ih (by
      intro hl
      apply hk
      cases s with
      | nil => simp at hl
      | cons x s => simpa [List.getLast?_cons_cons] using hl)]
  | case4 a b s hab hb ih => exact absurd hb (splitDunder_ne_nil _)
  | case5 a b s hab w ws hb ih =>
    simp only [List.cons_append] at ih ⊢
    rw [splitDunder, if_neg hab, ih (by simpa [List.getLast?_cons_cons] using hk), hb]
    simp

/-- Adding `__not` to a criterion that does not have it: same path, same operators, negated. -/
theorem C47_not_criterion (k : Str) (v : Val) (hk : k.getLast? ≠ some '_')
    (hneg : (mkCrit (k, v)).neg = false) :
    (mkCrit (k ++ "__not".toList, v)) = { mkCrit (k, v) with neg := true } := by
  have hs : splitDunder (k ++ "__not".toList) = splitDunder k ++ ["not".toList] := by
    have := splitDunder_append_op k "not".toList (by decide +kernel) hk
    rw [← this]; congr 1; simp
  have hop : isOp "not".toList = true := by decide +kernel
  have hneg' : "not".toList ∉ (sortCriteria k).2 := by
    simpa [mkCrit] using hneg
  have hr : (List.takeWhile isOp (splitDunder k ++ ["not".toList]).reverse).reverse =
      (List.takeWhile isOp (splitDunder k).reverse).reverse ++ ["not".toList] := by
    rw [List.reverse_append, List.reverse_singleton, List.singleton_append, List.takeWhile_cons, hop, if_pos rfl,
      List.reverse_cons]
  simp only [mkCrit, sortCriteria, hs, hr]
  simp only [sortCriteria] at hneg'
  generalize hO : (List.takeWhile isOp (splitDunder k).reverse).reverse = O at hneg' ⊢
  have hlen : O.length ≤ (splitDunder k).length := by
    rw [← hO, List.length_reverse]
    have := (List.takeWhile_sublist isOp (l := (splitDunder k).reverse)).length_le
    simpa using this
  have e1 : (splitDunder k ++ ["not".toList]).length - (O ++ ["not".toList]).length
      = (splitDunder k).length - O.length := by simp
  rw [e1]
  congr 1
  · rw [List.take_append_of_le_length (by omega)]
  · rw [List.erase_append_right _ hneg', List.erase_of_not_mem hneg']
    simp
  · simp

/-- On an object that has the attribute, the negated criterion holds exactly when the criterion does not
(when evaluating it raises nothing). -/
theorem C47_complement (rx : Rx) (obj : Val) (c : Crit) (v r : Val) (hv : Has obj c.path v)
    (hr : foldOps rx (if c.ops = [] then ["eq".toList] else c.ops) v c.value = .ok r) :
    Satisfies rx obj { c with neg := !c.neg } ↔ ¬ Satisfies rx obj c := by
  have hu : ∀ w, Has obj c.path w → w = v := by
    intro w hw
    by_cases hp : c.path = []
    · have h1 := hw.1; have h2 := hv.1
      rw [hp] at h1 h2
      simp only [List.map_nil] at h1 h2
      rw [Doc.follow_nil_iff] at h1 h2; rw [h1, h2]
    · have h1 := Doc.getDescendant_follow _ (by simpa using hp) obj _ hw.1
      have h2 := Doc.getDescendant_follow _ (by simpa using hp) obj _ hv.1
      rw [h1] at h2; simpa using h2
  have key : ∀ n : Bool, Satisfies rx obj { c with neg := n } ↔ r.truthy = !n := by
    intro n
    constructor
    · rintro ⟨w, hw, r', hr', ht⟩
      have := hu w hw; subst this
      simp only at hr' ht
      rw [hr] at hr'; simp at hr'; subst hr'
      exact ht
    · intro ht
      exact ⟨v, hv, r, hr, ht⟩
  have k1 := key (!c.neg)
  have k2 := key c.neg
  have e : ({ c with neg := c.neg } : Crit) = c := rfl
  rw [e] at k2
  rw [k1, k2]
  cases r.truthy <;> cases c.neg <;> simp

example : mkCrit ("a__ge__not".toList, .int 1) = ⟨["a".toList], ["ge".toList], true, .int 1⟩ ∧
    mkCrit ("a__not".toList, .int 1) = ⟨["a".toList], [], true, .int 1⟩ := by decide +kernel

/-! ### C48 -/

/-- Missing: histories with criteria that descend into mappings. After any number of plain objects (see
`Plain`; any_of: with the attributes of the criteria) on which it raised nothing, a filter is what it was
at the start, and so are its answers. -/
theorem C48_stateless_partial (rx : Rx) (f : Filter) (before : List Val) (obj : Val)
    (hp : ∀ o ∈ before, Plain f o) (hx : f.anyOf = true → ∀ o ∈ before, ∀ c ∈ f.crits, ∃ v, Has o c.path v)
    (hok : ∀ o ∈ before, ∃ b, (f.call rx o).1 = .ok b) :
    (before.foldl (fun f o => (f.call rx o).2) f).call rx obj = f.call rx obj := by
  have : before.foldl (fun f o => (f.call rx o).2) f = f := by
    induction before with
    | nil => rfl
    | cons o before ih =>
      obtain ⟨b, hb⟩ := hok o (by simp)
      rw [List.foldl_cons, call_pure (hp o (by simp)) (fun ha => hx ha o (by simp)) b hb]
      exact ih (fun o ho => hp o (by simp [ho])) (fun ha o ho => hx ha o (by simp [ho]))
        (fun o ho => hok o (by simp [ho]))
  rw [this]

/-- An object where `a` is a mapping with a key `size` changes what the filter looks for: the next object
is then judged differently. -/
theorem C48_stateless_violated : ∃ (rx : Rx) (f : Filter) (first obj : Val),
    (f.call rx obj).1 = .ok true ∧ (((f.call rx first).2).call rx obj).1 = .ok false := by
  refine ⟨noRx, .mk' [] [("a__size__eq".toList, .int 2)] false false,
    .dict [("a".toList, .dict [("size".toList, .int 5)])], .dict [("a".toList, .list [.int 1, .int 2])], ?_⟩
  decide +kernel

/-! ### C49 -/

/-- A criterion name is cut into a path and operators: put together again they give the name; the
operators are operator names or `@...`; the path does not end with one (the suffix is the longest). -/
theorem C49_split (k : Str) :
    (sortCriteria k).1 ++ (sortCriteria k).2 = splitDunder k ∧
    joinWith "__".toList ((sortCriteria k).1 ++ (sortCriteria k).2) = k ∧
    (∀ e ∈ (sortCriteria k).2, e ∈ operatorNames ∨ ∃ i, e = '@' :: i) ∧
    (∀ e ∈ (sortCriteria k).1.getLast?, e ∉ operatorNames ∧ ∀ i, e ≠ '@' :: i) := by
  have hnames : ∀ e, e ∈ operators ↔ e ∈ operatorNames := by
    have h1 : ∀ e ∈ operators, e ∈ operatorNames := by decide +kernel
    have h2 : ∀ e ∈ operatorNames, e ∈ operators := by decide +kernel
    exact fun e => ⟨h1 e, h2 e⟩
  have hop : ∀ e, isOp e = true ↔ e ∈ operatorNames ∨ ∃ i, e = '@' :: i := by
    intro e
    rw [← hnames]
    unfold isOp
    rw [Bool.or_eq_true, List.contains_iff_mem, List.isPrefixOf_iff_prefix]
    constructor
    · rintro (h | ⟨t, rfl⟩)
      · exact .inl h
      · exact .inr ⟨t, rfl⟩
    · rintro (h | ⟨t, rfl⟩)
      · exact .inl h
      · exact .inr ⟨t, rfl⟩
  have hsplit : splitDunder k = ((splitDunder k).reverse.dropWhile isOp).reverse ++
      ((splitDunder k).reverse.takeWhile isOp).reverse := by
    rw [← List.reverse_append, List.takeWhile_append_dropWhile, List.reverse_reverse]
  have h1 : (sortCriteria k).1 = ((splitDunder k).reverse.dropWhile isOp).reverse := by
    simp only [sortCriteria]
    conv => lhs; rw [hsplit]
    have hl := congrArg List.length hsplit
    rw [List.length_append] at hl
    rw [← hsplit, hl, Nat.add_sub_cancel]
    conv => lhs; rw [hsplit]
    simp
  have h2 : (sortCriteria k).2 = ((splitDunder k).reverse.takeWhile isOp).reverse := rfl
  have h3 : (sortCriteria k).1 ++ (sortCriteria k).2 = splitDunder k := by rw [h1, h2]; exact hsplit.symm
  refine ⟨h3, ?_, ?_, ?_⟩
  · rw [h3]; exact joinWith_splitDunder k
  · intro e he
    rw [h2, List.mem_reverse] at he
    rw [← hop]
    have : ∀ (l : List Str), ∀ e ∈ l.takeWhile isOp, isOp e = true := by
      intro l
      induction l with
      | nil => simp
      | cons x l ih =>
        rw [List.takeWhile_cons]
        split
        · intro e he
          rcases List.mem_cons.1 he with rfl | he
          · assumption
          · exact ih e he
        · simp
    exact this _ e he
  · intro e he
    rw [h1, List.getLast?_reverse] at he
    have : isOp e = false := by
      generalize (splitDunder k).reverse = l at he
      induction l with
      | nil => simp at he
      | cons x l ih =>
        rw [List.dropWhile_cons] at he
        split at he
        · exact ih he
        · simp at he; subst he; rename_i h; simpa using h
    have hn : ¬ isOp e = true := by simp [this]
    rw [hop] at hn
    exact ⟨fun h => hn (.inl h), fun i h => hn (.inr ⟨i, h⟩)⟩

/-- Names written as components without `_` at the edges are cut at each `__`. -/
theorem C49_components (ws : List Str) (hne : ws ≠ []) (h : ∀ w ∈ ws, '_' ∉ w) :
    splitDunder (joinWith "__".toList ws) = ws := by
  have single : ∀ w : Str, '_' ∉ w → splitDunder w = [w] := by
    intro w hw
    induction w with
    | nil => rfl
    | cons a s ih =>
      cases s with
      | nil => rfl
      | cons b s =>
        rw [splitDunder, if_neg (by rintro ⟨rfl, _⟩; simp at hw), ih (fun hm => hw (by simp [hm]))]
  have step : ∀ (w rest : Str), '_' ∉ w → splitDunder (w ++ '_' :: '_' :: rest) = w :: splitDunder rest := by
    intro w rest hw
    induction w with
    | nil => rw [List.nil_append, splitDunder, if_pos ⟨rfl, rfl⟩]
    | cons a s ih =>
      have ih := ih (fun hm => hw (by simp [hm]))
      cases s with
      | nil =>
        simp only [List.cons_append, List.nil_append] at ih ⊢
        rw [splitDunder, if_neg (by rintro ⟨rfl, _⟩; simp at hw), ih]
      | cons b s =>
        simp only [List.cons_append] at ih ⊢
        rw [splitDunder, if_neg (by rintro ⟨rfl, _⟩; simp at hw), ih]
  induction ws with
  | nil => exact absurd rfl hne
  | cons w ws ih =>
    cases ws with
    | nil => simp only [joinWith]; exact single w (h w (by simp))
    | cons x xs =>
      rw [joinWith.eq_3 _ _ _ (by simp)]
      have := step w (joinWith "__".toList (x :: xs)) (h w (by simp))
      rw [ih (by simp) (fun w hw => h w (by simp [hw]))] at this
      rw [← this]; congr 1; simp

example : sortCriteria "keywords__size__ge".toList = (["keywords".toList], ["size".toList, "ge".toList]) ∧
    sortCriteria "size__x__@0".toList = (["size".toList, "x".toList], ["@0".toList]) := by decide +kernel

end Verif.Query
