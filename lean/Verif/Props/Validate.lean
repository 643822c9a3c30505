import Verif.Lemmas.Validate
/-
C147 Validation accepts exactly what meets the schema; C148 the types of a schema are enforced; C149 a refused value raises
InvalidValue; C150 every error is reported; C151 excluding keywords; C152 evaluated values are valid.
-/
namespace Verif.Validate
open Spec

section
variable [Rx]

theorem validate_cases (ex : List Str) (wt : Bool) (l : List Kw) (v : Val) :
    validate ex wt l v = .ok v ∨ validate ex wt l v = .error .typeError ∨
      validate ex wt l v = .error .invalidValue := by
  unfold validate errors
  dsimp only
  rcases report_cases (errs (.kws (l.filter fun k => !(if wt then ex else ex ++ ["type".toList]).contains k.name)) v)
    with ⟨_, h⟩ | ⟨r, h, _⟩
  · rw [h]; exact Or.inr (Or.inl rfl)
  · rw [h]
    cases r with
    | nil => exact Or.inl rfl
    | cons a r => exact Or.inr (Or.inr rfl)

theorem errors_typeless (ex : List Str) (wt : Bool) (l : List Kw) (v : Val) :
    errors ex wt l v = report (errs (.kws (l.filter fun k => !ex.contains k.name)) v) := by
  unfold errors
  cases wt with
  | true => rfl
  | false =>
    dsimp only
    rw [← errs_typeless (l.filter fun k => !ex.contains k.name), List.filter_filter]
    congr 4
    funext k
    rw [Bool.eq_iff_iff]
    simp only [Bool.false_eq_true, if_false, List.contains_append, List.contains_cons, List.contains_nil, Bool.or_false,
      Bool.not_or, Bool.and_eq_true]
    exact and_comm

theorem accepts_iff (ex : List Str) (wt : Bool) (l : List Kw) (v : Val) :
    validate ex wt l v = .ok v ↔ errs (.kws (l.filter fun k => !ex.contains k.name)) v = [] := by
  unfold validate
  rw [errors_typeless]
  rcases report_cases (errs (.kws (l.filter fun k => !ex.contains k.name)) v) with ⟨⟨e, he, _⟩, h⟩ | ⟨r, h, hn, _⟩
  · rw [h]
    simp only [reduceCtorEq, false_iff]
    intro h0
    rw [h0] at he
    simp at he
  · rw [h, ← hn]
    cases r <;> simp

theorem filter_none (l : List Kw) : (l.filter fun k => !([] : List Str).contains k.name) = l := by
  rw [List.filter_eq_self]
  intro k _
  rfl

/-! C147 -/

/-- C147: with neither types nor references, validation accepts the values that meet the schema, when no boolean is
given to keywords on numbers, no text to keywords on arrays, no object with booleans or with a definition's name among its
own is compared, no pattern for names is empty and those of a schema can be joined, whatever the meaning of patterns. -/
theorem C147_accepts_partial (ref : Str → Val → Prop) (wt : Bool) (l : List Kw) (v : Val)
    (hr : usesKws isRef l = false) (ht : usesKws isType l = false)
    (hn : usesKws onNum l = true → ∀ w, Part (usesKws onNames l) v w → ¬ IsBool w)
    (ha : usesKws onArr l = true → ∀ w, Part (usesKws onNames l) v w → ¬ IsText w)
    (hc : ∀ c, usesKws (hasConst c) l = true → IsScalar c ∨ Plain c ∧ Plain v)
    (hu : usesKws isUnique l = true → Plain v)
    (hd : ∀ p, usesKws (defines p) l = true → ∀ d x, Part (usesKws onNames l) v (.dict d) → (p, x) ∉ d)
    (he : usesKws (hasPattern []) l = false)
    (hj : ∀ ps, ps ≠ [] → (∀ p ∈ ps, usesKws (hasPattern p) l = true) → ∀ k,
      (Rx.search (joinWith ['|'] ps) k = true ↔ ∃ p ∈ ps, Rx.search p k = true)) :
    validate [] wt l v = .ok v ↔ Valid (std ref) (.kws l) v := by
  rw [accepts_iff, filter_none, errs_nil (.kws l) v hr]
  refine valid_congr (.kws l) v ⟨fun h w hw => ?_, fun h w hw => ⟨?_, rfl⟩, fun h => ?_, fun h => ?_, fun c h w hw => ?_,
    fun h w w' hw hw' => ?_, fun ps h k => ?_, fun p h d hp => ?_⟩
  · have := hn h w hw
    cases w <;> first | exact absurd trivial this | rfl
  · have := ha h w hw
    cases w <;> first | exact absurd trivial this | rfl
  · have h' : usesKws isType l = true := h
    rw [ht] at h'; simp at h'
  · have h' : usesKws isRef l = true := h
    rw [hr] at h'; simp at h'
  · rcases hc c h with hs | ⟨hp, hv⟩
    · exact equal_scalar w hs
    · exact equal_plain (plain_reach hv hw) hp
  · exact equal_plain (plain_reach (hu h) hw) (plain_reach (hu h) hw')
  · cases ps with
    | nil => simp [lax, std, joinWith]
    | cons p ps =>
      have hne : joinWith ['|'] (p :: ps) ≠ [] := by
        have hp : p ≠ [] := by
          rintro rfl
          have : usesKws (hasPattern []) l = true := h [] (List.mem_cons_self ..)
          rw [he] at this
          cases this
        cases ps <;> simp [joinWith, hp]
      exact (and_iff_right hne).trans (hj (p :: ps) (List.cons_ne_nil _ _) h k)
  · rw [AList.get?_eq_none]
    intro hk
    obtain ⟨x, hx, rfl⟩ := List.mem_map.1 hk
    exact hd _ h d x.2 hp hx

/-- What is accepted, for all schemas without references: booleans count as numbers, texts as arrays, types are
ignored, booleans inside lists and objects equal numbers, and definitions constrain the properties named like them. -/
theorem C147_reading_partial (wt : Bool) (l : List Kw) (v : Val) (hr : usesKws isRef l = false) :
    validate [] wt l v = .ok v ↔
      Valid lax (.kws l) v := by
  rw [accepts_iff, filter_none]
  exact errs_nil (.kws l) v hr

/-- C147 is violated by definitions: an object whose property has the name of a definition is refused when the property
does not meet the definition, although definitions say nothing about the value. -/
theorem C147_defs_violated (ref : Str → Val → Prop) (wt b : Bool) (p : Str) (s : Sch) (d : List (Str × Val)) (x : Val)
    (hx : AList.get? d p = some x) (hs : uses isRef s = false)
    (hv : ¬ Valid lax s x) :
    validate [] wt [.defs b [(p, s)]] (.dict d) ≠ .ok (.dict d) ∧
    Valid (std ref) (.kws [.defs b [(p, s)]]) (.dict d) := by
  constructor
  · intro h
    rw [C147_reading_partial wt _ _ (by simp [usesKws, usesKw, usesProps, isRef, hs])] at h
    simp only [Valid, ValidKws, ValidKw, ValidProps, and_true, true_implies, entries, Option.some.injEq, forall_eq'] at h
    exact hv (h trivial x hx)
  · simp [Valid, ValidKws, ValidKw, std]

/-- C147 is violated by booleans in lists: they are taken for the numbers 1 and 0 by `const`, `enum` and `uniqueItems`. -/
theorem C147_nested_violated (ref : Str → Val → Prop) (wt b : Bool) (pre post : List Val) :
    let n := Val.int (if b then 1 else 0)
    let l := Val.list (pre ++ .bool b :: post)
    let m := Val.list (pre ++ n :: post)
    Query.WellFormed l →
    validate [] wt [.leaf (.const l)] m = .ok m ∧ ¬ Valid (std ref) (.kws [.leaf (.const l)]) m ∧
    validate [] wt [.leaf (.enum [l])] m = .ok m ∧ ¬ Valid (std ref) (.kws [.leaf (.enum [l])]) m ∧
    validate [] wt [.leaf (.uniqueItems true)] (.list [l, m]) = .error .invalidValue := by
  intro n l m hl
  have hm : Query.WellFormed m := by
    have hl' : Query.WellFormed (.list (pre ++ .bool b :: post)) := hl
    cases hl' with
    | list h =>
      refine .list fun x hx => ?_
      rcases List.mem_append.1 hx with hx | hx
      · exact h x (List.mem_append_left _ hx)
      · rcases List.mem_cons.1 hx with rfl | hx
        · exact .int
        · exact h x (List.mem_append_right _ (List.mem_cons_of_mem _ hx))
  have he : ∀ v w : Val, Query.Equal v w →
      Query.Equal (.list (pre ++ v :: post)) (.list (pre ++ w :: post)) := by
    intro v w hvw
    refine .list (by simp) fun k x y hx hy => ?_
    by_cases hk : k < pre.length
    · rw [List.getElem?_append_left hk] at hx hy
      rw [hx] at hy
      cases hy
      exact equal_refl x
    · rw [List.getElem?_append_right (by omega)] at hx hy
      cases hd : k - pre.length with
      | zero => rw [hd] at hx hy; simp at hx hy; rw [← hx, ← hy]; exact hvw
      | succ i =>
        rw [hd] at hx hy
        simp only [List.getElem?_cons_succ] at hx hy
        rw [hx] at hy
        cases hy
        exact equal_refl x
  have hb : Query.NumOf (.bool b) (if b then 1 else 0) := by cases b; exact .false; exact .true
  have e1 : equal m l = true := (Query.C296_equal m l hm hl).2 (he _ _ (.num .int hb))
  have e2 : equal l m = true := (Query.C296_equal l m hl hm).2 (he _ _ (.num hb .int))
  have hs : ¬ Same m l := by
    intro h
    have h' : Same (.list (pre ++ n :: post)) (.list (pre ++ .bool b :: post)) := h
    cases h' with
    | list _ h =>
      have := h pre.length n (.bool b) (by simp) (by simp)
      simp only [n] at this
      cases this
  refine ⟨?_, ?_, ?_, ?_, ?_⟩
  · rw [C147_reading_partial wt _ _ rfl]
    exact ⟨e1, trivial⟩
  · exact fun h => hs h.1
  · rw [C147_reading_partial wt _ _ rfl]
    exact ⟨⟨l, List.mem_singleton_self l, e1⟩, trivial⟩
  · rintro ⟨⟨c, hc, h⟩, _⟩
    rw [List.mem_singleton] at hc
    subst hc
    exact hs h
  · have hu : uniq [l, m] = false := by simp [uniq, e2]
    have : errs (.kws [.leaf (.uniqueItems true)]) (.list [l, m])
        = [⟨[.name "uniqueItems".toList], .leaf (.uniqueItems true) (.list [l, m])⟩] := by
      have : leafErrs (.uniqueItems true) (.list [l, m]) = [⟨[], .leaf (.uniqueItems true) (.list [l, m])⟩] := by
        simp [leafErrs, bad, elements, hu]
      simp only [errs, hasRef, kwsErrs, kwErrs, this, Bool.false_eq_true, if_false, List.append_nil]
      rfl
    unfold validate
    rw [errors_typeless, filter_none, this]
    rfl

/-- C147 is violated by the patterns for names: the empty pattern, which is found in every name, does not keep a property
from being an additional one. -/
theorem C147_empty_violated (ref : Str → Val → Prop) (wt : Bool) (s : Sch) (k : Str) (x : Val) (hs : Valid (std ref) s x)
    (hk : Rx.search [] k = true) :
    validate [] wt [.patternProps [([], s)], .additional (.const false)] (.dict [(k, x)]) ≠ .ok (.dict [(k, x)]) ∧
    Valid (std ref) (.kws [.patternProps [([], s)], .additional (.const false)]) (.dict [(k, x)]) := by
  constructor
  · rw [ne_eq, accepts_iff, filter_none, errs]
    simp [hasRef, around, kwsErrs, kwErrs, addErrs, extras, declared, patterns, covered, joinWith]
  · have : (beside (std ref) [.patternProps [([], s)], .additional (.const false)]).known k := Or.inr ⟨[], by simp [patternsOf], hk⟩
    simp [Valid, ValidKws, ValidKw, ValidPats, entries, this, hs]

/-- C147 is violated when patterns cannot be joined: the properties that are not additional are those in which the pattern
made of all patterns is found, whatever each of them finds. -/
theorem C147_joined_violated (ref : Str → Val → Prop) (wt : Bool) (p q : Str) (k : Str) (x : Val)
    (hj : Rx.search (p ++ '|' :: q) k ≠ (Rx.search p k || Rx.search q k)) :
    let l : List Kw := [.patternProps [(p, .const true), (q, .const true)], .additional (.const false)]
    (validate [] wt l (.dict [(k, x)]) = .ok (.dict [(k, x)]) ↔ ¬ Valid (std ref) (.kws l) (.dict [(k, x)])) := by
  intro l
  have h1 : Valid (std ref) (.kws l) (.dict [(k, x)]) ↔ (Rx.search p k || Rx.search q k) = true := by
    simp [l, Valid, ValidKws, ValidKw, ValidPats, entries, beside, patternsOf, std, Declares]
    cases Rx.search p k <;> simp
  have h2 : validate [] wt l (.dict [(k, x)]) = .ok (.dict [(k, x)]) ↔ Rx.search (p ++ '|' :: q) k = true := by
    rw [accepts_iff, filter_none, errs]
    simp [l, hasRef, around, kwsErrs, kwErrs, patErrs, errs, addErrs, extras, declared, patterns, covered, joinWith]
  rw [h1, h2]
  cases h : Rx.search (p ++ '|' :: q) k <;> rw [h] at hj <;> simp_all

/-- C147 is violated by references: a schema with a reference accepts everything. -/
theorem C147_ref_violated (ref : Str → Val → Prop) (u : Str) (v : Val) (hv : ¬ ref u v) (wt : Bool) (a b : List Kw) :
    validate [] wt (a ++ .leaf (.ref u) :: b) v = .ok v ∧ ¬ Valid (std ref) (.kws (a ++ .leaf (.ref u) :: b)) v := by
  constructor
  · rw [accepts_iff, filter_none, errs, if_pos]
    induction a with
    | nil => rfl
    | cons k a ih =>
      cases k with
      | leaf f => cases f <;> simp_all [hasRef]
      | _ => simpa [hasRef] using ih
  · rw [Valid]
    generalize beside (std ref) (a ++ .leaf (.ref u) :: b) = D
    intro h
    induction a with
    | nil => exact hv h.1
    | cons k a ih => exact ih h.2

/-- C147 is violated by booleans, to which the bounds of numbers apply. -/
theorem C147_bool_violated (ref : Str → Val → Prop) : validate [] true [.leaf (.minimum 1)] (.bool false) ≠ .ok (.bool false) ∧
    Valid (std ref) (.kws [.leaf (.minimum 1)]) (.bool false) := by
  refine ⟨nofun, ?_⟩
  simp [Valid, ValidKws, ValidKw, leafValid, std, stdNum]

/-- C147 is violated by texts, to which the keywords of arrays apply. -/
theorem C147_text_violated (ref : Str → Val → Prop) :
    validate [] true [.anyOf [.kws [.leaf (.maxItems 2)]]] (.str "abc".toList) ≠ .ok (.str "abc".toList) ∧
    Valid (std ref) (.kws [.anyOf [.kws [.leaf (.maxItems 2)]]]) (.str "abc".toList) := by
  refine ⟨nofun, ?_⟩
  simp [Valid, ValidKws, ValidKw, ValidAny, leafValid, std, stdArr]

end

/-- Patterns that are plain texts with `|` between them, for the examples. -/
local instance plainText : Rx := ⟨fun p s => (splitOn '|' p).any fun p => Query.isInfix p s⟩

/-- A schema of an object with a number and an array. -/
def sample : List Kw := [
  .leaf (.required ["a".toList, "b".toList]),
  .properties [("a".toList, .kws [.leaf (.minimum 1)]), ("b".toList, .kws [.items (.kws [.leaf (.maximum 9)])])],
  .additional (.const false)]

example : validate [] true sample (.dict [("a".toList, .int 3), ("b".toList, .list [.int 1, .int 2])])
    = .ok (.dict [("a".toList, .int 3), ("b".toList, .list [.int 1, .int 2])]) := by decide +kernel
example : validate [] true sample (.dict [("a".toList, .int 0), ("b".toList, .list [.int 1, .int 20])])
    = .error .invalidValue := by decide +kernel
example : usesKws isRef sample = false ∧ usesKws isType sample = false ∧ usesKws onNum sample = true := by
  decide +kernel

/-- A schema with constants, patterns, definitions, dependencies and names. -/
def sample2 : List Kw := [
  .defs false [("size".toList, .kws [.leaf (.enum [.str "s".toList, .str "m".toList])])],
  .properties [("kind".toList, .kws [.leaf (.enum [.bool true, .str "box".toList])]),
    ("code".toList, .kws [.leaf (.pattern "x-".toList)]),
    ("rows".toList, .kws [.leaf (.uniqueItems true), .contains (.kws [.leaf (.multipleOf 3)])])],
  .leaf (.dependencies [("kind".toList, ["code".toList])]),
  .dependencies [("rows".toList, .kws [.leaf (.required ["kind".toList])])],
  .propertyNames (.kws [.leaf (.maxLength 4)])]

/-- An object with these entries. -/
def boxed (kind : Val) (code : String) (rows : List Int) : Val :=
  .dict [("kind".toList, kind), ("code".toList, .str code.toList), ("rows".toList, .list (rows.map .int))]

example : validate [] true sample2 (boxed (.bool true) "ax-1" [4, 6]) = .ok (boxed (.bool true) "ax-1" [4, 6]) := by
  decide +kernel
example : validate [] true sample2 (boxed (.int 1) "ax-1" [4, 6]) = .error .invalidValue := by decide +kernel
example : validate [] true sample2 (boxed (.bool true) "ax" [4, 6]) = .error .invalidValue := by decide +kernel
example : validate [] true sample2 (boxed (.bool true) "x-" [6, 4, 6]) = .error .invalidValue := by decide +kernel
example : validate [] true sample2 (boxed (.bool true) "x-" [4]) = .error .invalidValue := by decide +kernel
example : validate [] true sample2 (.dict [("kind".toList, .bool true)]) = .error .invalidValue := by decide +kernel
example : validate [] true sample2 (.dict [("rows".toList, .list [.int 0])]) = .error .invalidValue := by decide +kernel
example : validate [] true sample2 (.dict [("large".toList, .int 0)]) = .error .invalidValue := by decide +kernel
example : validate [] true sample2 (.dict [("size".toList, .str "l".toList)]) = .error .invalidValue := by decide +kernel
example : validate [] true [.leaf (.const (.list [.bool true]))] (.list [.int 1]) = .ok (.list [.int 1]) := by decide +kernel
example : Query.WellFormed (.list ([.str "a".toList] ++ .bool true :: [])) := .list (by
  intro x hx
  simp at hx
  rcases hx with rfl | rfl <;> constructor)
/-- A schema with patterns for names and items beyond a list. -/
def sample3 : List Kw := [
  .properties [("a".toList, .kws [.itemsList [.kws [.leaf (.minimum 1)]], .additionalItems (.kws [.leaf (.maximum 5)])])],
  .patternProps [("x-".toList, .kws [.leaf (.maxLength 2)]), ("y".toList, .const true)],
  .additional (.const false)]

example : validate [] true sample3 (.dict [("a".toList, .list [.int 9, .int 2]), ("x-b".toList, .str "ab".toList)])
    = .ok (.dict [("a".toList, .list [.int 9, .int 2]), ("x-b".toList, .str "ab".toList)]) := by decide +kernel
example : errors [] true sample3 (.dict [("x-b".toList, .str "abc".toList)])
    = .ok [("patternProperties/x-/maxLength".toList, .leaf (.maxLength 2) (.str "abc".toList))] := by decide +kernel
example : validate [] true sample3 (.dict [("x".toList, .int 1)]) = .error .invalidValue := by decide +kernel
/-- Patterns without `|` can be joined. -/
example (ps : List Str) (hne : ps ≠ []) (hp : ∀ p ∈ ps, '|' ∉ p) (k : Str) :
    Rx.search (joinWith ['|'] ps) k = true ↔ ∃ p ∈ ps, Rx.search p k = true := by
  have h1 : ∀ p ∈ ps, splitOn '|' p = [p] := fun p h => splitOn_of_notMem (hp p h)
  simp only [Rx.search, splitOn_joinWith _ hne hp, List.any_eq_true]
  refine exists_congr fun p => and_congr_right fun h => ?_
  rw [h1 p h]
  simp
example : errors [] true sample3 (.dict [("a".toList, .list [.int 9, .int 8])])
    = .ok [("properties/a/additionalItems/maximum".toList, .leaf (.maximum 5) (.int 8))] := by decide +kernel
/-- The hypotheses of C147 hold for a schema with constants and definitions. -/
example : let l : List Kw := [.defs true [("d".toList, .kws [.leaf (.minimum 3)])], .leaf (.enum [.list [.int 1]]),
      .leaf (.uniqueItems true)]
    let v := Val.list [.int 1]
    (∀ c, usesKws (hasConst c) l = true → IsScalar c ∨ Plain c ∧ Plain v) ∧
    (∀ p, usesKws (defines p) l = true → ∀ d x, Part (usesKws onNames l) v (.dict d) → (p, x) ∉ d) := by
  intro l v
  have hp : ∀ n w, Part n v w → w = v ∨ w = .int 1 := by
    intro n w hw
    induction hw with
    | self => exact Or.inl rfl
    | item _ hx ih =>
      rcases ih with h | h <;> simp only [v, reduceCtorEq, Val.list.injEq] at h
      subst h
      exact Or.inr (by simpa using hx)
    | entry _ _ ih => rcases ih with h | h <;> simp [v] at h
    | name _ _ _ ih => rcases ih with h | h <;> simp [v] at h
  have hv : Plain v := by
    refine ⟨.list (by intro x hx; simp at hx; subst hx; exact .int), fun w hw => ?_⟩
    rcases hp _ w hw with rfl | rfl <;> exact fun h => h
  refine ⟨fun c hc => Or.inr ⟨?_, hv⟩, fun p _ d x hd => ?_⟩
  · have : c = v := by
      simp [l, usesKws, usesKw, usesProps, uses, hasConst] at hc
      exact hc
    rw [this]; exact hv
  · rcases hp _ _ hd with h | h <;> simp [v] at h

/-! C148 -/

section
variable [Rx]

theorem untypedKws_filter (ex : List Str) : (l : List Kw) →
    (untypedKws l).filter (fun k => !ex.contains k.name) = untypedKws (l.filter fun k => !ex.contains k.name)
  | [] => by rw [untypedKws]; rfl
  | k :: l => by
    have ih := untypedKws_filter ex l
    rw [untypedKws, List.filter_cons]
    by_cases h : isType k = true <;> by_cases h' : (!ex.contains k.name) = true
    · rw [if_pos h, if_pos h', untypedKws, if_pos h, ih]
    · rw [if_pos h, if_neg h', ih]
    · rw [if_neg h, if_pos h', untypedKws, if_neg h, List.filter_cons, untypedKw_name, if_pos h', ih]
    · rw [if_neg h, if_neg h', List.filter_cons, untypedKw_name, if_neg h', ih]

/-- C148 is violated: the types in a schema, at any depth, have no influence on validation, and neither has the option
that asks for them. -/
theorem C148_types_violated (ex : List Str) (wt wt' : Bool) (l : List Kw) (v : Val) :
    validate ex wt l v = validate ex wt' (untypedKws l) v := by
  unfold validate
  rw [errors_typeless, errors_typeless, untypedKws_filter]
  have := errs_untyped (.kws (l.filter fun k => !ex.contains k.name)) v
  rw [untyped] at this
  rw [this]

/-- So values of any type are accepted by a schema that has a type only; alternatives that differ by type only are all
accepted, so that exactly one of them never is. -/
theorem C148_alternatives_violated (t u : Str) (wt : Bool) (v : Val) :
    validate [] wt [.leaf (.type t)] v = .ok v ∧
    validate [] wt [.anyOf [.kws [.leaf (.type t)], .kws [.leaf (.type u)]]] v = .ok v ∧
    validate [] wt [.oneOf [.kws [.leaf (.type t)], .kws [.leaf (.type u)]]] v = .error .invalidValue ∧
    validate [] wt [.not (.kws [.leaf (.type t)])] v = .error .invalidValue := by
  have h0 : ∀ l, validate [] wt l v = validate [] true (untypedKws l) v := fun l => C148_types_violated [] wt true l v
  simp only [h0]
  simp only [untypedKws, isType, untypedKw, untypedList, untyped, if_true, Bool.false_eq_true, if_false]
  refine ⟨rfl, rfl, rfl, rfl⟩

end

example : validate [] true [.leaf (.type "integer".toList)] (.str "x".toList) = .ok (.str "x".toList) := by decide +kernel
example : ¬ Valid (std fun _ _ => True) (.kws [.leaf (.type "integer".toList)]) (.str "x".toList) := by
  simp [Valid, ValidKws, ValidKw, leafValid, std, HasType]
example : Valid (std fun _ _ => True)
    (.kws [.oneOf [.kws [.leaf (.type "integer".toList)], .kws [.leaf (.type "string".toList)]]]) (.int 1) := by
  simp [Valid, ValidKws, ValidKw, ValidOne, ValidAny, leafValid, std, HasType]

/-! C149 -/

section
variable [Rx]

/-- C149: a value that is refused raises InvalidValue, for schemas that do not number schemas inside. -/
theorem C149_refused_partial (ex : List Str) (wt : Bool) (l : List Kw) (v : Val) (h : usesKws numbered l = false)
    (hv : validate ex wt l v ≠ .ok v) : validate ex wt l v = .error .invalidValue := by
  rcases validate_cases ex wt l v with h' | h' | h'
  · exact absurd h' hv
  · exfalso
    unfold validate at h'
    rw [errors_typeless] at h'
    rcases report_cases (errs (.kws (l.filter fun k => !ex.contains k.name)) v) with ⟨⟨e, he, hj⟩, _⟩ | ⟨r, hr, _⟩
    · obtain ⟨i, hi⟩ := (joined_none _).1 hj
      have hf : usesKws numbered (l.filter fun k => !ex.contains k.name) = false := by
        rename_i hrep
        clear hv h' he hrep
        induction l with
        | nil => rfl
        | cons k l ih =>
          simp only [usesKws, Bool.or_eq_false_iff] at h
          rw [List.filter_cons]
          split
          · simp only [usesKws, Bool.or_eq_false_iff]; exact ⟨h.1, ih h.2⟩
          · exact ih h.2
      exact errs_named (.kws _) v hf e he i hi
    · rw [hr] at h'
      cases r <;> simp at h'
  · exact h'

/-- C149 is violated by `allOf` and by `items` with a list: a TypeError comes instead. -/
theorem C149_index_violated (s : Sch) (v : Val) (wt : Bool) (hs : uses isRef s = false)
    (hv : ¬ Valid lax s v) :
    validate [] wt [.allOf [s]] v = .error .typeError ∧
    validate [] wt [.itemsList [s]] (.list [v]) = .error .typeError := by
  have he : errs s v ≠ [] := fun h => hv ((errs_nil s v hs).1 h)
  have key : ∀ (p : Str) (es : List Err), es ≠ [] →
      report ((es.map (Err.under (.idx 0))).map (Err.under (.name p))) = .error .typeError := by
    intro p es hne
    rcases report_cases ((es.map (Err.under (.idx 0))).map (Err.under (.name p))) with ⟨_, h⟩ | ⟨r, _, _, h, _⟩
    · exact h
    · obtain ⟨e, he⟩ := List.exists_mem_of_ne_nil _ hne
      refine absurd ((joined_none _).2 ⟨0, ?_⟩) (h ((e.under (.idx 0)).under (.name p))
        (List.mem_map.2 ⟨_, List.mem_map.2 ⟨e, he, rfl⟩, rfl⟩))
      simp [Err.under]
  constructor
  · have : errs (.kws [.allOf [s]]) v = ((errs s v).map (Err.under (.idx 0))).map (Err.under (.name (Kw.allOf [s]).name)) := by
      simp only [errs, hasRef, kwsErrs, kwErrs, allErrs, List.append_nil, Bool.false_eq_true, if_false]
    unfold validate
    rw [errors_typeless, filter_none, this, key _ _ he]
  · have : errs (.kws [.itemsList [s]]) (.list [v])
        = ((errs s v).map (Err.under (.idx 0))).map (Err.under (.name (Kw.itemsList [s]).name)) := by
      simp only [errs, hasRef, kwsErrs, kwErrs, elements, itemsErrs, List.append_nil, Bool.false_eq_true, if_false]
    unfold validate
    rw [errors_typeless, filter_none, this, key _ _ he]

end

example : validate [] true [.allOf [.kws [.leaf (.minimum 3)]]] (.int 1) = .error .typeError := by decide +kernel
example : validate [] true [.allOf [.kws [.leaf (.minimum 3)]]] (.int 4) = .ok (.int 4) := by decide +kernel
example : usesKws numbered sample = false := by decide +kernel

/-! C150 -/

section
variable [Rx]

/-- C150: the report has an entry for every path that leads to an error, only errors are reported, and all are when
their paths differ. -/
theorem C150_report_partial (wt : Bool) (l : List Kw) (v : Val) (r : List (Str × Msg))
    (h : errors [] wt l v = .ok r) :
    (∀ p, (∃ m, AList.get? r p = some m) ↔ ∃ e ∈ errs (.kws l) v, joined e.path = some p) ∧
    (∀ p m, AList.get? r p = some m → ∃ e ∈ errs (.kws l) v, joined e.path = some p ∧ e.msg = m) ∧
    (((errs (.kws l) v).map (joined ·.path)).Nodup →
      ∀ e ∈ errs (.kws l) v, ∃ p, joined e.path = some p ∧ AList.get? r p = some e.msg) := by
  rw [errors_typeless, filter_none] at h
  rcases report_cases (errs (.kws l) v) with ⟨_, h'⟩ | ⟨r', h', _, h2, h3, h4, h5⟩
  · rw [h'] at h; simp at h
  · rw [h'] at h
    simp only [Except.ok.injEq] at h
    subst h
    refine ⟨h3, h4, fun hn e he => ?_⟩
    cases hj : joined e.path with
    | none => exact absurd hj (h2 e he)
    | some p => exact ⟨p, rfl, h5 hn e he p hj⟩

/-- C150 is violated: of two missing properties the last one only is reported. -/
theorem C150_missing_violated (p q : Str) (d : List (Str × Val)) (wt : Bool) (hp : AList.get? d p = none)
    (hq : AList.get? d q = none) :
    errs (.kws [.leaf (.required [p, q])]) (.dict d)
      = [⟨[.name "required".toList], .missing p (.dict d)⟩, ⟨[.name "required".toList], .missing q (.dict d)⟩] ∧
    errors [] wt [.leaf (.required [p, q])] (.dict d) = .ok [("required".toList, .missing q (.dict d))] := by
  have he : errs (.kws [.leaf (.required [p, q])]) (.dict d)
      = [⟨[.name "required".toList], .missing p (.dict d)⟩, ⟨[.name "required".toList], .missing q (.dict d)⟩] := by
    have hf : ([p, q].filter fun x => !AList.contains d x) = [p, q] := by
      rw [List.filter_eq_self]
      intro x hx
      simp only [List.mem_cons, List.not_mem_nil, or_false] at hx
      rcases hx with rfl | rfl <;> simp [AList.contains, *]
    simp only [errs, hasRef, kwsErrs, kwErrs, leafErrs, hf, Bool.false_eq_true, if_false, List.append_nil]
    rfl
  refine ⟨he, ?_⟩
  rw [errors_typeless, filter_none, he]
  rfl

/-- C150 is violated: of two missing names on which another depends the last one only is reported. -/
theorem C150_dependencies_violated (a p q : Str) (d : List (Str × Val)) (x : Val) (wt : Bool)
    (ha : AList.get? d a = some x) (hp : AList.get? d p = none) (hq : AList.get? d q = none) :
    errs (.kws [.leaf (.dependencies [(a, [p, q])])]) (.dict d)
      = [⟨[.name "dependencies".toList], .dependency a p (.dict d)⟩,
         ⟨[.name "dependencies".toList], .dependency a q (.dict d)⟩] ∧
    errors [] wt [.leaf (.dependencies [(a, [p, q])])] (.dict d) = .ok [("dependencies".toList, .dependency a q (.dict d))] := by
  have hl : leafErrs (.dependencies [(a, [p, q])]) (.dict d)
      = [⟨[], .dependency a p (.dict d)⟩, ⟨[], .dependency a q (.dict d)⟩] := by
    simp [leafErrs, AList.contains, ha, hp, hq]
  have he : errs (.kws [.leaf (.dependencies [(a, [p, q])])]) (.dict d)
      = [⟨[.name "dependencies".toList], .dependency a p (.dict d)⟩,
         ⟨[.name "dependencies".toList], .dependency a q (.dict d)⟩] := by
    simp only [errs, hasRef, kwsErrs, kwErrs, hl, Bool.false_eq_true, if_false, List.append_nil]
    rfl
  refine ⟨he, ?_⟩
  rw [errors_typeless, filter_none, he]
  rfl

/-- C150 is violated: of two items that are wrong the last one only is reported. -/
theorem C150_items_violated (i a b : Int) (wt : Bool) (ha : a < i) (hb : b < i) :
    errors [] wt [.items (.kws [.leaf (.minimum i)])] (.list [.int a, .int b])
      = .ok [("items/minimum".toList, .leaf (.minimum i) (.int b))] := by
  rw [errors_typeless, filter_none]
  have : errs (.kws [.items (.kws [.leaf (.minimum i)])]) (.list [.int a, .int b])
      = [⟨[.name "items".toList, .name "minimum".toList], .leaf (.minimum i) (.int a)⟩,
         ⟨[.name "items".toList, .name "minimum".toList], .leaf (.minimum i) (.int b)⟩] := by
    simp only [errs, hasRef, kwsErrs, kwErrs, leafErrs, elements, bad, numOf, Option.any, ha, hb, decide_true,
      Bool.false_eq_true, if_false, if_true, List.append_nil, List.flatMap_cons, List.flatMap_nil]
    rfl
  rw [this]
  rfl

end

example : errors [] true sample (.dict [("a".toList, .int 0), ("c".toList, .none)]) = .ok [
    ("required".toList, .missing "b".toList (.dict [("a".toList, .int 0), ("c".toList, .none)])),
    ("properties/a/minimum".toList, .leaf (.minimum 1) (.int 0)),
    ("additionalProperties".toList, .additional (.dict [("a".toList, .int 0), ("c".toList, .none)]))] := by
  decide +kernel

/-! C151 -/

section
variable [Rx]

theorem validKws_iff (R : Reading) (D : Beside) (v : Val) : (l : List Kw) →
    (ValidKws R D l v ↔ ∀ k ∈ l, ValidKw R D k v)
  | [] => by simp [ValidKws]
  | k :: l => by rw [ValidKws, validKws_iff R D v l]; simp

/-- C151: with keywords excluded, exactly the other keywords decide, when neither `properties` nor `patternProperties` nor
`items` is among the excluded. -/
theorem C151_excludes_partial (ex : List Str) (wt : Bool) (l : List Kw) (v : Val) (hr : usesKws isRef l = false)
    (hp : "properties".toList ∉ ex) (hp' : "patternProperties".toList ∉ ex) (hp'' : "items".toList ∉ ex) :
    validate ex wt l v = .ok v ↔ ∀ k ∈ l, k.name ∉ ex →
      ValidKw lax (beside lax l) k v := by
  have hf : usesKws isRef (l.filter fun k => !ex.contains k.name) = false := by
    clear hp hp' hp''
    induction l with
    | nil => rfl
    | cons k l ih =>
      simp only [usesKws, Bool.or_eq_false_iff] at hr
      rw [List.filter_cons]
      split
      · simp only [usesKws, Bool.or_eq_false_iff]; exact ⟨hr.1, ih hr.2⟩
      · exact ih hr.2
  rw [accepts_iff, errs, hasRef_false _ hf, around_filter ex hp hp' hp'']
  simp only [Bool.false_eq_true, if_false]
  rw [kwsErrs_nil (told l) _ v hf, validKws_iff]
  simp only [List.mem_filter, and_imp]
  refine forall_congr' fun k => imp_congr_right fun _ => ?_
  rw [Bool.not_eq_true', List.contains_eq_mem, decide_eq_false_iff_not]

/-- C151 is violated: excluding `properties` makes the declared properties additional ones. -/
theorem C151_properties_violated : ∃ (l : List Kw) (v : Val), validate [] true l v = .ok v ∧
    validate ["properties".toList] true l v = .error .invalidValue :=
  ⟨sample, .dict [("a".toList, .int 3), ("b".toList, .list [])], rfl, rfl⟩

/-- C151 is violated: excluding `items` makes `additionalItems` say nothing. -/
theorem C151_items_violated (wt : Bool) (l : List Val) (ss : List Sch) (s : Sch) :
    validate ["items".toList] wt [.itemsList ss, .additionalItems s] (.list l) = .ok (.list l) := by
  rw [accepts_iff]
  have : ([Kw.itemsList ss, .additionalItems s].filter fun k => !["items".toList].contains k.name) = [.additionalItems s] := rfl
  rw [this, errs]
  simp [hasRef, around, kwsErrs, kwErrs, itemCount]

/-- C151: a schema of one keyword that is excluded, under the name it has in JSON, says nothing. -/
theorem C151_alone_partial (wt : Bool) (v : Val) (s t e : Sch) (ss : List Sch) (ps pp ds : List (Str × Sch)) :
    validate ["properties".toList] wt [.properties ps] v = .ok v
    ∧ validate ["additionalProperties".toList] wt [.additional s] v = .ok v
    ∧ validate ["patternProperties".toList] wt [.patternProps pp] v = .ok v
    ∧ validate ["additionalItems".toList] wt [.additionalItems s] v = .ok v
    ∧ validate ["items".toList] wt [.items s] v = .ok v
    ∧ validate ["items".toList] wt [.itemsList ss] v = .ok v
    ∧ validate ["allOf".toList] wt [.allOf ss] v = .ok v
    ∧ validate ["anyOf".toList] wt [.anyOf ss] v = .ok v
    ∧ validate ["oneOf".toList] wt [.oneOf ss] v = .ok v
    ∧ validate ["not".toList] wt [.not s] v = .ok v
    ∧ validate ["if".toList] wt [.ifThenElse s t e] v = .ok v
    ∧ validate ["contains".toList] wt [.contains s] v = .ok v
    ∧ validate ["propertyNames".toList] wt [.propertyNames s] v = .ok v
    ∧ validate ["dependencies".toList] wt [.dependencies ds] v = .ok v
    ∧ validate ["definitions".toList] wt [.defs true ps] v = .ok v
    ∧ validate ["$defs".toList] wt [.defs false ps] v = .ok v := by
  have h : ∀ (n : Str) (k : Kw), k.name = n → validate [n] wt [k] v = .ok v := by
    rintro n k rfl
    rw [accepts_iff]
    simp [errs, hasRef, kwsErrs]
  exact ⟨h _ _ rfl, h _ _ rfl, h _ _ rfl, h _ _ rfl, h _ _ rfl, h _ _ rfl, h _ _ rfl, h _ _ rfl, h _ _ rfl, h _ _ rfl, h _ _ rfl, h _ _ rfl, h _ _ rfl, h _ _ rfl, h _ _ rfl, h _ _ rfl⟩

/-- C151: likewise of the keywords without schemas inside. -/
theorem C151_leaf_partial (wt b : Bool) (v x : Val) (i : Int) (n : Nat) (p : Str) (ps : List Str) (vs : List Val)
    (ds : List (Str × List Str)) :
    validate ["minimum".toList] wt [.leaf (.minimum i)] v = .ok v
    ∧ validate ["maximum".toList] wt [.leaf (.maximum i)] v = .ok v
    ∧ validate ["exclusiveMinimum".toList] wt [.leaf (.exclusiveMinimum i)] v = .ok v
    ∧ validate ["exclusiveMaximum".toList] wt [.leaf (.exclusiveMaximum i)] v = .ok v
    ∧ validate ["minLength".toList] wt [.leaf (.minLength n)] v = .ok v
    ∧ validate ["maxLength".toList] wt [.leaf (.maxLength n)] v = .ok v
    ∧ validate ["minItems".toList] wt [.leaf (.minItems n)] v = .ok v
    ∧ validate ["maxItems".toList] wt [.leaf (.maxItems n)] v = .ok v
    ∧ validate ["minProperties".toList] wt [.leaf (.minProperties n)] v = .ok v
    ∧ validate ["maxProperties".toList] wt [.leaf (.maxProperties n)] v = .ok v
    ∧ validate ["required".toList] wt [.leaf (.required ps)] v = .ok v
    ∧ validate ["enum".toList] wt [.leaf (.enum vs)] v = .ok v
    ∧ validate ["const".toList] wt [.leaf (.const x)] v = .ok v
    ∧ validate ["uniqueItems".toList] wt [.leaf (.uniqueItems b)] v = .ok v
    ∧ validate ["multipleOf".toList] wt [.leaf (.multipleOf n)] v = .ok v
    ∧ validate ["pattern".toList] wt [.leaf (.pattern p)] v = .ok v
    ∧ validate ["dependencies".toList] wt [.leaf (.dependencies ds)] v = .ok v
    ∧ validate ["type".toList] wt [.leaf (.type p)] v = .ok v
    ∧ validate ["$ref".toList] wt [.leaf (.ref p)] v = .ok v := by
  have h : ∀ (n : Str) (k : Kw), k.name = n → validate [n] wt [k] v = .ok v := by
    rintro n k rfl
    rw [accepts_iff]
    simp [errs, hasRef, kwsErrs]
  exact ⟨h _ _ rfl, h _ _ rfl, h _ _ rfl, h _ _ rfl, h _ _ rfl, h _ _ rfl, h _ _ rfl, h _ _ rfl, h _ _ rfl, h _ _ rfl, h _ _ rfl, h _ _ rfl, h _ _ rfl, h _ _ rfl, h _ _ rfl, h _ _ rfl, h _ _ rfl, h _ _ rfl, h _ _ rfl⟩

end

example : validate ["dependencies".toList] true [.dependencies [("a".toList, .const false)]] (.dict [("a".toList, .int 1)])
      = .ok (.dict [("a".toList, .int 1)])
    ∧ validate [] true [.dependencies [("a".toList, .const false)]] (.dict [("a".toList, .int 1)]) = .error .invalidValue
    ∧ validate ["minimum".toList] true [.leaf (.minimum 3)] (.int 1) = .ok (.int 1)
    ∧ validate [] true [.leaf (.minimum 3)] (.int 1) = .error .invalidValue := by decide +kernel

example : validate ["required".toList, "additionalProperties".toList] true sample (.dict [("c".toList, .none)])
    = .ok (.dict [("c".toList, .none)]) := by decide +kernel
example : validate ["required".toList] true sample (.dict [("c".toList, .none)]) = .error .invalidValue := by
  decide +kernel

/-! C152 -/

section
variable [Rx]

/-- C152: what evaluation gives is valid, or None for None without a default; evaluating it again changes nothing when
conversion leaves converted values. -/
theorem C152_evaluated_partial (conv : Val → Res Val) (dflt : Val) (l : List Kw) (v w : Val)
    (h : evaluate conv dflt l v = .ok w) :
    (v = .none ∧ dflt = .none ∧ w = .none ∨ validate [] true l w = .ok w) ∧
    ((∀ a b, conv a = .ok b → conv b = .ok b) → (w = .none → v = .none ∧ dflt = .none) →
      evaluate conv dflt l w = .ok w) := by
  unfold evaluate at h
  split at h
  · rename_i h0
    simp only [Except.ok.injEq] at h
    subst h
    exact ⟨Or.inl ⟨h0.1, h0.2, rfl⟩, fun _ _ => by unfold evaluate; rw [if_pos ⟨rfl, h0.2⟩]⟩
  · rename_i h0
    cases hc : conv (if v = .none then dflt else v) with
    | error e => rw [hc] at h; simp at h
    | ok x =>
      rw [hc] at h
      dsimp only at h
      have hx : x = w := by
        rcases validate_cases [] false l x with h' | h' | h' <;> rw [h'] at h <;> simp at h
        exact h
      subst hx
      refine ⟨Or.inr ?_, fun hi hw => ?_⟩
      · rw [accepts_iff] at h ⊢
        exact h
      · have hne : x ≠ .none := fun h' => h0 (hw h')
        unfold evaluate
        rw [if_neg (fun h' => hne h'.1), if_neg hne, hi _ _ hc]
        exact h

/-- C152 is violated: None is given back without being validated. -/
theorem C152_none_violated (conv : Val → Res Val) : ∃ l : List Kw, evaluate conv .none l .none = .ok .none ∧
    validate [] true l .none = .error .invalidValue ∧ ¬ Valid (std fun _ _ => True) (.kws l) .none := by
  refine ⟨[.not (.kws [])], by simp [evaluate], rfl, ?_⟩
  simp [Valid, ValidKws, ValidKw]

end

/-- Texts of digits to numbers. -/
def toInt : Val → Res Val
  | .str ['7'] => .ok (.int 7)
  | .int i => .ok (.int i)
  | _ => .error .conversionError

example : evaluate toInt (.str "7".toList) [.leaf (.minimum 3)] .none = .ok (.int 7) := by decide +kernel
example : evaluate toInt (.str "7".toList) [.leaf (.minimum 8)] .none = .error .invalidValue := by decide +kernel
example : evaluate toInt .none [.leaf (.minimum 8)] .none = .ok .none := by decide +kernel

end Verif.Validate
