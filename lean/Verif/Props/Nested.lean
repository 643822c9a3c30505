import Verif.Lemmas.Nested
import Verif.Num
/-
C191-C199: types of nested collections.
-/
namespace Verif.Nested
open Spec

/-! For the examples: whole numbers, with a minimum of 0. -/

/-- `Integer` for texts and numbers. -/
def intConv : Val → Res Val
  | .int i => .ok (.int i)
  | .str s => match parseInt s with
    | some i => .ok (.int i)
    | none => .error .conversionError
  | _ => .error .conversionError

/-- A leaf for whole numbers with a default. -/
def int (dflt : Val := .none) : Leaf where
  conv := intConv
  valid ex v := match v with
    | .int i => decide (0 ≤ i) || ex.contains "minimum".toList
    | _ => true
  dflt

theorem int_idem (dflt : Val) : Idem (int dflt) := by
  intro v r h
  simp only [int] at h ⊢
  cases v with
  | int i => cases h; rfl
  | str s =>
    simp only [intConv] at h
    split at h
    · cases h; rfl
    · exact absurd h (by simp)
  | _ => simp [intConv] at h

/-- An array of any size. -/
def anyArr : Arr := ⟨fun _ _ => true, [], 0⟩

/-- Arrays of whole numbers. -/
def ints : Ty := .arr anyArr none fun _ => .leaf (int)

/-- An object with properties `a` (required) and `b`, whole numbers. -/
def ab : Obj where
  known k := k = "a".toList || k = "b".toList
  props := ["a".toList, "b".toList]
  required := ["a".toList]
  own _ _ := true
  dflt := []
  defaults := []

/-- Arrays of these objects. -/
def abs : Ty := .arr anyArr none fun _ => .obj ab fun _ => .leaf (int)

/-! ### C191: every value in a nested collection is converted by its own type -/

/-- For lists and mappings at the places of arrays and objects. -/
theorem C191_converted_partial {ord : List Str → List Str} (ho : SetOrder ord) (t : Ty) :
    ∀ v r, Shaped t v → convert ord t v = .ok r → Converted t v r := by
  induction t with
  | leaf l => intro v r _ h; exact h
  | arr a n item ih =>
    rintro v r ⟨l, rfl, hs⟩ h
    simp only [convert, toList] at h
    split at h
    · exact absurd h (by simp)
    · next l' hl =>
      cases h
      obtain ⟨h1, h2⟩ := each_ok _ l 0 l' hl
      refine ⟨l, l', rfl, rfl, h1, fun i x y hx hy => ?_⟩
      obtain ⟨y', hy', hf⟩ := h2 i x hx
      rw [hy] at hy'
      cases hy'
      rw [Nat.zero_add] at hf
      refine ⟨fun he => ?_, fun hne ht => ?_⟩
      · subst he; simp at hf; exact hf.symm
      · rw [if_neg (by rw [beyond_iff]; simp [hne, ht])] at hf
        exact ih i x y ((hs i x hx).resolve_left hne) hf
  | obj o field ih =>
    rintro v r ⟨d, rfl, _, hk, hs⟩ h
    simp only [convert, toDict] at h
    split at h
    · exact absurd h (by simp)
    · split at h
      · exact absurd h (by simp)
      · next d' hd =>
        cases h
        obtain ⟨h1, h2⟩ := eachKey_ok _ d d' hd
        refine ⟨d, _, rfl, rfl, fun k x hx => ?_, fun k y hy => ?_⟩
        · obtain ⟨y, hy, hf⟩ := h2 k x hx
          refine ⟨y, ?_, fun he => ?_, fun hne => ?_⟩
          · rw [get?_tabulate (fun k => (AList.get? d' k).getD .none), if_pos, hy]; · rfl
            rw [mem_order ho, h1]
            exact .inr (AList.get?_isSome.mp (by rw [hx]; rfl))
          · subst he; simp at hf; exact hf.symm
          · rw [if_neg hne] at hf
            exact ih k x y ((hs k x hx).resolve_left hne) hf
        · rw [get?_tabulate (fun k => (AList.get? d' k).getD .none)] at hy
          split at hy
          · next hm =>
            rw [mem_order ho, h1] at hm
            cases hg : AList.get? d k with
            | some x => exact .inl ⟨x, rfl⟩
            | none =>
              have hnk := AList.get?_eq_none.mp hg
              have hnk' : AList.get? d' k = none := AList.get?_eq_none.mpr (by rw [h1]; exact hnk)
              rw [hnk'] at hy
              cases hy
              exact .inr ⟨hm.resolve_right hnk, rfl⟩
          · exact absurd hy (by simp)

example : convert sort abs (.list [.dict [("b".toList, .str "7".toList), ("a".toList, .int 1)], .none])
    = .ok (.list [.dict [("a".toList, .int 1), ("b".toList, .int 7)], .none]) := by decide +kernel

/-- It succeeds if every value can be converted. -/
theorem C191_total_partial (ord : List Str → List Str) (t : Ty) :
    ∀ v r, Shaped t v → Converted t v r → ∃ r', convert ord t v = .ok r' := by
  induction t with
  | leaf l => intro v r _ h; exact ⟨r, h⟩
  | arr a n item ih =>
    rintro v r ⟨l, rfl, hs⟩ ⟨l₀, l', e, rfl, hl, h⟩
    cases e
    obtain ⟨r', hr'⟩ := each_total (fun i x => if x = .none ∨ beyond n i = true then .ok x else convert ord (item i) x) l 0
      (by
        intro j x hx
        rw [Nat.zero_add]
        by_cases hc : x = .none ∨ beyond n j = true
        · exact ⟨x, by rw [if_pos hc]⟩
        · rw [if_neg hc]
          rw [beyond_iff] at hc
          have hj : j < l'.length := by rw [hl]; exact (List.getElem?_eq_some_iff.mp hx).1
          have hc' : x ≠ .none ∧ Typed n j := ⟨fun e => hc (.inl e), Classical.byContradiction fun e => hc (.inr e)⟩
          exact ih j x _ ((hs j x hx).resolve_left hc'.1)
            ((h j x _ hx (List.getElem?_eq_getElem hj)).2 hc'.1 hc'.2))
    exact ⟨.list r', by simp only [convert, toList, hr']⟩
  | obj o field ih =>
    rintro v r ⟨d, rfl, hn, hk, hs⟩ ⟨d₀, d', e, rfl, h, -⟩
    cases e
    obtain ⟨r', hr'⟩ := eachKey_total (fun k x => if x = .none then .ok x else convert ord (field k) x) d
      (by
        intro k x hx
        by_cases hc : x = .none
        · exact ⟨x, by rw [if_pos hc]⟩
        · rw [if_neg hc]
          have hg := AList.get?_of_mem (d := d) hn hx
          obtain ⟨y, -, -, hy⟩ := h k x hg
          exact ih k x y ((hs k x hg).resolve_left hc) (hy hc))
    have : (d.any fun p => !o.known p.1) = false := by
      rw [List.any_eq_false]
      intro p hp
      simp [hk p.1 (List.mem_map_of_mem hp)]
    exact ⟨_, by simp only [convert, toDict, this, hr']; rfl⟩

example : Shaped abs (.list [.dict [("b".toList, .str "7".toList)]]) := by
  refine ⟨_, rfl, fun i x hx => .inr ?_⟩
  rcases i with _ | i
  · cases hx
    exact ⟨_, rfl, by decide +kernel, by decide +kernel, fun _ _ _ => .inr trivial⟩
  · simp at hx

/-- A text given for an array is cut into its characters. -/
theorem C191_text_violated : convert sort ints (.str "12".toList) = .ok (.list [.int 1, .int 2]) := by decide +kernel

/-- Of what is no mapping, an empty list and an empty text are converted like an empty mapping; nothing else is. -/
theorem C191_empty_violated (ord : List Str → List Str) (o : Obj) (field : Str → Ty) (v : Val) (hv : ∀ d, v ≠ .dict d) :
    convert ord (.obj o field) v =
      if v = .list [] ∨ v = .str [] then convert ord (.obj o field) (.dict []) else .error .typeError := by
  cases v with
  | dict d => exact absurd rfl (hv d)
  | list l => cases l with
    | nil => simp [convert, toDict]
    | cons x l => simp [convert, toDict]
  | str l => cases l with
    | nil => simp [convert, toDict]
    | cons x l => simp [convert, toDict]
  | _ => simp [convert, toDict]

example : convert sort (.obj ab fun _ => .leaf (int)) (.str []) = .ok (.dict [("a".toList, .none)]) ∧
    convert sort (.obj ab fun _ => .leaf (int)) (.int 0) = .error .typeError := by decide +kernel

/-! ### C192: every value in an evaluated collection is valid -/

/-- For all types and values, whether converted or not. -/
theorem C192_valid {ord : List Str → List Str} (ho : SetOrder ord) (t : Ty) :
    ∀ c v r, evaluate ord t c v = .ok r → Valid t r := by
  induction t with
  | leaf l =>
    intro c v r h
    simp only [evaluate] at h
    split at h
    · cases h; exact .inl rfl
    · split at h
      · exact absurd h (by simp)
      · next w hw =>
        simp only [checked, validate] at h
        by_cases hv : l.valid [] w = true
        · rw [if_pos hv] at h; cases h; exact .inr hv
        · rw [if_neg hv] at h; exact absurd h (by simp)
  | arr a n item ih =>
    intro c v r h
    simp only [evaluate] at h
    split at h
    · exact absurd h (by simp)
    · next l hl =>
      split at h
      · exact absurd h (by simp)
      · next l' hl' =>
        obtain ⟨h1, h2⟩ := each_ok _ l 0 l' hl'
        have hr : r = .list l' ∧ a.own arrayKeywords l' = true := by
          simp only [checked, validate, toList, List.nil_append] at h
          by_cases ho : a.own arrayKeywords l' = true
          · refine ⟨?_, ho⟩
            simp only [ho, Bool.not_true, Bool.false_eq_true, if_false] at h
            split at h
            · exact absurd h (by simp)
            · cases h; rfl
          · simp [ho] at h
        obtain ⟨rfl, hown⟩ := hr
        refine ⟨l', rfl, hown, fun i y hy => ?_⟩
        have hi : i < l.length := by rw [← h1]; exact (List.getElem?_eq_some_iff.mp hy).1
        obtain ⟨y', hy', hf⟩ := h2 i l[i] (List.getElem?_eq_getElem hi)
        rw [hy] at hy'
        cases hy'
        rw [Nat.zero_add] at hf
        split at hf
        · exact absurd hf (by simp)
        · exact ih i _ _ _ hf
    · exact absurd h (by simp)
  | obj o field ih =>
    intro c v r h
    simp only [evaluate] at h
    split at h
    · exact absurd h (by simp)
    · next d hd =>
      split at h
      · exact absurd h (by simp)
      · next d' hd' =>
        obtain ⟨h1, h2⟩ := assign_ok _ _ d d' hd'
        simp only [checked, validate, toDict, List.nil_append] at h
        by_cases hk : (d'.any fun p => !o.known p.1) = true
        · simp [hk] at h
        · by_cases hq : (o.required.any fun k => !AList.contains d' k) = true
          · simp [hk, hq] at h
          · by_cases hw : o.own objectKeywords d' = true
            · simp only [hk, hq, hw, Bool.not_true, Bool.false_eq_true, if_false] at h
              split at h
              · exact absurd h (by simp)
              · cases h
                refine ⟨d', rfl, hw, fun k hkr => ?_, fun k y hy => ?_⟩
                · have : AList.contains d' k = true := by
                    rw [Bool.not_eq_true, List.any_eq_false] at hq
                    simpa using hq k hkr
                  exact Option.isSome_iff_exists.mp this
                · have hkn : o.known k = true := by
                    rw [Bool.not_eq_true, List.any_eq_false] at hk
                    simpa using hk _ (AList.mem_of_get? hy)
                  refine ⟨hkn, ?_⟩
                  rcases h2 k y hy with ⟨x, hx⟩ | ⟨hn, hx⟩
                  · simp only [hkn, if_true] at hx
                    exact ih k _ _ _ hx
                  · exact absurd ((mem_order ho _ _ _).mpr (.inr (AList.get?_isSome.mp (by rw [hx]; rfl)))) hn
            · simp [hk, hq, hw] at h
    · exact absurd h (by simp)

example : evaluate sort abs true (.list [.dict [("b".toList, .str "7".toList), ("a".toList, .int 1)]])
      = .ok (.list [.dict [("a".toList, .int 1), ("b".toList, .int 7)]])
    ∧ evaluate sort abs true (.list [.dict [("b".toList, .str "-7".toList), ("a".toList, .int 1)]]) = .error .invalidValue := by
  decide +kernel

/-! ### C193: converting a collection twice is converting it once -/

/-- If this holds of the types of its values, and the required names are declared. -/
theorem C193_twice {ord : List Str → List Str} (ho : SetOrder ord) (t : Ty) :
    All Idem RequiredKnown t → ∀ v r, convert ord t v = .ok r → convert ord t r = .ok r := by
  induction t with
  | leaf l => intro hi v r h; exact hi v r h
  | arr a n item ih =>
    intro hi v r h
    simp only [convert] at h
    split at h
    · exact absurd h (by simp)
    · next l hl =>
      split at h
      · exact absurd h (by simp)
      · next l' hl' =>
        cases h
        obtain ⟨h1, h2⟩ := each_ok _ l 0 l' hl'
        simp only [convert, toList]
        rw [each_self _ l' 0]
        intro i y hy
        have hi' : i < l.length := by rw [← h1]; exact (List.getElem?_eq_some_iff.mp hy).1
        obtain ⟨y', hy', hf⟩ := h2 i l[i] (List.getElem?_eq_getElem hi')
        rw [hy] at hy'
        cases hy'
        rw [Nat.zero_add] at hf ⊢
        by_cases hc : y = .none ∨ beyond n i = true
        · rw [if_pos hc]
        · rw [if_neg hc]
          by_cases hx : l[i] = .none ∨ beyond n i = true
          · rw [if_pos hx] at hf
            cases hf
            exact absurd hx hc
          · rw [if_neg hx] at hf
            exact ih i (hi i) _ _ hf
  | obj o field ih =>
    rintro ⟨hq, hi⟩ v r h
    simp only [convert] at h
    split at h
    · exact absurd h (by simp)
    · next d hd =>
      split at h
      · exact absurd h (by simp)
      · next hkn =>
        split at h
        · exact absurd h (by simp)
        · next d' hd' =>
          cases h
          obtain ⟨h1, h2⟩ := eachKey_ok _ d d' hd'
          have hmem : ∀ k, k ∈ order ord o.required (AList.keys d') → o.known k = true := by
            intro k hk
            rw [mem_order ho, h1] at hk
            rcases hk with hk | hk
            · exact hq k hk
            · rw [Bool.not_eq_true, List.any_eq_false] at hkn
              obtain ⟨p, hp, rfl⟩ := List.mem_map.mp hk
              simpa using hkn p hp
          simp only [convert, toDict]
          have hany : (((order ord o.required (AList.keys d')).map fun k => (k, (AList.get? d' k).getD .none)).any
              fun p => !o.known p.1) = false := by
            rw [List.any_eq_false]
            intro p hp
            obtain ⟨k, hk, rfl⟩ := List.mem_map.mp hp
            simp [hmem k hk]
          rw [if_neg (by rw [hany]; simp)]
          rw [eachKey_self]
          · simp only
            rw [keys_tabulate (fun k => (AList.get? d' k).getD .none), order_again ho]
            congr 2
            apply List.map_congr_left
            intro k hk
            rw [get?_tabulate (fun k => (AList.get? d' k).getD .none), if_pos hk]; rfl
          · intro k x hx
            obtain ⟨k', hk', e⟩ := List.mem_map.mp hx
            cases e
            by_cases hc : (AList.get? d' k).getD .none = .none
            · rw [if_pos hc]
            · rw [if_neg hc]
              cases hg : AList.get? d k with
              | none =>
                have : AList.get? d' k = none := AList.get?_eq_none.mpr (by rw [h1]; exact AList.get?_eq_none.mp hg)
                rw [this] at hc
                exact absurd rfl hc
              | some x =>
                obtain ⟨y, hy, hf⟩ := h2 k x hg
                rw [hy] at hc ⊢
                simp only [Option.getD_some] at hc ⊢
                split at hf
                · next hx => subst hx; cases hf; exact absurd rfl hc
                · exact ih k (hi k) _ _ hf

example : All Idem RequiredKnown abs := by
  refine fun _ => ⟨fun k hk => ?_, fun _ => int_idem _⟩
  simp only [ab, List.mem_singleton] at hk
  subst hk; decide +kernel

/-! ### C194: a missing required property is refused -/

/-- By validation alone. -/
theorem C194_validate_partial (o : Obj) (field : Str → Ty) (ex : List Str) (d : List (Str × Val)) (k : Str)
    (hk : k ∈ o.required) (hd : AList.get? d k = none) : validate (.obj o field) ex (.dict d) = .error .invalidValue := by
  simp only [validate, toDict]
  split
  · rfl
  · rw [if_pos]
    rw [List.any_eq_true]
    exact ⟨k, hk, by simp [AList.contains, hd]⟩

example : validate (.obj ab fun _ => .leaf (int)) [] (.dict [("b".toList, .int 1)]) = .error .invalidValue := by
  decide +kernel

/-- Conversion adds every required property, with the value None. -/
theorem C194_added_violated {ord : List Str → List Str} (ho : SetOrder ord) (o : Obj) (field : Str → Ty) (v : Val)
    (d : List (Str × Val)) (h : convert ord (.obj o field) v = .ok (.dict d)) :
    ∀ k ∈ o.required, ∃ x, AList.get? d k = some x := by
  intro k hk
  simp only [convert] at h
  split at h
  · exact absurd h (by simp)
  · split at h
    · exact absurd h (by simp)
    · split at h
      · exact absurd h (by simp)
      · next d' _ =>
        cases h
        exact ⟨_, by rw [get?_tabulate (fun k => (AList.get? d' k).getD .none),
          if_pos ((mem_order ho _ _ _).mpr (.inl hk))]⟩

/-- So evaluation and deserialisation accept a mapping without it. -/
theorem C194_missing_violated : evaluate sort (.obj ab fun _ => .leaf (int)) true (.dict [])
      = .ok (.dict [("a".toList, .none)])
    ∧ deserialize sort (.obj ab fun _ => .leaf (int)) (.dict [("b".toList, .int 1)])
      = .ok (.dict [("a".toList, .none), ("b".toList, .int 1)]) := by decide +kernel

/-- A required name that no property declares is refused when deserialising, by KeyError. -/
theorem C194_undeclared_partial (ord : List Str → List Str) (o : Obj) (field : Str → Ty) (d : List (Str × Val)) (k : Str)
    (hk : k ∈ o.required) (hd : d ≠ []) (hf : AList.get? (filled o d) k = none) :
    deserialize ord (.obj o field) (.dict d) = .error .keyError := by
  have ht : (Val.dict d).truthy = true := by cases d <;> simp_all [Val.truthy]
  have : (o.required.any fun k => !AList.contains (filled o d) k) = true := by
    rw [List.any_eq_true]
    exact ⟨k, hk, by simp [AList.contains, hf]⟩
  simp only [deserialize, ht, if_true, toDict, this]

example : deserialize sort (.obj { ab with required := ["c".toList] } fun _ => .leaf (int)) (.dict [("a".toList, .int 1)])
      = .error .keyError
    ∧ evaluate sort (.obj { ab with required := ["b".toList] } fun _ => .leaf (int)) true (.dict [("a".toList, .int 1)])
      = .ok (.dict [("b".toList, .none), ("a".toList, .int 1)]) := by decide +kernel

/-! ### C195: a missing item is replaced by the converted default of its type -/

/-- By the default as declared, which has to be converted already. -/
theorem C195_declared_partial (ord : List Str → List Str) (l : Leaf) (hv : l.valid [] l.dflt = true) :
    evaluate ord (.leaf l) false .none = .ok l.dflt
    ∧ (l.conv l.dflt = .ok l.dflt → evaluate ord (.leaf l) true .none = .ok l.dflt) := by
  constructor
  · simp only [evaluate]
    by_cases h : l.dflt = .none
    · simp [h]
    · simp [h, checked, validate, hv]
  · intro hc
    simp only [evaluate]
    by_cases h : l.dflt = .none
    · simp [h]
    · simp [h, checked, validate, hv, hc]

example : evaluate sort (.arr anyArr none fun _ => .leaf (int (.int 5))) true (.list [.int 1, .none])
    = .ok (.list [.int 1, .int 5]) := by decide +kernel

/-- Inside a collection it is not converted; outside it is. -/
theorem C195_raw_violated : evaluate sort (.arr anyArr none fun _ => .leaf (int (.str "5".toList))) true (.list [.none])
      = .ok (.list [.str "5".toList])
    ∧ evaluate sort (.leaf (int (.str "5".toList))) true .none = .ok (.int 5) := by decide +kernel

/-! ### C196: a name that is not allowed is refused by InvalidValue -/

/-- By validation alone. -/
theorem C196_validate_partial (o : Obj) (field : Str → Ty) (ex : List Str) (d : List (Str × Val)) (k : Str)
    (hk : k ∈ AList.keys d) (ho : o.known k = false) : validate (.obj o field) ex (.dict d) = .error .invalidValue := by
  simp only [validate, toDict]
  rw [if_pos]
  rw [List.any_eq_true]
  obtain ⟨p, hp, rfl⟩ := List.mem_map.mp hk
  exact ⟨p, hp, by simp [ho]⟩

example : validate (.obj ab fun _ => .leaf (int)) [] (.dict [("a".toList, .int 1), ("c".toList, .int 1)])
    = .error .invalidValue := by decide +kernel

/-- Evaluation always raises KeyError, whatever else is wrong. -/
theorem C196_key_violated (ord : List Str → List Str) (o : Obj) (field : Str → Ty) (d : List (Str × Val)) (k : Str)
    (hk : k ∈ AList.keys d) (ho : o.known k = false) : evaluate ord (.obj o field) true (.dict d) = .error .keyError := by
  have : (d.any fun p => !o.known p.1) = true := by
    rw [List.any_eq_true]
    obtain ⟨p, hp, rfl⟩ := List.mem_map.mp hk
    exact ⟨p, hp, by simp [ho]⟩
  simp [evaluate, convert, toDict, this]

example : evaluate sort (.obj ab fun _ => .leaf (int)) true (.dict [("a".toList, .int (-1)), ("c".toList, .int 1)])
    = .error .keyError := by decide +kernel

/-- And so does deserialisation. -/
theorem C196_read_violated (ord : List Str → List Str) (o : Obj) (field : Str → Ty) (hD : AList.WF o.defaults)
    (hP : o.props.Nodup) (d : List (Str × Val)) (k : Str) (hk : k ∈ AList.keys d) (ho : o.known k = false) :
    deserialize ord (.obj o field) (.dict d) = .error .keyError := by
  have ht : (Val.dict d).truthy = true := by cases d <;> simp_all [Val.truthy, AList.keys]
  have hx : ∃ x, AList.get? d k = some x := by
    rw [← Option.isSome_iff_exists, AList.get?_isSome]; exact hk
  have : ((filled o d).any fun p => !o.known p.1) = true := by
    rw [List.any_eq_true]
    obtain ⟨x, hx⟩ := hx
    have := get?_filled hD hP d k
    rw [hx] at this
    exact ⟨_, AList.mem_of_get? (by simpa using this), by simp [ho]⟩
  simp only [deserialize, ht, if_true, toDict, this]
  split <;> rfl

example : deserialize sort (.obj ab fun _ => .leaf (int)) (.dict [("a".toList, .int (-1)), ("c".toList, .int 1)])
    = .error .keyError := by decide +kernel

/-! ### C62: what is given is kept, every declared property is there -/

/-- Names that stand for something in the mapping, and required ones, are the names of the result; each has what it
stands for, read and converted by its own type. -/
theorem C62_nested {ord : List Str → List Str} (ho : SetOrder ord) (o : Obj) (field : Str → Ty)
    (hD : AList.WF o.defaults) (hP : o.props.Nodup) (d r : List (Str × Val)) (hd : d ≠ [])
    (h : deserialize ord (.obj o field) (.dict d) = .ok (.dict r)) (k : Str) :
    ((∃ z, AList.get? r k = some z) ↔ ∃ x, Stands o d k x)
    ∧ ∀ x, Stands o d k x → ∃ y z, deserialize ord (field k) x = .ok y ∧ AList.get? r k = some z
      ∧ (y = .none → z = .none) ∧ (y ≠ .none → convert ord (field k) y = .ok z) := by
  have hs : ∀ x, Stands o d k x ↔ AList.get? (filled o d) k = some x := by
    intro x
    rw [get?_filled hD hP]
    constructor
    · intro h
      cases h with
      | given h => simp [h]
      | default h h' => simp [h, h']
      | missing h h' h'' => simp [h, h', h'']
    · intro h
      cases h1 : AList.get? d k with
      | some y => simp [h1] at h; subst h; exact .given h1
      | none =>
        cases h2 : AList.get? o.defaults k with
        | some y => simp [h1, h2] at h; subst h; exact .default h1 h2
        | none =>
          by_cases h3 : k ∈ o.props
          · simp [h1, h2, h3] at h; subst h; exact .missing h1 h2 h3
          · simp [h1, h2, h3] at h
  have ht : (Val.dict d).truthy = true := by cases d <;> simp_all [Val.truthy]
  simp only [hs]
  clear hs
  simp only [deserialize, ht, if_true, toDict] at h
  generalize filled o d = f at *
  split at h
  · exact absurd h (by simp)
  next hr =>
  split at h
  · exact absurd h (by simp)
  next hn =>
  split at h
  · exact absurd h (by simp)
  next d' hd' =>
  obtain ⟨hk1, hk2⟩ := eachKey_ok _ _ _ hd'
  rw [keys_tabulate (fun k => (AList.get? f k).getD .none)] at hk1
  have hreq : ∀ k ∈ o.required, k ∈ AList.keys f := by
    intro k hk
    refine Classical.byContradiction fun hc => hr ?_
    rw [List.any_eq_true]
    refine ⟨k, hk, ?_⟩
    rw [← AList.contains_iff] at hc
    simpa using hc
  have hmem : ∀ k, k ∈ order ord o.required (AList.keys f) ↔ k ∈ AList.keys f := by
    intro k; rw [mem_order ho]
    exact ⟨fun h => h.elim (hreq k) id, .inr⟩
  simp only [evaluateWhole] at h
  split at h
  · exact absurd h (by simp)
  next w hw =>
  have hwr : w = .dict r := by
    simp only [checked] at h
    split at h
    · exact absurd h (by simp)
    · simpa using h
  subst hwr
  simp only [convert, toDict] at hw
  split at hw
  · exact absurd hw (by simp)
  split at hw
  · exact absurd hw (by simp)
  next d2 hd2 =>
  obtain ⟨hk3, hk4⟩ := eachKey_ok _ _ _ hd2
  cases hw
  have hm2 : ∀ k, k ∈ order ord o.required (AList.keys d2) ↔ k ∈ AList.keys f := by
    intro k
    rw [mem_order ho, hk3, hk1, hmem]
    exact ⟨fun h => h.elim (hreq k) id, .inr⟩
  have hsome : (∃ x, AList.get? f k = some x) ↔ k ∈ AList.keys f := by
    rw [← Option.isSome_iff_exists, AList.get?_isSome]
  refine ⟨?_, fun x hx => ?_⟩
  · rw [get?_tabulate (fun k => (AList.get? d2 k).getD .none), hsome]
    by_cases hk : k ∈ order ord o.required (AList.keys d2)
    · rw [if_pos hk]; exact ⟨fun _ => (hm2 k).mp hk, fun _ => ⟨_, rfl⟩⟩
    · rw [if_neg hk]; exact ⟨fun ⟨_, h⟩ => absurd h (by simp), fun h => absurd ((hm2 k).mpr h) hk⟩
  · have hkf := hsome.mp ⟨x, hx⟩
    obtain ⟨y, hy, hy'⟩ := hk2 k x (by
      rw [get?_tabulate (fun k => (AList.get? f k).getD .none), if_pos ((hmem k).mpr hkf), hx]; rfl)
    obtain ⟨z, hz, hz'⟩ := hk4 k y hy
    refine ⟨y, z, hy', ?_, ?_, ?_⟩
    · rw [get?_tabulate (fun k => (AList.get? d2 k).getD .none), if_pos ((hm2 k).mpr hkf), hz]; rfl
    · intro h0; rw [if_pos h0] at hz'; cases hz'; exact h0
    · intro h0; rw [if_neg h0] at hz'; exact hz'

/-- A given value, a default and a property that is missing. -/
example : deserialize sort (.obj { ab with defaults := [("a".toList, .int 7), ("b".toList, .int 8)] }
        fun _ => .leaf (int)) (.dict [("a".toList, .int 1)])
      = .ok (.dict [("a".toList, .int 1), ("b".toList, .int 8)])
    ∧ deserialize sort (.obj { ab with defaults := [] } fun _ => .leaf (int)) (.dict [("a".toList, .int 1)])
      = .ok (.dict [("a".toList, .int 1), ("b".toList, .none)]) := by decide +kernel

/-! ### C197: an array may be longer than the list of the types of its items -/

/-- Conversion keeps what is beyond. -/
theorem C197_convert_partial (ord : List Str → List Str) (a : Arr) (n : Nat) (item : Nat → Ty) (l l' : List Val) (i : Nat)
    (x : Val) (h : convert ord (.arr a (some n) item) (.list l) = .ok (.list l')) (hi : n ≤ i) (hx : l[i]? = some x) :
    l'[i]? = some x := by
  simp only [convert, toList] at h
  split at h
  · exact absurd h (by simp)
  · next l₀ hl =>
    cases h
    obtain ⟨-, h2⟩ := each_ok _ l 0 l' hl
    obtain ⟨y, hy, hf⟩ := h2 i x hx
    rw [Nat.zero_add, if_pos (.inr (by simp [beyond, hi]))] at hf
    cases hf; exact hy

example : convert sort (.arr anyArr (some 1) fun _ => .leaf (int)) (.list [.str "1".toList, .str "2".toList])
      = .ok (.list [.int 1, .str "2".toList])
    ∧ deserialize sort (.arr anyArr (some 1) fun _ => .leaf (int)) (.list [.str "1".toList, .str "2".toList])
      = .ok (.list [.int 1, .str "2".toList]) := by decide +kernel

/-- Evaluation fails for every longer array. -/
theorem C197_index_violated (ord : List Str → List Str) (a : Arr) (n : Nat) (item : Nat → Ty) (c : Bool) (l : List Val)
    (hl : n < l.length) (r : Val) : evaluate ord (.arr a (some n) item) c (.list l) ≠ .ok r := by
  intro h
  simp only [evaluate, reduceCtorEq, if_false] at h
  split at h
  · exact absurd h (by simp)
  · next l' hl' =>
    have hlen : l'.length = l.length := by
      cases c with
      | false => simp at hl'; rw [hl']
      | true =>
        simp only [if_true, convert, toList] at hl'
        split at hl'
        · exact absurd hl' (by simp)
        · next l₂ h₂ => cases hl'; exact (each_ok _ l 0 _ h₂).1
    split at h
    · exact absurd h (by simp)
    · next l₃ h₃ =>
      obtain ⟨-, h2⟩ := each_ok _ l' 0 l₃ h₃
      obtain ⟨y, -, hf⟩ := h2 n l'[n] (List.getElem?_eq_getElem (by omega))
      rw [Nat.zero_add, if_pos (by simp [beyond])] at hf
      exact absurd hf (by simp)
  · exact absurd h (by simp)

example : evaluate sort (.arr anyArr (some 1) fun _ => .leaf (int)) true (.list [.int 1, .int 2]) = .error .indexError := by
  decide +kernel

/-! ### C198: validation reaches every value of a collection -/

/-- If no leaf depends on the excluded keywords, and no property has the name of one. -/
theorem C198_reached_partial (t : Ty)
    (ht : All (fun l => ∀ ex v, l.valid ex v = l.valid [] v)
      (fun o => ∀ k, o.known k = true → k ∉ arrayWords ++ objectWords) t) :
    ∀ ex v, (∀ k ∈ ex, k ∈ arrayWords ++ objectWords) → validate t ex v = .ok () → Sound t v := by
  induction t with
  | leaf l =>
    intro ex v _ h
    simp only [validate] at h
    have := ht ex v
    simp only [Sound]
    by_cases hv : l.valid ex v = true
    · rw [← this]; exact hv
    · simp [hv] at h
  | arr a n item ih =>
    rintro ex v hex h l rfl i x hx hty hne
    simp only [validate, toList] at h
    split at h
    · exact absurd h (by simp)
    · split at h
      · exact absurd h (by simp)
      · next us hu =>
        obtain ⟨-, h2⟩ := each_ok _ l 0 us hu
        obtain ⟨y, -, hf⟩ := h2 i x hx
        rw [Nat.zero_add, if_neg (by rw [beyond_iff]; simp [hne, hty])] at hf
        refine ih i (ht i) _ x ?_ hf
        intro k hk
        rw [List.mem_append] at hk
        rcases hk with hk | hk
        · exact hex k hk
        · exact List.mem_append.mpr (.inl hk)
  | obj o field ih =>
    rintro ex v hex h d rfl k x hx hne
    simp only [validate, toDict] at h
    split at h
    · exact absurd h (by simp)
    · next hkn =>
      split at h
      · exact absurd h (by simp)
      · split at h
        · exact absurd h (by simp)
        · split at h
          · exact absurd h (by simp)
          · next us hu =>
            obtain ⟨-, h2⟩ := eachKey_ok _ d us hu
            obtain ⟨y, -, hf⟩ := h2 k x hx
            have hsub : ∀ j ∈ ex ++ objectKeywords, j ∈ arrayWords ++ objectWords := by
              intro j hj
              rw [List.mem_append] at hj
              rcases hj with hj | hj
              · exact hex j hj
              · exact List.mem_append.mpr (.inr hj)
            have hk : o.known k = true := by
              rw [Bool.not_eq_true, List.any_eq_false] at hkn
              simpa using hkn _ (AList.mem_of_get? hx)
            have hno : ¬ (x = .none ∨ k ∈ ex ++ objectKeywords) := by
              rintro (e | e)
              · exact hne e
              · exact ht.1 k hk (hsub k e)
            rw [if_neg hno] at hf
            exact ih k (ht.2 k) _ x hsub hf

example : validate abs [] (.list [.dict [("a".toList, .int 1)]]) = .ok ()
    ∧ validate abs [] (.list [.dict [("a".toList, .int (-1))]]) = .error .invalidValue := by decide +kernel

/-- An object with a property of the name of a keyword. -/
def odd : Obj where
  known k := k = "required".toList
  props := ["required".toList]
  required := []
  own _ _ := true
  dflt := []
  defaults := []

/-- A property with the name of an excluded keyword is not validated. -/
theorem C198_name_violated : validate (.obj odd fun _ => .leaf (int)) [] (.dict [("required".toList, .int (-1))]) = .ok ()
    ∧ validate (.leaf (int)) [] (.int (-1)) = .error .invalidValue := by decide +kernel

/-- No item is validated that has the name of a keyword of objects, and whatever an item excludes from its validation
under the name of a keyword of arrays is not checked in an array: sizes of arrays in arrays are not. -/
theorem C198_keywords_violated :
    (∀ (o : Obj) (field : Str → Ty) (k : Str) (x : Val), k ∈ ["required", "properties", "propertiesAdditional",
        "additionalProperties"].map String.toList → o.known k = true → o.required = [] → (∀ ex d, o.own ex d = true) →
      validate (.obj o field) [] (.dict [(k, x)]) = .ok ()) ∧
    (∀ (a b : Arr) (n : Option Nat) (w : Str) (p : List Val → Bool), w ∈ ["minItems", "maxItems", "uniqueItems",
        "items"].map String.toList → (∀ ex l, a.own ex l = true) → (∀ ex l, b.own ex l = (ex.contains w || p l)) →
      validate (.arr a n fun _ => .arr b (some 0) fun _ => .leaf (int)) [] (.list [.list [.int 1]]) = .ok ()) := by
  constructor
  · intro o field k x hk hkn hr ho
    have hk' : k ∈ [] ++ objectKeywords := hk
    simp only [validate, toDict, hr, ho, eachKey, if_pos (Or.inr hk' : x = .none ∨ k ∈ [] ++ objectKeywords)]
    simp [hkn]
  · intro a b n w p hw ha hb
    have hw' : w ∈ arrayKeywords := hw
    have hc : b.own ([] ++ arrayKeywords ++ arrayKeywords) [.int 1] = true := by
      rw [hb]; simp [List.contains_iff_mem, hw']
    have hin : validate (.arr b (some 0) fun _ => .leaf (int)) ([] ++ arrayKeywords) (.list [.int 1]) = .ok () := by
      rw [validate]; simp only [toList, hc, each, beyond]; simp
    rw [validate]; simp only [toList, ha, each]
    rw [hin]
    split <;> simp_all

example : validate (.arr anyArr none fun _ => .arr ⟨fun ex l => ex.contains "minItems".toList || decide (2 ≤ l.length), [], 2⟩ (some 0)
    fun _ => .leaf (int)) [] (.list [.list [.int 1]]) = .ok () := by decide +kernel

/-! ### C199: deserialising and evaluating a value give the same -/

/-- For leaves. -/
theorem C199_leaf_partial (ord : List Str → List Str) (l : Leaf) (v : Val) :
    deserialize ord (.leaf l) v = evaluate ord (.leaf l) true v := rfl

example : deserialize sort (.leaf (int (.int 5))) .none = .ok (.int 5) := by decide +kernel

/-- For arrays of leaves, long enough and without None. -/
theorem C199_array_partial (ord : List Str → List Str) (a : Arr) (l : Leaf) (vs : List Val) (hvs : vs ≠ [])
    (hmin : a.minItems ≤ vs.length) (hv : ∀ ex v, l.valid ex v = l.valid [] v)
    (hn : Val.none ∉ vs) (hc : ∀ v w, l.conv v = .ok w → w ≠ .none) :
    deserialize ord (.arr a none fun _ => .leaf l) (.list vs) = evaluate ord (.arr a none fun _ => .leaf l) true (.list vs) := by
  have ht : (Val.list vs).truthy = true := by cases vs <;> simp_all [Val.truthy]
  have hl : listed a (.list vs) = vs := by
    simp only [listed, ht, if_true]
    rw [Nat.sub_eq_zero_of_le hmin]; simp
  rw [deserialize, hl, evaluateWhole, evaluate]
  simp only [reduceCtorEq, if_false, if_true]
  cases hcv : convert ord (.arr a none fun _ => .leaf l) (.list vs) with
  | error e => rfl
  | ok w =>
    simp only [convert, toList] at hcv
    split at hcv
    · exact absurd hcv (by simp)
    · next ws hws =>
      cases hcv
      obtain ⟨h1, h2⟩ := each_ok _ vs 0 ws hws
      have hwn : ∀ (j : Nat) (y : Val), ws[j]? = some y → y ≠ Val.none := by
        intro j y hy
        have hj : j < vs.length := by rw [← h1]; exact (List.getElem?_eq_some_iff.mp hy).1
        obtain ⟨y', hy', hf⟩ := h2 j vs[j] (List.getElem?_eq_getElem hj)
        rw [hy] at hy'; cases hy'
        have hx : vs[j] ≠ .none := fun e => hn (e ▸ List.getElem_mem hj)
        rw [if_neg (by simp [hx, beyond])] at hf
        exact hc _ _ hf
      simp only
      by_cases hall : ∀ (j : Nat) (y : Val), ws[j]? = some y → l.valid [] y = true
      · rw [each_self _ ws 0]
        intro j y hy
        rw [if_neg (by simp [beyond]), evaluate, if_neg (by simp [hwn j y hy])]
        simp [hwn j y hy, checked, validate, hall j y hy]
      · have hbad : ∃ (j : Nat) (y : Val), ws[j]? = some y ∧ l.valid [] y = false := by
          apply Classical.byContradiction
          intro hno
          apply hall
          intro j y hy
          cases hb : l.valid [] y with
          | true => rfl
          | false => exact absurd ⟨j, y, hy, hb⟩ hno
        obtain ⟨j, y, hy, hb⟩ := hbad
        have only : ∀ {β : Type} (f : Nat → Val → Res β), (∀ i x, i < ws.length → ws[i]? = some x → ∀ e, f i x = .error e → e = .invalidValue) →
            f j y = .error .invalidValue → each f 0 ws = .error .invalidValue := by
          intro β f hf hj
          have key : ∀ (us : List Val) (i : Nat), (∀ m x, us[m]? = some x → ∀ e, f (i + m) x = .error e → e = .invalidValue) →
              (∃ m x, us[m]? = some x ∧ f (i + m) x = .error .invalidValue) → each f i us = .error .invalidValue := by
            intro us
            induction us with
            | nil => rintro i _ ⟨m, x, hx, _⟩; simp at hx
            | cons u us ih =>
              rintro i he ⟨m, x, hx, hm⟩
              rw [each]
              cases hfu : f i u with
              | error e => rw [he 0 u rfl e (by rw [Nat.add_zero]; exact hfu)]
              | ok w =>
                simp only
                cases m with
                | zero =>
                  simp only [List.getElem?_cons_zero, Option.some.injEq] at hx
                  subst hx
                  rw [Nat.add_zero, hfu] at hm
                  exact absurd hm (by simp)
                | succ m =>
                  rw [ih (i + 1)]
                  · intro m' x' hx' e hfe
                    refine he (m' + 1) x' (by simpa using hx') e ?_
                    rw [← hfe, Nat.add_assoc, Nat.add_comm 1 m']
                  · exact ⟨m, x, by simpa using hx, by rw [← hm, Nat.add_assoc, Nat.add_comm 1 m]⟩
          refine key ws 0 ?_ ⟨j, y, hy, by rw [Nat.zero_add]; exact hj⟩
          intro m x hx e hfe
          rw [Nat.zero_add] at hfe
          exact hf m x (List.getElem?_eq_some_iff.mp hx).1 hx e hfe
        rw [only (fun i x => if beyond none i = true then .error .indexError else evaluate ord (.leaf l) false x)]
        · have hw : each (fun i x => if x = .none ∨ beyond none i = true then .ok ()
              else if l.valid ([] ++ arrayKeywords) x = true then .ok () else .error .invalidValue) 0 ws
              = .error .invalidValue := by
            apply only
            · intro i x _ hx e he
              rw [if_neg (by simp [beyond, hwn i x hx])] at he
              split at he
              · exact absurd he (by simp)
              · cases he; rfl
            · rw [if_neg (by simp [beyond, hwn j y hy]), if_neg (by rw [hv, hb]; simp)]
          simp only [checked, validate, toList]
          rw [hw]
          by_cases hown : a.own ([] ++ arrayKeywords) ws = true <;> simp [hown]
        · intro i x _ hx e he
          rw [if_neg (by simp [beyond]), evaluate, if_neg (by simp [hwn i x hx])] at he
          simp only [hwn i x hx, if_false, Bool.false_eq_true, checked, validate] at he
          by_cases hvx : l.valid [] x = true
          · simp [hvx] at he
          · simp [hvx] at he; exact he.symm
        · rw [if_neg (by simp [beyond]), evaluate, if_neg (by simp [hwn j y hy])]
          simp [hwn j y hy, checked, validate, hb]

example : deserialize sort ints (.list [.str "1".toList, .int 2]) = .ok (.list [.int 1, .int 2])
    ∧ evaluate sort ints true (.list [.str "1".toList, .int 2]) = .ok (.list [.int 1, .int 2]) := by decide +kernel

/-- A missing item keeps None when deserialised; a text is one item then; and one value is enough. -/
theorem C199_items_violated :
    deserialize sort (.arr anyArr none fun _ => .leaf (int (.int 5))) (.list [.none]) = .ok (.list [.none])
    ∧ evaluate sort (.arr anyArr none fun _ => .leaf (int (.int 5))) true (.list [.none]) = .ok (.list [.int 5])
    ∧ deserialize sort ints (.str "12".toList) = .ok (.list [.int 12])
    ∧ evaluate sort ints true (.str "12".toList) = .ok (.list [.int 1, .int 2])
    ∧ deserialize sort ints (.int 1) = .ok (.list [.int 1])
    ∧ evaluate sort ints true (.int 1) = .error .typeError := by decide +kernel

/-- An empty array is replaced by the default when deserialised, and kept when evaluated. -/
theorem C199_empty_violated :
    deserialize sort (.arr { anyArr with dflt := [.int 7] } none fun _ => .leaf (int)) (.list []) = .ok (.list [.int 7])
    ∧ evaluate sort (.arr { anyArr with dflt := [.int 7] } none fun _ => .leaf (int)) true (.list []) = .ok (.list []) := by
  decide +kernel

/-- Nested arrays are not deserialised: a text inside is cut into its characters. -/
theorem C199_nested_violated :
    deserialize sort (.arr anyArr none fun _ => ints) (.list [.str "12".toList]) = .ok (.list [.list [.int 1, .int 2]]) := by
  decide +kernel

end Verif.Nested
