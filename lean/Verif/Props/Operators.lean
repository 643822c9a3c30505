import Verif.Props.Compare
import Verif.Props.Query
import Verif.Lemmas.Keys
import Verif.Spec.Operators
/-
C331 The operators on texts, members and positions mean what their names say.
-/
namespace Verif.Query
open Doc (Key Follow getDescendant getDescendantPath)

private theorem satisfies_op (rx : Rx) (obj value : Val) (path : List Str) (op : Str) (P : Val → Prop)
    (h : ∀ v, Has obj path v → ((∃ r, applyOp rx op v value = .ok r ∧ r.truthy = true) ↔ P v)) :
    Satisfies rx obj ⟨path, [op], false, value⟩ ↔ ∃ v, Has obj path v ∧ P v := by
  unfold Satisfies
  refine exists_congr fun v => and_congr_right fun hv => ?_
  rw [← h v hv]
  simp only [List.cons_ne_nil, if_false, foldOps]
  cases applyOp rx op v value <;> simp [foldOps]

private theorem applyOp_string (rx : Rx) (op : Str) (h : isStringOp op = true) (a b : Val) :
    applyOp rx op a b = match a, b with
      | .str a, .str b => stringOp rx op a b
      | _, _ => .error .typeError := by
  unfold applyOp
  rw [if_pos h]
  all_goals cases a <;> cases b <;> rfl

/-- C331: `startswith`, `endswith` and `regex` select the objects whose attribute is a text that begins with the value, ends
with it, or is matched from its beginning by it. -/
theorem C331_texts (rx : Rx) (obj : Val) (path : List Str) (t : Str) :
    (Satisfies rx obj ⟨path, ["startswith".toList], false, .str t⟩ ↔ ∃ v, Has obj path v ∧ ∃ s, v = .str (t ++ s)) ∧
    (Satisfies rx obj ⟨path, ["endswith".toList], false, .str t⟩ ↔ ∃ v, Has obj path v ∧ ∃ s, v = .str (s ++ t)) ∧
    (Satisfies rx obj ⟨path, ["regex".toList], false, .str t⟩ ↔
      ∃ v, Has obj path v ∧ ∃ s, v = .str s ∧ rx.run true false t s = .ok true) := by
  refine ⟨satisfies_op _ _ _ _ _ _ fun v _ => ?_, satisfies_op _ _ _ _ _ _ fun v _ => ?_,
    satisfies_op _ _ _ _ _ _ fun v _ => ?_⟩
  · rw [applyOp_string rx _ (by decide +kernel)]
    cases v with
    | str a =>
      have : stringOp rx "startswith".toList a t = .ok (.bool (t.isPrefixOf a)) := by rw [stringOp, if_pos rfl]
      simp only [this, Except.ok.injEq, exists_eq_left', Val.truthy, List.isPrefixOf_iff_prefix, Val.str.injEq]
      exact ⟨fun ⟨s, h⟩ => ⟨s, h.symm⟩, fun ⟨s, h⟩ => ⟨s, h.symm⟩⟩
    | _ => simp
  · rw [applyOp_string rx _ (by decide +kernel)]
    cases v with
    | str a =>
      have : stringOp rx "endswith".toList a t = .ok (.bool (t.isSuffixOf a)) := by
        rw [stringOp, if_neg (by decide +kernel), if_pos rfl]
      simp only [this, Except.ok.injEq, exists_eq_left', Val.truthy, List.isSuffixOf_iff_suffix, Val.str.injEq]
      exact ⟨fun ⟨s, h⟩ => ⟨s, h.symm⟩, fun ⟨s, h⟩ => ⟨s, h.symm⟩⟩
    | _ => simp
  · rw [applyOp_string rx _ (by decide +kernel)]
    cases v with
    | str a =>
      have : stringOp rx "regex".toList a t = matchVal (rx.run true false t a) := by
        rw [stringOp, if_neg (by decide +kernel), if_neg (by decide +kernel), if_neg (by decide +kernel),
          if_neg (by decide +kernel), if_neg (by decide +kernel), if_neg (by decide +kernel)]
      simp only [this, Val.str.injEq, exists_eq_left']
      cases rx.run true false t a with
      | error e => simp [matchVal]
      | ok b => cases b <;> simp [matchVal, Val.truthy]
    | _ => simp

private theorem contains_holds (y x : Val) (hy : WellFormed y) (hx : WellFormed x) :
    (∃ r, boolVal (contains y x) = .ok r ∧ r.truthy = true) ↔ Holds y x := by
  have hb : (∃ r, boolVal (contains y x) = .ok r ∧ r.truthy = true) ↔ contains y x = .ok true := by
    cases contains y x with
    | error e => simp [boolVal]
    | ok b => simp [boolVal, Val.truthy]
  rw [hb]
  cases y with
  | list l =>
    cases hy with
    | list hl =>
      have : contains (.list l) x = .ok (pyIn x l) := by unfold contains; rfl
      rw [this, Except.ok.injEq, pyIn, List.any_eq_true]
      constructor
      · rintro ⟨y, hy, h⟩
        refine .item hy ?_
        rw [Bool.or_eq_true, beq_iff_eq] at h
        rcases h with rfl | h
        · exact (C296_equal x x hx hx).1 (C296_equivalence x x x hx hx hx).1
        · exact (C296_equal x y hx (hl y hy)).1 h
      · rintro (⟨hy, h⟩ | _)
        exact ⟨_, hy, by rw [(C296_equal x _ hx (hl _ hy)).2 h, Bool.or_true]⟩
  | str t =>
    cases x with
    | str s =>
      have : contains (.str t) (.str s) = .ok (isInfix s t) := by unfold contains; rfl
      rw [this, Except.ok.injEq, Keys.isInfix_iff]
      constructor
      · rintro ⟨a, b, rfl⟩; exact .part
      · intro h; cases h; exact ⟨_, _, rfl⟩
    | _ =>
      simp only [contains, reduceCtorEq, false_iff]
      intro h; cases h
  | dict d =>
    cases x with
    | str s =>
      have : contains (.dict d) (.str s) = .ok (AList.contains d s) := by unfold contains; rfl
      rw [this, Except.ok.injEq, AList.contains_iff]
      constructor
      · intro h
        obtain ⟨kv, hkv, rfl⟩ := List.mem_map.1 h
        exact .key hkv
      · intro h; cases h; exact List.mem_map.2 ⟨_, ‹_›, rfl⟩
    | _ =>
      simp [contains, hashable]
      try (intro h; cases h)
  | _ =>
    simp only [contains, reduceCtorEq, false_iff]
    intro h; cases h

/-- C331: `contains` selects the objects whose attribute holds the value, `in` those whose attribute the value holds. -/
theorem C331_members (rx : Rx) (obj value : Val) (path : List Str) (hw : WellFormed value)
    (ho : ∀ v, Has obj path v → WellFormed v) :
    (Satisfies rx obj ⟨path, ["contains".toList], false, value⟩ ↔ ∃ v, Has obj path v ∧ Holds v value) ∧
    (Satisfies rx obj ⟨path, ["in".toList], false, value⟩ ↔ ∃ v, Has obj path v ∧ Holds value v) := by
  constructor
  · exact satisfies_op _ _ _ _ _ _ fun v hv => contains_holds v value (ho v hv) hw
  · exact satisfies_op _ _ _ _ _ _ fun v hv => contains_holds value v hw (ho v hv)

private theorem pyIndex_iff {α} (l : List α) (i : Int) (x : α) : pyIndex l i = some x ↔
    ∃ a b, l = a ++ x :: b ∧ (i = a.length ∨ i = -(b.length + 1)) := by
  have key : ∀ n : Nat, l[n]? = some x ↔ ∃ a b, l = a ++ x :: b ∧ n = a.length := by
    intro n
    constructor
    · intro h
      obtain ⟨hn, rfl⟩ := List.getElem?_eq_some_iff.1 h
      exact ⟨l.take n, l.drop (n + 1), by simp, by simp; omega⟩
    · rintro ⟨a, b, rfl, rfl⟩; simp
  unfold pyIndex
  by_cases h0 : 0 ≤ i
  · rw [if_pos h0, key]
    refine exists_congr fun a => exists_congr fun b => and_congr_right fun _ => ?_
    omega
  · rw [if_neg h0]
    by_cases h1 : 0 ≤ (l.length : Int) + i
    · rw [if_pos h1, key]
      refine exists_congr fun a => exists_congr fun b => and_congr_right fun h => ?_
      subst h
      rw [List.length_append, List.length_cons] at h1 ⊢
      omega
    · rw [if_neg h1]
      simp only [reduceCtorEq, false_iff]
      rintro ⟨a, b, rfl, h⟩
      rw [List.length_append, List.length_cons] at h1
      omega

private theorem applyOp_at (rx : Rx) (i : Int) (a b : Val) : applyOp rx (atName i) a b = match a with
    | .list l => match pyIndex l i with
      | some v => .ok v
      | none => .error .indexError
    | .str s => match pyIndex s i with
      | some c => .ok (.str [c])
      | none => .error .indexError
    | .dict _ => .error .keyError
    | _ => .error .typeError := by
  have hs : isStringOp (atName i) = false := by
    simp only [isStringOp, atName]
    rw [List.contains_eq_mem, decide_eq_false_iff_not]
    intro h
    obtain ⟨s, hs, h⟩ := List.mem_map.1 h
    simp only [List.mem_cons, List.not_mem_nil, or_false] at hs
    rcases hs with rfl | rfl | rfl | rfl | rfl | rfl | rfl <;> exact absurd (congrArg List.head? h) (by simp)
  have hn : ∀ s : Str, s.head? ≠ some '@' → atName i ≠ s := fun s h e => h (e ▸ rfl)
  unfold applyOp
  rw [hs, if_neg (by decide), if_neg (hn _ (by decide +kernel)), if_neg (hn _ (by decide +kernel)),
    if_neg (hn _ (by decide +kernel)), if_neg (hn _ (by decide +kernel)), if_neg (hn _ (by decide +kernel)),
    if_neg (by
      rw [Bool.or_eq_true, decide_eq_true_eq, decide_eq_true_eq]
      exact fun h => h.elim (hn _ (by decide +kernel)) (hn _ (by decide +kernel))),
    if_neg (hn _ (by decide +kernel)), if_neg (hn _ (by decide +kernel)), if_pos (by simp [atName])]
  have : parseInt ((atName i).drop 1) = some i := parseInt_showInt i
  rw [this]
  all_goals cases a <;> rfl

/-- C331: `@i` takes the item or the character at the position, which the next operator compares. -/
theorem C331_positions (rx : Rx) (obj value : Val) (path : List Str) (i : Int) (hw : WellFormed value)
    (ho : ∀ v, Has obj path v → WellFormed v) :
    Satisfies rx obj ⟨path, [atName i, "eq".toList], false, value⟩ ↔
      ∃ v, Has obj path v ∧ ∃ x, At v i x ∧ Equal x value := by
  unfold Satisfies
  refine exists_congr fun v => and_congr_right fun hv => ?_
  have hwf := ho v hv
  have heq : ∀ x, foldOps rx ["eq".toList] x value = .ok (.bool (pyEq x value)) := fun _ => rfl
  simp only [List.cons_ne_nil, if_false]
  rw [foldOps, applyOp_at]
  cases v with
  | list l =>
    cases hwf with
    | list hl =>
      have hat : ∀ x, At (.list l) i x ↔ pyIndex l i = some x := by
        intro x
        rw [pyIndex_iff]
        constructor
        · intro h
          cases h with
          | item => exact ⟨_, _, rfl, .inl rfl⟩
          | itemBack => exact ⟨_, _, rfl, .inr rfl⟩
        · rintro ⟨a, b, rfl, rfl | rfl⟩
          · exact .item
          · exact .itemBack
      simp only [hat]
      cases hp : pyIndex l i with
      | none => simp
      | some x =>
        obtain ⟨a, b, rfl, _⟩ := (pyIndex_iff l i x).1 hp
        simp only [heq, Except.ok.injEq, exists_eq_left', Val.truthy, Option.some.injEq]
        exact C296_equal x value (hl x (by simp)) hw
  | str s =>
    have hat : ∀ x, At (.str s) i x ↔ ∃ c, pyIndex s i = some c ∧ x = .str [c] := by
      intro x
      simp only [pyIndex_iff]
      constructor
      · intro h
        cases h with
        | char => exact ⟨_, ⟨_, _, rfl, .inl rfl⟩, rfl⟩
        | charBack => exact ⟨_, ⟨_, _, rfl, .inr rfl⟩, rfl⟩
      · rintro ⟨c, ⟨a, b, rfl, rfl | rfl⟩, rfl⟩
        · exact .char
        · exact .charBack
    simp only [hat]
    cases hp : pyIndex s i with
    | none => simp
    | some c =>
      simp only [heq, Except.ok.injEq, exists_eq_left', Val.truthy, Option.some.injEq]
      rw [exists_eq_left]
      exact C296_equal (.str [c]) value .str hw
  | _ =>
    simp only [reduceCtorEq, false_and, exists_false, false_iff]
    rintro ⟨x, h, _⟩
    cases h

/-- C331 is violated by objects whose attribute is of another type: instead of leaving them out, the query ends with a
TypeError. -/
theorem C331_type_violated (rx : Rx) (op k : Str) (v value : Val) (objs : List Val) (hv : v ≠ .none)
    (hd : ∀ d, v ≠ .dict d) (ht : ∀ s, v ≠ .str s)
    (hop : op ∈ ["startswith".toList, "endswith".toList, "ieq".toList, "istartswith".toList, "iendswith".toList,
      "icontains".toList, "regex".toList]) :
    filterOrExclude rx false ⟨[⟨[k], [op], false, value⟩], [], false, false⟩ (.dict [(k, v)] :: objs, none)
      = ([], some .typeError) ∧ ¬ Satisfies rx (.dict [(k, v)]) ⟨[k], [op], false, value⟩ := by
  have hs : isStringOp op = true := by
    simp only [isStringOp]
    rw [List.contains_iff_mem]
    exact hop
  have ha : applyOp rx op v value = .error .typeError := by
    rw [applyOp_string rx op hs]
    cases v <;> first | rfl | exact absurd rfl (ht _)
  constructor
  · have hg : getDescendant (.dict [(k, v)]) [Key.name k] = .ok v := by
      simp [getDescendant, Doc.getItem, AList.get?]
    have he : enter ⟨[k], [op], false, value⟩ v = (v, ⟨[k], [op], false, value⟩, false) := by
      unfold enter
      cases v <;> first | exact absurd rfl (hd _) | simp [isDict]
    simp [filterOrExclude, select, Val.truthy, Filter.call, critLoop, hg, hv, he, applyOpsTest, foldOps, ha]
  · rintro ⟨w, ⟨hf, _⟩, r, hr, _⟩
    have := Doc.getDescendant_follow _ (by simp) _ _ hf
    simp [getDescendant, Doc.getItem, AList.get?] at this
    subst this
    simp [foldOps, ha] at hr

/-- C331 is violated by lists that are too short: the query ends with an IndexError. -/
theorem C331_short_violated (rx : Rx) (k : Str) (l : List Val) (i : Int) (value : Val) (objs : List Val)
    (hi : ∀ x, ¬ At (.list l) i x) :
    filterOrExclude rx false ⟨[⟨[k], [atName i, "eq".toList], false, value⟩], [], false, false⟩
      (.dict [(k, .list l)] :: objs, none) = ([], some .indexError) := by
  have hp : pyIndex l i = none := by
    cases hp : pyIndex l i with
    | none => rfl
    | some x =>
      obtain ⟨a, b, rfl, rfl | rfl⟩ := (pyIndex_iff l i x).1 hp
      · exact absurd .item (hi x)
      · exact absurd .itemBack (hi x)
  have hg : getDescendant (.dict [(k, .list l)]) [Key.name k] = .ok (.list l) := by
    simp [getDescendant, Doc.getItem, AList.get?]
  simp [filterOrExclude, select, Val.truthy, Filter.call, critLoop, hg, enter, isDict, applyOpsTest, foldOps, applyOp_at, hp]

/-- C331 is violated by mappings: an object whose attribute is a mapping that has the key is not selected. -/
theorem C331_mapping_violated (rx : Rx) (k key : Str) (d : List (Str × Val)) (hk : AList.get? d "contains".toList = none) :
    (filterOrExclude rx false ⟨[⟨[k], ["contains".toList], false, .str key⟩], [], false, false⟩
      ([.dict [(k, .dict d)]], none)) = ([], none) := by
  have hg : getDescendant (.dict [(k, .dict d)]) [Key.name k] = .ok (.dict d) := by
    simp [getDescendant, Doc.getItem, AList.get?]
  have hs : Doc.splitPath "contains".toList = [Key.name "contains".toList] := by decide +kernel
  have hc : getDescendantPath (.dict d) "contains".toList = .ok .none := by
    rw [getDescendantPath, hs, getDescendant, Doc.getItem, hk]; rfl
  have ha : applyOp rx "contains".toList (.dict d) (.str key) = .ok (.bool (AList.contains d key)) := rfl
  generalize "contains".toList = op at hk hs hc ha ⊢
  have hl : childLoop 0 (.dict d) [k] [op] = (.dict d, [k], [op], true) := by
    rw [childLoop]
    simp [hc, Val.truthy]
  simp [filterOrExclude, select, Val.truthy, Filter.call, critLoop, hg, enter, isDict, hl, applyOpsTest, foldOps, ha, attrLoop]

/-- A thing with a name, a list and a mapping. -/
private def thing : Val := .dict [("n".toList, .str "abc".toList), ("l".toList, .list [.int 1, .int 5]),
  ("m".toList, .dict [("k".toList, .int 1)])]

private theorem has_thing (k : Str) (v : Val) (h : Doc.getItem thing (.name k) = some v) (hv : v ≠ .none) : Has thing [k] v := by
  refine ⟨?_, hv⟩
  rw [List.map_cons, Doc.follow_cons_iff]
  exact ⟨v, h, by rw [List.map_nil, Doc.follow_nil_iff]⟩

example : Satisfies noRx thing ⟨["n".toList], ["startswith".toList], false, .str "ab".toList⟩ :=
  (C331_texts noRx thing _ _).1.2 ⟨_, has_thing "n".toList (.str "abc".toList) rfl nofun, "c".toList, rfl⟩
example : Satisfies noRx thing ⟨["l".toList], [atName (-1), "eq".toList], false, .int 5⟩ :=
  ⟨_, has_thing "l".toList (.list [.int 1, .int 5]) rfl nofun, .bool true, by decide +kernel, rfl⟩
example : Holds (.dict [("k".toList, .int 1)]) (.str "k".toList) ∧ Holds (.list [.int 1, .int 5]) (.bool true) ∧
    Holds (.str "abc".toList) (.str "bc".toList) ∧ At (.list [.int 1, .int 5]) (-2) (.int 1) :=
  ⟨.key (List.mem_singleton_self _), .item (y := .int 1) (by simp) (.num .true .int),
    .part (a := "a".toList) (s := "bc".toList) (b := []),
    .itemBack (a := []) (b := [.int 5])⟩
example : filterOrExclude noRx false (.mk' [] [("n__startswith".toList, .str "ab".toList), ("l__contains".toList, .int 5),
    ("n__in".toList, .list [.str "abc".toList]), ("l__@0__eq".toList, .int 1)] false false) ([thing], none)
    = ([thing], none) := by decide +kernel
example : filterOrExclude noRx false (.mk' [] [("m__contains".toList, .str "k".toList)] false false) ([thing], none)
    = ([], none) := by decide +kernel
example : filterOrExclude noRx false (.mk' [] [("l__@2__eq".toList, .int 1)] false false) ([thing], none)
    = ([], some .indexError) := by decide +kernel

end Verif.Query
