import Verif.Lemmas.Types
/-
C56-C65, C102: conversions, deserialisation, validation and serialisation by types.
-/
namespace Verif.Types
open Query (pyEq pyIn hashable)

/-! ### C56 -/

/-- Boolean conversion succeeds exactly on the values that read as a Boolean, with that Boolean, and raises
ConversionError on everything else. -/
theorem C56_boolean (lower : Str → Str) (trues falses : List Str) (v : Val) :
    (∀ r, boolConvert lower trues falses v = .ok r ↔ ∃ b, r = .bool b ∧ ReadsAs lower trues falses v b) ∧
    ((∀ b, ¬ ReadsAs lower trues falses v b) → boolConvert lower trues falses v = .error .conversionError) := by
  constructor
  · intro r
    constructor
    · intro h
      unfold boolConvert at h
      split at h
      · simp at h; exact ⟨_, h.symm, .bool _⟩
      · split at h
        · rename_i s ht; simp at h; exact ⟨true, h.symm, .yes s ht⟩
        · split at h
          · rename_i s ht hf; simp at h; exact ⟨false, h.symm, .no s hf ht⟩
          · simp at h
      · split at h
        · rename_i i hi
          simp at h
          rcases hi with rfl | rfl
          · exact ⟨false, by rw [← h]; rfl, .zero⟩
          · exact ⟨true, by rw [← h]; rfl, .one⟩
        · simp at h
      · simp at h
    · rintro ⟨b, rfl, h⟩
      cases h with
      | bool => rfl
      | yes s h => simp [boolConvert, h]
      | no s h h' => simp [boolConvert, h, h']
      | one => simp [boolConvert]
      | zero => simp [boolConvert]
  · intro h
    unfold boolConvert
    split
    · exact absurd (.bool _) (h _)
    · split
      · rename_i s ht; exact absurd (.yes s ht) (h _)
      · split
        · rename_i s ht hf; exact absurd (.no s hf ht) (h _)
        · rfl
    · split
      · rename_i i hi
        rcases hi with rfl | rfl
        · exact absurd .zero (h _)
        · exact absurd .one (h _)
      · rfl
    · rfl

/-- Converting again changes nothing; strings with the same lower-case form convert alike. -/
theorem C56_idempotent_and_case (lower : Str → Str) (trues falses : List Str) :
    (∀ v r, boolConvert lower trues falses v = .ok r → boolConvert lower trues falses r = .ok r) ∧
    (∀ s t, lower s = lower t → boolConvert lower trues falses (.str s) = boolConvert lower trues falses (.str t)) := by
  constructor
  · intro v r h
    obtain ⟨b, rfl, _⟩ := ((C56_boolean lower trues falses v).1 r).1 h
    rfl
  · intro s t h; simp [boolConvert, h]

example : boolConvert id ["true".toList] ["false".toList] (.str "true".toList) = .ok (.bool true) ∧
    boolConvert id ["true".toList] ["false".toList] (.str "yes".toList) = .error .conversionError ∧
    boolConvert id ["true".toList] ["false".toList] (.int 2) = .error .conversionError := by decide +kernel

/-! ### C57 -/

/-- Whatever is converted, the result is a member of the enumeration. -/
theorem C57_members_only (conv : Str → Str) (enum : List Val) (v r : Val) (h : enumConvert conv enum v = .ok r) :
    Member r enum := by
  have idx : ∀ (i : Int) (m : Val), pyIndex enum i = some m → Member m enum := by
    intro i m hm
    refine ⟨m, ?_, .inl rfl⟩
    unfold pyIndex at hm
    split at hm
    · exact List.mem_of_getElem? hm
    · split at hm
      · exact List.mem_of_getElem? hm
      · simp at hm
  have ints : ∀ w : Val, (if pyIn w enum = true then (.ok w : Res Val)
      else if (Query.num w).getD 0 > (enum.length : Int) then .error .conversionError
      else match pyIndex enum ((Query.num w).getD 0) with
        | some m => .ok m
        | none => .error .indexError) = .ok r → Member r enum := by
    intro w h
    split at h
    · rename_i hin; simp at h; subst h; exact pyIn_member hin
    · split at h
      · simp at h
      · split at h
        · rename_i m hm; simp at h; subst h; exact idx _ _ hm
        · simp at h
  cases v with
  | str s =>
    simp only [enumConvert, Option.getD_some] at h
    split at h
    · rename_i hin; simp at h; subst h; exact pyIn_member hin
    · split at h
      · exact ints _ h
      · split at h
        · split at h
          · simp at h
          · simp at h; subst h; exact ⟨_, List.mem_cons_self .., .inl rfl⟩
        · simp at h
  | _ =>
    simp only [enumConvert, Bool.false_eq_true, if_false] at h
    split at h
    · exact ints _ h
    · simp at h

/-- Missing: members that are neither strings nor integers, and the exception for an index out of range. String
and integer members convert to themselves, and an index below the number of members that is not itself a
member converts to the member at that position. -/
theorem C57_self_and_index_partial (conv : Str → Str) (enum : List Val) :
    (∀ s, .str s ∈ enum → conv s = s → enumConvert conv enum (.str s) = .ok (.str s)) ∧
    (∀ i, .int i ∈ enum → enumConvert conv enum (.int i) = .ok (.int i)) ∧
    (∀ (i : Nat) (hi : i < enum.length), ¬ Member (.int i) enum → enumConvert conv enum (.int i) = .ok enum[i]) ∧
    (∀ i : Int, enum.length < i → ¬ Member (.int i) enum → enumConvert conv enum (.int i) = .error .conversionError) := by
  refine ⟨?_, ?_, ?_, ?_⟩
  · intro s hs hc
    simp [enumConvert, hc, pyIn_self hs]
  · intro i hi
    simp [enumConvert, asInteger, pyIn_self hi]
  · intro i hi hm
    have : pyIn (.int i) enum = false := by
      cases h : pyIn (.int i) enum with
      | false => rfl
      | true => exact absurd (pyIn_member h) hm
    simp only [enumConvert, asInteger, this, Query.num, Option.getD_some, Bool.false_eq_true, if_false]
    have h' : ¬ ((i : Int) > (enum.length : Int)) := by omega
    simp [h', pyIndex, hi]
  · intro i hi hm
    have : pyIn (.int i) enum = false := by
      cases h : pyIn (.int i) enum with
      | false => rfl
      | true => exact absurd (pyIn_member h) hm
    simp only [enumConvert, asInteger, this, Query.num, Option.getD_some, Bool.false_eq_true, if_false]
    have h' : i > (enum.length : Int) := by omega
    simp [h']

/-- The index equal to the number of members is an IndexError, whatever the enumeration. -/
theorem C57_index_violated (conv : Str → Str) (enum : List Val) (hm : ¬ Member (.int enum.length) enum) :
    enumConvert conv enum (.int enum.length) = .error .indexError := by
  have : pyIn (.int enum.length) enum = false := by
    cases h : pyIn (.int enum.length) enum with
    | false => rfl
    | true => exact absurd (pyIn_member h) hm
  simp only [enumConvert, asInteger, this, Query.num, Option.getD_some, Bool.false_eq_true, if_false]
  simp [pyIndex]

/-- None is not converted, not even when it is a member: UnboundLocalError. -/
theorem C57_none_violated (conv : Str → Str) (enum : List Val) :
    enumConvert conv (.none :: enum) .none = .error .unboundLocalError := by
  simp [enumConvert, asInteger]

/-- Texts that are neither members nor numbers: the empty text gives the first member, others raise ConversionError.
Lists and objects raise UnboundLocalError. -/
theorem C57_others (conv : Str → Str) (enum : List Val) :
    (∀ s, ¬ Member (.str (conv s)) enum → parseInt (conv s) = none → conv s ≠ [] →
      enumConvert conv enum (.str s) = .error .conversionError) ∧
    (∀ s m ms, enum = m :: ms → ¬ Member (.str (conv s)) enum → parseInt (conv s) = none → conv s = [] →
      enumConvert conv enum (.str s) = .ok m) ∧
    (∀ l, enumConvert conv enum (.list l) = .error .unboundLocalError) ∧
    (∀ d, enumConvert conv enum (.dict d) = .error .unboundLocalError) := by
  have hin : ∀ s, ¬ Member (.str (conv s)) enum → pyIn (.str (conv s)) enum = false := by
    intro s hm
    cases h : pyIn (.str (conv s)) enum with
    | false => rfl
    | true => exact absurd (pyIn_member h) hm
  refine ⟨?_, ?_, ?_, ?_⟩
  · intro s hm hp hne
    have hne' : (conv s).isEmpty = false := by simpa using hne
    simp [enumConvert, hin s hm, asInteger, hp, hne]
  · intro s m ms he hm hp hempty
    have h1 := hin s hm
    subst he
    rw [hempty] at h1 hp
    simp [enumConvert, hempty, h1, asInteger, hp]
  · intro l; simp [enumConvert, asInteger]
  · intro d; simp [enumConvert, asInteger]

example : ¬ Member (.str "c".toList) [.str "a".toList, .int 4] ∧ parseInt "c".toList = none ∧
    enumConvert id [.str "a".toList, .int 4] (.str []) = .ok (.str "a".toList) := by
  refine ⟨?_, by decide +kernel, by decide +kernel⟩
  rintro ⟨m, hm, h⟩
  simp at hm
  rcases hm with rfl | rfl <;> rcases h with h | h
  · cases h
  · revert h; decide +kernel
  · cases h
  · revert h; decide +kernel

example : enumConvert id [.str "a".toList, .str "b".toList] (.int 1) = .ok (.str "b".toList) ∧
    enumConvert id [.str "a".toList, .str "b".toList] (.str "1".toList) = .ok (.str "b".toList) ∧
    enumConvert id [.str "a".toList, .str "b".toList] (.int 2) = .error .indexError ∧
    enumConvert id [.str "a".toList, .str "b".toList] (.str "c".toList) = .error .conversionError := by decide +kernel

/-! ### C58 -/

/-- A key is included exactly when it is not excluded, is in `only` if that is given, is a key of the value if
one is given, and, when defaults are dropped, its item is not None. -/
theorem C58_included (key : Key) (value : Val) (excludes only : List Key) (noDefaults : Bool) (hf : Fits value key) :
    ∃ b, isIncluded key value excludes only noDefaults = .ok b ∧
      (b = true ↔ key ∉ excludes ∧ (only ≠ [] → key ∈ only) ∧
        ((value = .none ∧ noDefaults = false) ∨
          ∃ v, Item value key v ∧ (noDefaults = true → v ≠ .none))) := by
  unfold isIncluded
  by_cases hx : key ∈ excludes
  · exact ⟨false, by simp [hx], by simp [hx]⟩
  rw [if_neg hx]
  by_cases ho : (!only.isEmpty && decide (key ∉ only)) = true
  · refine ⟨false, by rw [if_pos ho], ?_⟩
    simp only [Bool.and_eq_true, Bool.not_eq_true', decide_eq_true_eq, List.isEmpty_eq_false_iff] at ho
    simp [ho.1, ho.2]
  rw [if_neg ho]
  have ho' : only ≠ [] → key ∈ only := by
    intro hne
    apply Classical.byContradiction
    intro hk
    apply ho
    simp [hne, hk]
  by_cases hv : value = .none
  · subst hv
    refine ⟨!noDefaults, by simp, ?_⟩
    have : ∀ v, ¬ Item .none key v := by intro v h; cases h
    simp [hx, this]
    intro _; exact ho'
  · rw [if_neg hv]
    have spec : ∃ o, itemOf value key = .ok o ∧ ∀ v, Item value key v ↔ o = some v := by
      cases value <;> cases key <;> simp only [Fits] at hf
      · exact absurd rfl hv
      · exact absurd rfl hv
      · refine ⟨_, rfl, ?_⟩
        intro v
        exact ⟨fun h => by cases h; assumption, fun h => .elem h⟩
      · refine ⟨_, rfl, ?_⟩
        intro v
        exact ⟨fun h => by cases h; assumption, fun h => .prop h⟩
    obtain ⟨o, h1, h2⟩ := spec
    rw [h1]
    cases o with
    | none =>
      refine ⟨false, rfl, ?_⟩
      simp [h2, hv]
    | some w =>
      refine ⟨_, rfl, ?_⟩
      simp only [h2, Option.some.injEq, hv, false_and, false_or]
      constructor
      · intro h
        refine ⟨hx, ho', w, rfl, ?_⟩
        intro hn; simpa [hn] using h
      · rintro ⟨_, _, v, rfl, h⟩
        cases noDefaults <;> simp_all

/-- Exclusion always wins. -/
theorem C58_exclusion_wins (key : Key) (value : Val) (excludes only : List Key) (noDefaults : Bool) (h : key ∈ excludes) :
    isIncluded key value excludes only noDefaults = .ok false := by
  simp [isIncluded, h]

example : isIncluded (.name ['a']) (.dict [(['a'], .int 1)]) [] [.name ['a']] true = .ok true ∧
    isIncluded (.name ['b']) (.dict [(['a'], .int 1)]) [] [] true = .ok false ∧
    isIncluded (.idx 1) (.list [.int 1]) [] [] false = .ok false := by decide +kernel

/-! ### C59 -/

/-- The items of what is deserialised: the items of a list, in order; the stripped pieces of a string between
the delimiters when splitting, else the string; any other value alone. Padded with None up to minItems; more
than one item is refused when only one is allowed. -/
theorem C59_array (a : ArrDecl) (split many : Bool) (value : Val) (hd : a.delimiter ≠ []) :
    ∃ items : List Val,
      ((∃ l, value = .list l ∧ items = l) ∨
       (∃ s, value = .str s ∧ split = false ∧ items = [value]) ∨
       (∃ s pieces, value = .str s ∧ split = true ∧ items = pieces.map (fun w => .str (strip isSpace w)) ∧
          joinWith a.delimiter pieces = s ∧ pieces ≠ [] ∧ ∀ w ∈ pieces, ¬ a.delimiter <:+: w) ∨
       ((∀ l, value ≠ .list l) ∧ (∀ s, value ≠ .str s) ∧ items = [value])) ∧
      (1 < items.length → many = false → arrDeserialize a split many value = .error .conversionError) ∧
      (items.length ≤ 1 ∨ many = true → ∃ r, arrDeserialize a split many value = .ok r ∧
        r.length = max items.length a.minItems ∧ items <+: r ∧ ∀ x ∈ r.drop items.length, x = .none) := by
  have fin : ∀ (items : List Val), arrDeserialize a split many value =
        (if items.length > 1 && !many then .error .conversionError
         else .ok (items ++ List.replicate (a.minItems - items.length) .none)) →
      (1 < items.length → many = false → arrDeserialize a split many value = .error .conversionError) ∧
      (items.length ≤ 1 ∨ many = true → ∃ r, arrDeserialize a split many value = .ok r ∧
        r.length = max items.length a.minItems ∧ items <+: r ∧ ∀ x ∈ r.drop items.length, x = .none) := by
    intro items e
    rw [e]
    constructor
    · intro h1 h2; simp [h1, h2]
    · intro h
      refine ⟨_, if_neg ?_, ?_, List.prefix_append _ _, ?_⟩
      · rcases h with h | h
        · simp; omega
        · simp [h]
      · simp; omega
      · intro x hx
        rw [List.drop_left] at hx
        exact (List.mem_replicate.1 hx).2
  cases value with
  | list l => exact ⟨l, .inl ⟨l, rfl, rfl⟩, fin l rfl⟩
  | str s =>
    cases split with
    | false => exact ⟨[.str s], .inr (.inl ⟨s, rfl, rfl, rfl⟩), fin _ rfl⟩
    | true =>
      refine ⟨(splitSep a.delimiter 0 s).map (fun w => .str (strip isSpace w)),
        .inr (.inr (.inl ⟨s, splitSep a.delimiter 0 s, rfl, rfl, rfl, ?_, splitSep_ne_nil _ _ _, splitSep_pieces _ hd _ _⟩)), fin _ ?_⟩
      · simpa using splitSep_join a.delimiter hd 0 s
      · have : a.delimiter.isEmpty = false := by simpa using hd
        simp [arrDeserialize, this]
  | none => exact ⟨[.none], .inr (.inr (.inr ⟨by simp, by simp, rfl⟩)), fin _ rfl⟩
  | bool b => exact ⟨[.bool b], .inr (.inr (.inr ⟨by simp, by simp, rfl⟩)), fin _ rfl⟩
  | int i => exact ⟨[.int i], .inr (.inr (.inr ⟨by simp, by simp, rfl⟩)), fin _ rfl⟩
  | dict d => exact ⟨[.dict d], .inr (.inr (.inr ⟨by simp, by simp, rfl⟩)), fin _ rfl⟩

example : arrDeserialize { minItems := 3 } true true (.str "a , b".toList) =
      .ok [.str "a".toList, .str "b".toList, .none] ∧
    arrDeserialize {} true false (.str "a,b".toList) = .error .conversionError ∧
    arrDeserialize { delimiter := "::".toList } true true (.str "a::b:c".toList) =
      .ok [.str "a".toList, .str "b:c".toList] := by decide +kernel

/-! ### C60 -/

/-- Array validation accepts any number of items and any duplicates: minItems, maxItems and uniqueItems are not
enforced (the value passes the rest of the schema, and has items with a hash). -/
theorem C60_limits_not_enforced (other : List Val → Bool) (a : ArrDecl) (l : List Val) (h : other l = true)
    (hh : l.all hashable = true) : arrValidate other a l = .ok l := by
  simp [arrValidate, h, hh]

/-- So an array with duplicate items, too many and too few of them, is valid. -/
theorem C60_limits_violated :
    arrValidate (fun _ => true) { uniqueItems := true, maxItems := some 1 } [.int 1, .int 1] = .ok [.int 1, .int 1] ∧
    arrValidate (fun _ => true) { minItems := 1 } [] = .ok [] := by decide +kernel

/-- Missing: everything but the other keywords of the schema. A value that breaks another keyword is refused. -/
theorem C60_other_keywords_partial (other : List Val → Bool) (a : ArrDecl) (l : List Val) (h : other l = false) :
    arrValidate other a l = .error .invalidValue := by
  simp [arrValidate, h]

/-! ### C61 -/

/-- Missing: the list of one empty string. Stripped strings without the delimiter, joined to a string that is
not empty and split again, come back as they were. -/
theorem C61_round_trip_partial (conv : Str → Str) (a : ArrDecl) (c : Char) (l : List Str) (hd : a.delimiter = [c])
    (hc : ∀ s ∈ l, conv s = s) (hs : ∀ s ∈ l, strip isSpace s = s ∧ c ∉ s) (hn : a.minItems ≤ l.length)
    (hne : arrAsString conv a l ≠ []) :
    arrDeserializeOr a true true (.str (arrAsString conv a l)) = .ok (l.map Val.str) := by
  have hl : l ≠ [] := by
    rintro rfl; simp [arrAsString, joinWith] at hne
  have hm : l.map conv = l := by
    rw [List.map_congr_left hc]; simp
  have ht : (Val.str (arrAsString conv a l)).truthy = true := by
    cases h : arrAsString conv a l with
    | nil => exact absurd h hne
    | cons x y => rfl
  unfold arrDeserializeOr
  rw [if_pos ht]
  simp only [arrDeserialize, if_true, hd, List.isEmpty_cons, Bool.false_eq_true, if_false, arrAsString, hm,
    splitSep_char]
  rw [splitOn_joinWith l hl (fun s h => (hs s h).2)]
  have : (l.map fun w => Val.str (strip isSpace w)) = l.map Val.str := List.map_congr_left (fun s h => by rw [(hs s h).1])
  rw [this]
  simp [Nat.sub_eq_zero_of_le hn]

/-- The list of one empty string is joined to the empty string, which is read as no items. -/
theorem C61_empty_string_violated :
    arrDeserializeOr {} true true (.str (arrAsString id {} [[]])) = .ok [] := by decide +kernel

example : arrDeserializeOr {} true true (.str (arrAsString id {} ["a".toList, [], "b c".toList])) =
    .ok [.str "a".toList, .str [], .str "b c".toList] := by decide +kernel

/-! ### C62 -/

/-- Missing: a default that is not truthy is replaced by None. Deserialising without evaluation keeps what is
given, adds the truthy defaults and None for the other declared properties, adds nothing else, puts the
required properties first, and fails exactly when a required property is neither given nor declared. -/
theorem C62_deserialize_partial (ord : List Str → List Str) (hord : Reorders ord) (o : ObjDecl)
    (value : List (Str × Val)) (hv : AList.WF value) (hp : AList.WF o.props) (hr : o.required.Nodup) :
    (objDeserialize ord o value = .error .keyError ∧
      ∃ k ∈ o.required, k ∉ value.map Prod.fst ∧ k ∉ o.props.map Prod.fst) ∨
    (∃ r, objDeserialize ord o value = .ok r ∧
      (∀ k ∈ o.required, k ∈ value.map Prod.fst ∨ k ∈ o.props.map Prod.fst) ∧
      (r.map Prod.fst).Nodup ∧ o.required <+: r.map Prod.fst ∧
      (∀ k v, AList.get? value k = some v → AList.get? r k = some v) ∧
      (∀ k d, AList.get? value k = none → AList.get? o.props k = some d →
        AList.get? r k = some (if d.truthy then d else .none)) ∧
      (∀ k, AList.get? value k = none → AList.get? o.props k = none → AList.get? r k = none)) := by
  have hc := completed_get? o.props value hp
  simp only at hc
  unfold objDeserialize
  simp only
  generalize hv1 : AList.update value ((o.props.filter (fun p => p.2.truthy)).filter (fun p => !AList.contains value p.1)) = v1 at hc ⊢
  generalize hv2 : AList.update v1 ((o.props.filter (fun p => !AList.contains v1 p.1)).map (fun p => (p.1, Val.none))) = v2 at hc ⊢
  have wf2 : AList.WF v2 := by
    rw [← hv2]; apply AList.wf_update; rw [← hv1]; exact AList.wf_update hv _
  obtain ⟨rest, e, hn, hm, -⟩ := Topo.C14_call_order ord hord o.required (v2.map Prod.fst) [] hr wf2 (by simp [AList.keys]) cyclic_nil
  rw [e]
  simp only
  have hcon : ∀ k, AList.contains v2 k = true ↔ (k ∈ value.map Prod.fst ∨ k ∈ o.props.map Prod.fst) := by
    intro k
    have m1 : ∀ d : List (Str × Val), k ∈ d.map Prod.fst ↔ AList.get? d k ≠ none := by
      intro d
      rw [Ne, AList.get?_eq_none]; simp [AList.keys]
    rw [m1, m1]
    unfold AList.contains
    rw [hc k]
    cases AList.get? value k <;> cases AList.get? o.props k <;> simp
  by_cases hall : (o.required ++ rest).all (AList.contains v2) = true
  · right
    rw [if_pos hall]
    refine ⟨_, rfl, ?_, ?_, ?_, ?_, ?_, ?_⟩
    · intro k hk
      rw [List.all_eq_true] at hall
      exact (hcon k).1 (hall k (by simp [hk]))
    · simpa [List.map_map, Function.comp_def] using hn
    · simp [List.map_map, Function.comp_def]
    all_goals
      have hmem : ∀ k, k ∈ o.required ++ rest ↔ AList.get? v2 k ≠ none := by
        intro k
        rw [List.mem_append, hm]
        have : k ∈ v2.map Prod.fst ↔ AList.get? v2 k ≠ none := by
          rw [Ne, AList.get?_eq_none]; simp [AList.keys]
        rw [this]
        constructor
        · rintro (h | h)
          · have := List.all_eq_true.1 hall k (by simp [h])
            intro h0; simp [AList.contains, h0] at this
          · exact h.1
        · intro h
          by_cases hk : k ∈ o.required
          · exact .inl hk
          · exact .inr ⟨h, hk⟩
    · intro k v hk
      have h2 : AList.get? v2 k = some v := by rw [hc k, hk]
      rw [get?_map_get, if_pos ((hmem k).2 (by rw [h2]; simp)), h2]; rfl
    · intro k d hk hd
      have h2 : AList.get? v2 k = some (if d.truthy then d else .none) := by rw [hc k, hk, hd]
      rw [get?_map_get, if_pos ((hmem k).2 (by rw [h2]; simp)), h2]; rfl
    · intro k hk hd
      have h2 : AList.get? v2 k = none := by rw [hc k, hk, hd]
      rw [get?_map_get, if_neg (fun h => (hmem k).1 h h2)]
  · left
    rw [if_neg hall]
    refine ⟨rfl, ?_⟩
    rw [List.all_eq_true] at hall
    apply Classical.byContradiction
    intro hno
    apply hall
    intro k hk
    rcases List.mem_append.1 hk with hk | hk
    · rw [hcon]
      apply Classical.byContradiction
      intro h
      exact hno ⟨k, hk, fun h1 => h (.inl h1), fun h1 => h (.inr h1)⟩
    · have := ((hm k).1 hk).1
      cases h : AList.get? v2 k with
      | none => rw [AList.get?_eq_none] at h; exact absurd this h
      | some v => simp [AList.contains, h]

/-- A property whose default is 0, False or empty is None after deserialisation without evaluation. -/
theorem C62_falsy_default_violated :
    objDeserialize id ⟨[(['n'], .int 0)], fun _ => false, false, [], [], none⟩ [] = .ok [(['n'], .none)] := by
  decide +kernel

example : objDeserialize id ⟨[(['a'], .int 3), (['b'], .none)], fun _ => false, false, [['c']], [], none⟩
      [(['c'], .int 1)] = .ok [(['c'], .int 1), (['a'], .int 3), (['b'], .none)] ∧
    objDeserialize id ⟨[(['a'], .int 3)], fun _ => false, false, [['c']], [], none⟩ [] = .error .keyError := by
  decide +kernel

/-! ### C63 -/

/-- A value is valid exactly when it has every required key, only known keys, and passes the rest of the
schema; anything else is an InvalidValue error. A valid value is returned as it is. -/
theorem C63_validate (other : List (Str × Val) → Bool) (o : ObjDecl) (value : List (Str × Val)) :
    let valid := (∀ k ∈ o.required, k ∈ value.map Prod.fst) ∧ (∀ k ∈ value.map Prod.fst, Known o k) ∧ other value = true
    (valid → objValidate other o value = .ok value) ∧ (¬ valid → objValidate other o value = .error .invalidValue) := by
  have m1 : ∀ (d : List (Str × Val)) k, k ∈ d.map Prod.fst ↔ AList.contains d k = true := by
    intro d k
    rw [AList.contains_iff]; rfl
  have h1 : (value.any (fun p => !AList.contains o.props p.1 && !o.pattern p.1 && !o.additional) = false) ↔
      ∀ k ∈ value.map Prod.fst, Known o k := by
    rw [List.any_eq_false]
    simp only [Known, m1 o.props]
    constructor
    · intro h k hk
      obtain ⟨p, hp, rfl⟩ := List.mem_map.1 hk
      have := h p hp
      revert this
      cases AList.contains o.props p.1 <;> cases o.pattern p.1 <;> cases o.additional <;> simp
    · intro h p hp
      have := h p.1 (List.mem_map.2 ⟨p, hp, rfl⟩)
      revert this
      cases AList.contains o.props p.1 <;> cases o.pattern p.1 <;> cases o.additional <;> simp
  have h2 : (o.required.any (fun k => !AList.contains value k) = false) ↔ ∀ k ∈ o.required, k ∈ value.map Prod.fst := by
    rw [List.any_eq_false]
    constructor
    · intro h k hk; rw [m1]; simpa using h k hk
    · intro h k hk; simpa using (m1 _ _).1 (h k hk)
  intro valid
  unfold objValidate
  constructor
  · rintro ⟨a, b, c⟩
    rw [h1.2 b, h2.2 a, c]; rfl
  · intro hn
    split
    · rfl
    · split
      · rfl
      · split
        · rfl
        · rename_i a b c
          exact absurd ⟨h2.1 (by simpa using b), h1.1 (by simpa using a), by simpa using c⟩ hn

example : objValidate (fun _ => true) ⟨[(['a'], .none)], fun k => k.head? == some 'x', false, [['a']], [], none⟩
      [(['a'], .int 1), (['x', 'y'], .int 2)] = .ok [(['a'], .int 1), (['x', 'y'], .int 2)] ∧
    objValidate (fun _ => true) ⟨[(['a'], .none)], fun k => k.head? == some 'x', false, [['a']], [], none⟩
      [(['a'], .int 1), (['b'], .int 2)] = .error .invalidValue := by decide +kernel

/-! ### C64, C102 -/

/-- Missing: required properties, which are printed in any case. Any other serialised key is a key of the
value that is not excluded, and is selected when there is a selection. -/
theorem C64_excludes_only_partial (ser : Val → Val) (ord : List Str → List Str) (hord : Reorders ord) (dflt d' : List Str)
    (o : ObjDecl) (p : PrintOpts) (value r : List (Str × Val)) (h : objSerialize ser ord dflt o p value = (.ok r, d'))
    (k : Str) (hk : k ∈ r.map Prod.fst) (hr : k ∉ o.required) :
    k ∈ value.map Prod.fst ∧ k ∉ p.excludes.getD dflt ∧ (p.only ≠ [] → k ∈ p.only) ∧ (p.noReadOnly = true → k ∉ o.readOnly) := by
  obtain ⟨a, b | b, -⟩ := (serialize_keys ser ord hord dflt d' o p value r h k).1 hk
  · exact absurd b hr
  · exact ⟨a, b.1, b.3, b.2⟩

/-- Defaults included, the keys serialised are the required keys of the value and the wanted ones, each once. -/
theorem C64_exact_partial (ser : Val → Val) (ord : List Str → List Str) (hord : Reorders ord) (dflt : List Str)
    (o : ObjDecl) (p : PrintOpts) (value : List (Str × Val)) (hv : AList.WF value) (hn : p.noDefaults = false) :
    ∃ r d', objSerialize ser ord dflt o p value = (.ok r, d') ∧ (r.map Prod.fst).Nodup ∧
      ∀ k, k ∈ r.map Prod.fst ↔ k ∈ value.map Prod.fst ∧ (k ∈ o.required ∨ Wanted (p.excludes.getD dflt) o p value k) := by
  have e1 : ∀ d v, objPrintOrder ord d o p v = (.ok (printOrder ord d o p v).1, (printOrder ord d o p v).2) := by
    intro d v
    unfold objPrintOrder
    simp [hn]
  have key : ∃ r d', objSerialize ser ord dflt o p value = (.ok r, d') ∧ (r.map Prod.fst).Nodup := by
    unfold objSerialize
    rw [e1]
    simp only
    rw [e1]
    refine ⟨_, _, rfl, ?_⟩
    rw [List.map_map]
    have : ∀ (l : List Str) (f : Str → Str × Val), (∀ x, (f x).1 = x) → l.map (Prod.fst ∘ f) = l := by
      intro l f hf
      conv => rhs; rw [← List.map_id l]
      exact List.map_congr_left (fun x _ => hf x)
    rw [this]
    · apply printOrder_nodup ord hord
      unfold AList.WF AList.keys
      rw [List.map_map]
      rw [this _ (fun k => (k, (AList.get? value k).getD Val.none)) (fun _ => rfl)]
      exact printOrder_nodup ord hord _ _ _ _ hv
    · intro x
      repeat' split
      all_goals rfl
  obtain ⟨r, d', h, hnd⟩ := key
  refine ⟨r, d', h, hnd, ?_⟩
  intro k
  rw [serialize_keys ser ord hord dflt d' o p value r h k]
  simp [hn]

/-- The items: every serialised property that is not required is its serialised value; a required one is its serialised
value or None, and its value when the options want it. -/
theorem C64_values (ser : Val → Val) (ord : List Str → List Str) (hord : Reorders ord) (dflt d' : List Str)
    (o : ObjDecl) (p : PrintOpts) (value r : List (Str × Val)) (h : objSerialize ser ord dflt o p value = (.ok r, d'))
    (k : Str) (v : Val) (hk : (k, v) ∈ r) :
    ∃ x, AList.get? value k = some x ∧ (v = ser x ∨ (v = .none ∧ k ∈ o.required)) ∧
      (Wanted (p.excludes.getD dflt) o p value k → v = ser x) := by
  have hkr : k ∈ r.map Prod.fst := List.mem_map.2 ⟨_, hk, rfl⟩
  obtain ⟨hin, hw, -⟩ := (serialize_keys ser ord hord dflt d' o p value r h k).1 hkr
  unfold objSerialize at h
  generalize h1 : objPrintOrder ord dflt o p value = G at h
  obtain ⟨g, d1⟩ := G
  cases g with
  | error e => simp at h
  | ok ks =>
    simp only at h
    generalize h2 : objPrintOrder ord d1 o p (ks.map (fun k => (k, (AList.get? value k).getD .none))) = G at h
    obtain ⟨g, d2⟩ := G
    cases g with
    | error e => simp at h
    | ok ks2 =>
      simp only [Prod.mk.injEq, Except.ok.injEq] at h
      obtain ⟨h3, -⟩ := h
      rw [← h3] at hk
      obtain ⟨k', hk', he⟩ := List.mem_map.1 hk
      have hkk : k' = k := by
        have := congrArg Prod.fst he
        rw [apply_ite Prod.fst] at this
        simpa using this
      subst hkk
      have hks : k' ∈ ks := by
        have := (objPrintOrder_sub h2).1.subset hk'
        have := ((printOrder_mem ord hord d1 o p _ k').1 this).1
        simpa [List.map_map, Function.comp_def] using this
      cases hx : AList.get? value k' with
      | none => rw [AList.get?_eq_none] at hx; exact absurd hin hx
      | some x =>
        have hget : AList.get? (ks.map (fun k => (k, (AList.get? value k).getD Val.none))) k' = some x := by
          rw [get?_map_get, if_pos hks, hx]; rfl
        rw [hget] at he
        have hwant : Wanted (p.excludes.getD dflt) o p value k' → v = ser x := by
          intro w
          obtain ⟨b, hb, hiff⟩ := C58_included (.name k')
            (.dict (ks.map (fun k => (k, (AList.get? value k).getD Val.none)))) ((givenExcludes o p).map Key.name)
            (p.only.map Key.name) p.noDefaults trivial
          have c1 : Key.name k' ∉ (givenExcludes o p).map Key.name := by
            intro hm
            obtain ⟨y, hy, hyk⟩ := List.mem_map.1 hm
            cases hyk
            unfold givenExcludes at hy
            cases hex : p.excludes with
            | none => rw [hex] at hy; cases hy
            | some ex =>
              rw [hex] at hy
              rcases List.mem_append.1 hy with hy | hy
              · have := w.notExcluded; rw [hex] at this; exact this hy
              · split at hy
                · rename_i hr; exact w.writable hr hy
                · cases hy
          have c2 : p.only.map Key.name ≠ [] → Key.name k' ∈ p.only.map Key.name := by
            intro hne
            exact List.mem_map.2 ⟨k', w.selected (by intro h; apply hne; rw [h]; rfl), rfl⟩
          have hbt : b = true := hiff.2 ⟨c1, c2, .inr ⟨x, .prop hget, fun hn hx0 => w.notNone hn (hx.trans (by rw [hx0]))⟩⟩
          rw [hb, hbt] at he
          simp only [if_true, Option.getD_some] at he
          cases he; rfl
        refine ⟨x, rfl, ?_, hwant⟩
        rcases hw with hr | hw
        · have pick : ∀ (c : Prop) [Decidable c], (if c then (k', ser x) else (k', Val.none)) = (k', v) →
              v = ser x ∨ (v = .none ∧ k' ∈ o.required) := by
            intro c _ hc
            by_cases hcc : c
            · rw [if_pos hcc] at hc; cases hc; exact .inl rfl
            · rw [if_neg hcc] at hc; cases hc; exact .inr ⟨rfl, hr⟩
          exact pick _ he
        · exact .inl (hwant hw)

example : objSerialize (fun _ => .str ['s']) id [] ⟨[(['a'], .none)], fun _ => false, false, [['a']], [], none⟩
      { excludes := some [['a']], noDefaults := false } [(['a'], .int 1), (['b'], .int 2)] =
    (.ok [(['a'], .none), (['b'], .str ['s'])], []) := by decide +kernel

/-- An excluded property is printed when it is required, with None as its value. -/
theorem C64_required_violated :
    (objSerialize id id [] ⟨[(['a'], .none)], fun _ => false, false, [['a']], [], none⟩ { excludes := some [['a']] }
      [(['a'], .int 1)]).1 = .ok [(['a'], .none)] := by decide +kernel

example : (objSerialize id id [] ⟨[], fun _ => false, true, [], [['r']], none⟩
      { excludes := some [['a']], noReadOnly := true, noDefaults := false }
      [(['a'], .int 1), (['b'], .int 2), (['r'], .int 3)]).1 = .ok [(['b'], .int 2)] := by decide +kernel

/-- Missing: types not built by the object protocol, and values that are not numbers under a negated alias. Leaving
defaults out, the serialised keys are the required or wanted ones that do not have their default. -/
theorem C102_defaults_dropped_partial (ser : Val → Val) (ord : List Str → List Str) (hord : Reorders ord) (dflt : List Str)
    (o : ObjDecl) (ns : List Str) (hneg : o.negated = some ns) (p : PrintOpts) (hn : p.noDefaults = true)
    (value : List (Str × Val)) (hop : Opposable o ns value) :
    ∃ r d', objSerialize ser ord dflt o p value = (.ok r, d') ∧
      ∀ k, k ∈ r.map Prod.fst ↔ k ∈ value.map Prod.fst ∧ (k ∈ o.required ∨ Wanted (p.excludes.getD dflt) o p value k) ∧
        ¬ HasItsDefault o ns value k := by
  have step : ∀ d v, Opposable o ns v → ∃ ks d', objPrintOrder ord d o p v = (.ok ks, d') ∧
      ∀ k ∈ ks, k ∈ v.map Prod.fst := by
    intro d v hv
    unfold objPrintOrder
    have hm := fun k => printOrder_mem ord hord d o p v k
    generalize printOrder ord d o p v = G at hm
    obtain ⟨ks, d1⟩ := G
    obtain ⟨r, hr⟩ := dropDefaults_ok o v ks (fun k hk =>
      let ⟨b, hb, _⟩ := atDefault_iff o ns hneg v k hv ((hm k).1 hk).1
      ⟨b, hb⟩)
    refine ⟨r, d1, by simp [hn, hr], ?_⟩
    intro k hk
    exact ((hm k).1 ((dropDefaults_sublist o v ks r hr).1.subset hk)).1
  obtain ⟨ks, d1, h1, hs⟩ := step dflt value hop
  obtain ⟨ks2, d2, h2, -⟩ := step d1 (ks.map (fun k => (k, (AList.get? value k).getD .none))) (by
    intro k v hv hk' hd
    rw [get?_map_get] at hv
    split at hv
    · rename_i hks
      cases hv
      cases hg : AList.get? value k with
      | none => rw [AList.get?_eq_none] at hg; exact absurd (hs k hks) hg
      | some x => exact hop k x hg hk' hd
    · cases hv)
  have key : ∃ r d', objSerialize ser ord dflt o p value = (.ok r, d') := by
    unfold objSerialize
    rw [h1]; simp only
    rw [h2]
    exact ⟨_, _, rfl⟩
  obtain ⟨r, d', h⟩ := key
  refine ⟨r, d', h, ?_⟩
  intro k
  rw [serialize_keys ser ord hord dflt d' o p value r h k]
  constructor
  · rintro ⟨a, b, c⟩
    refine ⟨a, b, ?_⟩
    obtain ⟨x, hx, hi⟩ := atDefault_iff o ns hneg value k hop a
    rcases c with c | c
    · simp [hn] at c
    · rw [hx] at c; simp at c; subst c; simpa using hi
  · rintro ⟨a, b, c⟩
    refine ⟨a, b, .inr ?_⟩
    obtain ⟨x, hx, hi⟩ := atDefault_iff o ns hneg value k hop a
    rw [hx]
    cases x with
    | false => rfl
    | true => exact absurd (hi.1 rfl) c

example : Opposable ⟨[(['a'], .int 3), (['b'], .int 4)], fun _ => false, false, [], [], some [['a']]⟩ [['a']]
      [(['a'], .int (-3)), (['b'], .int 4), (['c'], .none)] ∧
    (objSerialize id id [] ⟨[(['a'], .int 3), (['b'], .int 4)], fun _ => false, false, [], [], some [['a']]⟩ {}
      [(['a'], .int (-3)), (['b'], .int 4), (['c'], .str ['x'])]).1 = .ok [(['c'], .str ['x'])] ∧
    (objSerialize id id [] ⟨[(['a'], .int 3), (['b'], .int 4)], fun _ => false, false, [], [], some [['a']]⟩ {}
      [(['a'], .int 3)]).1 = .ok [(['a'], .int 3)] := by
  refine ⟨?_, by decide +kernel, by decide +kernel⟩
  intro k v hv hk _
  simp at hk; subst hk
  left
  refine ⟨-3, ?_⟩
  have : some v = some (Val.int (-3)) := hv.symm.trans (by decide +kernel)
  cases this; rfl

/-- A text under a negated alias that has a default makes serialisation without defaults raise TypeError. -/
theorem C102_negated_violated :
    (objSerialize id id [] ⟨[(['a'], .str ['x'])], fun _ => false, false, [], [], some [['a']]⟩ {} [(['a'], .str ['y'])]).1 =
      .error .typeError := by decide +kernel

/-- A plain object type with a (truthy) default cannot be serialised without defaults. -/
theorem C102_plain_object_violated :
    (objSerialize id id [] ⟨[(['a'], .int 3)], fun _ => false, false, [], [], none⟩ {} [(['a'], .int 1)]).1 =
      .error .attributeError := by decide +kernel

/-- A required property with its default is left out, and cannot be read back unless the default is known. -/
example : (objSerialize id id [] ⟨[(['a'], .int 3), (['b'], .int 4)], fun _ => false, false, [['a']], [], some []⟩ {}
      [(['a'], .int 3), (['b'], .int 5)]).1 = .ok [(['b'], .int 5)] := by decide +kernel

/-! ### C65 -/

/-- Missing: calls that leave the read-only properties out and give no `excludes`. After any history without
such calls, what a call prints is what it prints at the start. -/
theorem C65_history_partial (ord : List Str → List Str) (dflt : List Str)
    (h : List (ObjDecl × PrintOpts × List (Str × Val)))
    (hh : ∀ c ∈ h, c.2.1.noReadOnly = true → c.2.1.excludes ≠ none)
    (o : ObjDecl) (p : PrintOpts) (value : List (Str × Val)) :
    printOrder ord (printAll ord dflt h) o p value = printOrder ord dflt o p value := by
  have : printAll ord dflt h = dflt := by
    induction h generalizing dflt with
    | nil => rfl
    | cons c h ih =>
      obtain ⟨co, cp, cv⟩ := c
      rw [printAll]
      have h1 := hh _ (List.mem_cons_self ..)
      simp only at h1
      have : (printOrder ord dflt co cp cv).2 = dflt := by
        unfold printOrder
        cases he : cp.excludes with
        | some ex => simp
        | none =>
          cases hn : cp.noReadOnly with
          | false => simp
          | true => exact absurd he (h1 hn)
      rw [this]
      exact ih dflt (fun c hc => hh c (List.mem_cons_of_mem _ hc))
  rw [this]

/-- A call that gives its `excludes` prints the same whatever came before it. -/
theorem C65_explicit_partial (ord : List Str → List Str) (d d' : List Str) (o : ObjDecl) (p : PrintOpts)
    (value : List (Str × Val)) (hp : p.excludes ≠ none) : (printOrder ord d o p value).1 = (printOrder ord d' o p value).1 := by
  unfold printOrder
  cases he : p.excludes with
  | none => exact absurd he hp
  | some ex => simp

/-- Printing one object without its read-only properties hides the properties of the same name of every other
object, whatever its type. -/
theorem C65_history_violated :
    let a : ObjDecl := ⟨[], fun _ => false, true, [], [['x']], none⟩
    let b : ObjDecl := ⟨[], fun _ => false, true, [], [], none⟩
    (printOrder id [] b {} [(['x'], .int 1)]).1 = [['x']] ∧
    (printOrder id (printAll id [] [(a, { noReadOnly := true }, [])]) b {} [(['x'], .int 1)]).1 = [] := by
  decide +kernel

example : ∃ h : List (ObjDecl × PrintOpts × List (Str × Val)), h ≠ [] ∧
    ∀ c ∈ h, c.2.1.noReadOnly = true → c.2.1.excludes ≠ none :=
  ⟨[(⟨[], fun _ => false, true, [], [['x']], none⟩, { noReadOnly := true, excludes := some [] }, [])], by simp, by simp⟩

end Verif.Types
