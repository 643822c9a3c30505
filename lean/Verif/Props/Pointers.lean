import Verif.Spec.Pointers
/-
C287: the identifiers under which nested schemas are built.
-/
namespace Verif.Pointers
open Builder (Schema Req protocolReqs objectReqs arrayReqs itemReqs typeReqs hasInfix slash)

theorem escape_simple {k : Str} (h : Simple k) : escape k = k := by
  obtain ⟨h1, h2⟩ := h
  induction k with
  | nil => rfl
  | cons c k ih =>
    simp only [List.mem_cons, not_or] at h1 h2
    have := ih h1.2 h2.2
    simp only [escape, List.flatMap_cons] at this ⊢
    rw [if_neg (Ne.symm h1.1), if_neg (Ne.symm h2.1), this]
    rfl

theorem pointer_slash (i : Str) (a : String) {b : Str} (ha : Simple a.toList) (h : Simple b) :
    slash i a b = pointer i [a.toList, b] := by
  simp [slash, pointer, escape_simple ha, escape_simple h]

theorem simple_props : Simple "properties".toList := by unfold Simple; decide
theorem simple_patterns : Simple "patternProperties".toList := by unfold Simple; decide
theorem simple_items : Simple "items".toList := by unfold Simple; decide
theorem simple_additional : Simple "additionalProperties".toList := by unfold Simple; decide

theorem pointer_one (i : Str) {a : Str} (h : Simple a) : pointer i [a] = i ++ '/' :: a := by
  simp [pointer, escape_simple h]

theorem showNat_simple (k : Nat) : Simple (showNat k) :=
  ⟨fun h => absurd (isDigit_of_mem_showNat h) (by decide), fun h => absurd (isDigit_of_mem_showNat h) (by decide)⟩

theorem mem_itemReqs {i : Str} {l : List Schema} {k : Nat} {r : Req} :
    r ∈ itemReqs i k l ↔ ∃ n s, l[n]? = some s ∧ r = .build (slash i "items" (showNat (k + n))) (some s) := by
  induction l generalizing k with
  | nil => simp [itemReqs]
  | cons s l ih =>
    simp only [itemReqs, List.mem_cons, ih]
    constructor
    · rintro (rfl | ⟨n, s', h, rfl⟩)
      · exact ⟨0, s, rfl, rfl⟩
      · exact ⟨n + 1, s', by simpa using h, by rw [show k + 1 + n = k + (n + 1) by omega]⟩
    · rintro ⟨n, s', h, rfl⟩
      cases n with
      | zero => left; simp at h; subst h; rfl
      | succ n => right; exact ⟨n, s', by simpa using h, by rw [show k + 1 + n = k + (n + 1) by omega]⟩

/-- Every schema built for another one stands in it (or is the default `true` for additional properties), and its
identifier is the pointer to it, where the keys need no escape. -/
theorem C287_leads_partial (i j : Str) (sch s : Schema) (h : Req.build j (some s) ∈ protocolReqs i sch) :
    (∃ path, Under sch path s ∧ ((∀ k ∈ path, Simple k) → j = pointer i path)) ∨
      (s = .bool true ∧ j = pointer i ["additionalProperties".toList]) := by
  cases sch with
  | bool b => simp [protocolReqs] at h
  | node ty ref ext defs props patterns add items l f rels o =>
    simp only [protocolReqs] at h
    split at h
    · simp only [objectReqs, List.mem_append, List.mem_map, List.mem_singleton, or_assoc] at h
      rcases h with ⟨_, _, h⟩ | ⟨_, _, h⟩ | ⟨⟨k, s'⟩, hm, h⟩ | ⟨⟨k, s'⟩, hm, h⟩ | h | ⟨_, _, h⟩
      · cases h
      · cases h
      · cases h
        exact .inl ⟨_, .prop hm, fun hp => pointer_slash i _ simple_props (hp _ (by simp))⟩
      · cases h
        exact .inl ⟨_, .pattern hm, fun hp => pointer_slash i _ simple_patterns (hp _ (by simp))⟩
      · cases h
        have hj : i ++ "/additionalProperties".toList = pointer i ["additionalProperties".toList] := by
          rw [pointer_one i simple_additional]; rfl
        cases add with
        | none => exact .inr ⟨rfl, hj⟩
        | some s => exact .inl ⟨_, .additional, fun _ => hj⟩
      · cases h
    · split at h
      · unfold arrayReqs at h
        split at h
        · cases items with
          | none => cases h
          | some s' =>
            simp only [List.mem_singleton, Req.build.injEq, Option.some.injEq] at h
            obtain ⟨rfl, rfl⟩ := h
            exact .inl ⟨_, .items, fun _ => by rw [pointer_one i simple_items]; rfl⟩
        · obtain ⟨n, s', hn, hr⟩ := mem_itemReqs.1 h
          cases hr
          rw [Nat.zero_add]
          exact .inl ⟨_, .item n hn, fun hp => pointer_slash i _ simple_items (showNat_simple n)⟩
      · simp only [typeReqs, List.mem_append, List.mem_map] at h
        rcases h with ⟨_, _, h⟩ | ⟨_, _, h⟩ <;> cases h

theorem hasInfix_iff (a s : Str) : hasInfix a s = true ↔ a <:+: s := by
  induction s with
  | nil => simp [hasInfix]
  | cons c s ih => rw [hasInfix, Bool.or_eq_true, ih, List.isPrefixOf_iff_prefix, List.infix_cons_iff]

/-- The other way round: what stands in the schema of an object is built under the pointer to it, and so is what stands in
that of an array. -/
theorem C287_built_partial (i : Str) (sch s : Schema) (path : List Str) (h : Under sch path s)
    (hs : ∀ k ∈ path, Simple k) :
    ("object".toList <:+: typeOf sch → path.head? ≠ some "items".toList →
      Req.build (pointer i path) (some s) ∈ protocolReqs i sch) ∧
    (¬ "object".toList <:+: typeOf sch → "array".toList <:+: typeOf sch →
      path.head? = some "items".toList → Req.build (pointer i path) (some s) ∈ protocolReqs i sch) := by
  rw [← hasInfix_iff, ← hasInfix_iff, Bool.not_eq_true]
  have hk : ∀ k, k ∈ path → Simple k := hs
  cases h with
  | prop h =>
    rw [← pointer_slash i _ simple_props (hk _ (by simp))]
    refine ⟨fun ho _ => ?_, fun _ _ hh => absurd (Option.some.inj hh) (by decide)⟩
    simp only [typeOf] at ho
    simp only [protocolReqs, ho, if_true, objectReqs, List.mem_append, List.mem_map]
    exact .inl (.inl (.inl (.inr ⟨_, h, rfl⟩)))
  | pattern h =>
    rw [← pointer_slash i _ simple_patterns (hk _ (by simp))]
    refine ⟨fun ho _ => ?_, fun _ _ hh => absurd (Option.some.inj hh) (by decide)⟩
    simp only [typeOf] at ho
    simp only [protocolReqs, ho, if_true, objectReqs, List.mem_append, List.mem_map]
    exact .inl (.inl (.inr ⟨_, h, rfl⟩))
  | additional =>
    refine ⟨fun ho _ => ?_, fun _ _ hh => absurd (Option.some.inj hh) (by decide)⟩
    simp only [typeOf] at ho
    simp only [protocolReqs, ho, if_true, objectReqs, List.mem_append, List.mem_singleton]
    exact .inl (.inr (by rw [pointer_one i simple_additional]; rfl))
  | items =>
    refine ⟨fun _ hh => absurd rfl hh, fun ho ha _ => ?_⟩
    simp only [typeOf] at ho ha
    simp only [protocolReqs, ho, ha, if_true, arrayReqs, pointer_one i simple_items]
    exact List.mem_singleton.2 rfl
  | @item ty ref ext defs props patterns add items l f rels o _ k h =>
    refine ⟨fun _ hh => absurd rfl hh, fun ho ha _ => ?_⟩
    simp only [typeOf] at ho ha
    rw [← pointer_slash i _ simple_items (showNat_simple k)]
    simp only [protocolReqs, ho, ha, if_true, arrayReqs]
    cases l with
    | nil => simp at h
    | cons x l => exact mem_itemReqs.2 ⟨k, s, h, by rw [Nat.zero_add]⟩

/-- Keys are not escaped: the property `a/b` is built under the pointer to what stands in the property `a` under `b`, which
is not the one that leads to it. -/
theorem C287_escape_violated (i a b : Str) (s : Schema) (ha : Simple a) (hb : Simple b) :
    ∃ sch, Under sch ["properties".toList, a ++ '/' :: b] s ∧
      Req.build (pointer i ["properties".toList, a, b]) (some s) ∈ protocolReqs i sch ∧
      pointer i ["properties".toList, a, b] ≠ pointer i ["properties".toList, a ++ '/' :: b] := by
  refine ⟨.node (some "object".toList) none [] [] [(a ++ '/' :: b, s)] [] none none [] none [] false, .prop (by simp), ?_, ?_⟩
  · have : hasInfix "object".toList "object".toList = true := by decide
    simp only [protocolReqs, Option.getD_some, this, if_true, objectReqs]
    have e : pointer i ["properties".toList, a, b] = slash i "properties" (a ++ '/' :: b) := by
      simp only [pointer, slash, List.flatMap_cons, List.flatMap_nil, escape_simple simple_props, escape_simple ha,
        escape_simple hb]
      simp
    rw [e]
    simp
  · intro h
    have h1 : escape (a ++ '/' :: b) = a ++ '~' :: '1' :: b := by
      have e1 := escape_simple ha
      have e2 := escape_simple hb
      simp only [escape] at e1 e2 ⊢
      simp [e1, e2]
    simp only [pointer, List.flatMap_cons, List.flatMap_nil, h1, escape_simple ha, escape_simple hb, List.append_nil,
      List.append_cancel_left_eq] at h
    simp at h

/-- So two schemas may share an identifier: the items of the property `a` and the property `a/items`. -/
theorem C287_shared_violated (i a : Str) (s t : Schema) :
    ∃ (sch arr : Schema), Under sch ["properties".toList, a] arr ∧ Under arr ["items".toList] s ∧
      Under sch ["properties".toList, a ++ "/items".toList] t ∧
      Req.build (slash i "properties" a) (some arr) ∈ protocolReqs i sch ∧
      Req.build (slash i "properties" a ++ "/items".toList) (some s) ∈ protocolReqs (slash i "properties" a) arr ∧
      Req.build (slash i "properties" a ++ "/items".toList) (some t) ∈ protocolReqs i sch := by
  let arr : Schema := .node (some "array".toList) none [] [] [] [] none (some s) [] none [] false
  have h1 : hasInfix "object".toList "object".toList = true := by decide
  have h2 : hasInfix "object".toList "array".toList = false := by decide
  have h3 : hasInfix "array".toList "array".toList = true := by decide
  refine ⟨.node (some "object".toList) none [] [] [(a, arr), (a ++ "/items".toList, t)] [] none none [] none [] false, arr,
    .prop (by simp), .items, .prop (by simp), ?_, ?_, ?_⟩
  · simp only [protocolReqs, Option.getD_some, h1, if_true, objectReqs]
    simp
  · simp only [arr, protocolReqs, Option.getD_some, h2, h3, arrayReqs]
    simp
  · simp only [protocolReqs, Option.getD_some, h1, if_true, objectReqs]
    simp [slash]

example : Under (.node (some "array".toList) none [] [] [] [] none none [.bool true, .bool false] none [] false)
    ["items".toList, "1".toList] (.bool false) := .item 1 rfl
example : pointer "u#".toList ["properties".toList, "a/b".toList] = "u#/properties/a~1b".toList := by decide +kernel
example : "array".toList <:+: "ndarray".toList ∧ ¬ "object".toList <:+: "ndarray".toList := by
  rw [← hasInfix_iff, ← hasInfix_iff]; decide +kernel
example : Simple "name".toList := by unfold Simple; decide

end Verif.Pointers
