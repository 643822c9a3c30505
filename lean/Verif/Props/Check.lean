import Verif.Props.Compare
import Verif.Props.Keys
import Verif.Spec.Check
/-
C304 evaluating foreign keys, C305 checks of types, C306 checks of enumerations, C307 checks of foreign keys, C308 detecting
a type.
-/
namespace Verif.Check
open Spec

/-! ### C304 -/

/-- **C304**, what holds: an entity is evaluated to its key if the key is valid. -/
theorem C304_key_partial (ev : Val → Val) (names : List Str) (types : List (Val → Res Val)) (valid : Val → Option Exc)
    (session : List Keys.Repo) (validate : Bool) (e : Keys.Entity) (h : names.length = types.length) (out : Out) :
    evaluate ev names types valid session validate false (.entity e) = .ok out ↔
      ∃ vs ws v, Keys.Spec.Has e names vs ∧ Keys.Spec.Conv types vs ws ∧ Keys.Spec.Key ws v ∧ out = .key v ∧
        (validate = true → valid v = none) := by
  have hc := fun v => Keys.C153_entity ev names types e v h
  unfold evaluate
  cases hx : Keys.convert ev names types (.entity e) with
  | error x =>
    simp only [reduceCtorEq, false_iff]
    rintro ⟨vs, ws, v, a, b, c, _⟩
    have := (hc v).2 ⟨vs, ws, a, b, c⟩
    rw [hx] at this; cases this
  | ok v =>
    obtain ⟨vs, ws, a, b, c⟩ := (hc v).1 hx
    constructor
    · intro ho
      refine ⟨vs, ws, v, a, b, c, ?_⟩
      cases validate with
      | false => simp at ho; exact ⟨ho.symm, by simp⟩
      | true =>
        cases hv : valid v with
        | some x => simp [hv] at ho
        | none => simp [hv] at ho; exact ⟨ho.symm, fun _ => rfl⟩
    · rintro ⟨vs', ws', v', a', b', c', rfl, hv⟩
      have := (hc v').2 ⟨vs', ws', a', b', c'⟩
      rw [hx] at this
      cases this
      cases validate with
      | false => simp
      | true => simp [hv rfl]

/-- **C304** fails: with `resolve`, whatever is in the session, no object is found. -/
theorem C304_resolve_violated (ev : Val → Val) (names : List Str) (types : List (Val → Res Val)) (valid : Val → Option Exc)
    (session : List Keys.Repo) (validate : Bool) (a : Keys.Arg) (out : Out) :
    evaluate ev names types valid session validate true a ≠ .ok out := by
  unfold evaluate
  split
  · simp
  · split
    · simp
    · simp only [if_true]
      unfold Keys.resolve freshRepos
      split
      · simp
      · rename_i h
        split at h
        · simp at h
        · simp at h

private def ent : Keys.Entity := ⟨10, fun n => if n = "id".toList then .ok (.int 0) else .error .attributeError⟩
private def idT : Val → Res Val := .ok

example : evaluate id ["id".toList] [idT] (fun _ => none) Keys.stores true false (.entity ent) = .ok (.key (.int 0)) ∧
    evaluate id ["id".toList] [idT] (fun _ => none) Keys.stores true true (.val (.int 7)) = .error .invalidValue ∧
    Keys.sessionResolve id Keys.stores (.int 7) = .ok 12 := ⟨by decide +kernel, by decide +kernel, by decide +kernel⟩

/-! ### C305 -/

/-- **C305**, what holds and what does not: the check of a type other than an enumeration gives the right answer except
where listed in `Odd`. -/
theorem C305_types_partial (t : Ty) (ht : ∀ b m, t ≠ .enum b m) (v : V) (hv : Proper v) :
    (passes t v = true ↔ Belongs t v) ↔ ¬ Odd t v := by
  have key : (Odd t v ∧ ¬ (passes t v = true ↔ Belongs t v)) ∨ (¬ Odd t v ∧ (passes t v = true ↔ Belongs t v)) := by
    cases v with
    | doc d =>
      cases t with
      | enum b m => exact absurd rfl (ht b m)
      | _ => cases d <;> first
        | exact .inl ⟨by constructor, (fun h => by have := h.1 rfl; cases this)⟩
        | exact .inl ⟨by constructor, fun h => by have := h.2 (by constructor); exact absurd this (by simp [passes, check, primitive, checker, isInstance, array])⟩
        | exact .inr ⟨(fun h => by cases h), (fun _ => by constructor), (fun _ => rfl)⟩
        | exact .inr ⟨(fun h => by cases h), (fun h => absurd h (by simp [passes, check, primitive, checker, isInstance, array, isStr, isSequence, orCheck, isMoment])), (fun h => by cases h)⟩
    | inst c b =>
      have hb : c ∈ [Cls.date, .time, .datetime, .arrow, .url, .path] → b = true := hv
      cases t with
      | enum b m => exact absurd rfl (ht b m)
      | _ => cases c <;> (try (have hb := hb (by decide); subst hb)) <;> first
        | exact .inl ⟨by constructor, (fun h => by have := h.1 rfl; cases this)⟩
        | exact .inl ⟨by constructor, fun h => by have := h.2 (by constructor); exact absurd this (by simp [passes, check, primitive, checker, isInstance, array, isStr, isSequence])⟩
        | exact .inr ⟨(fun h => by cases h), (fun _ => by constructor), (fun _ => rfl)⟩
        | exact .inr ⟨(fun h => by cases h), (fun h => absurd h (by simp [passes, check, primitive, checker, isInstance, array, isStr, isSequence, orCheck, isMoment])), (fun h => by cases h)⟩
  rcases key with ⟨h1, h2⟩ | ⟨h1, h2⟩
  · exact ⟨fun h => absurd h h2, fun h => absurd h1 h⟩
  · exact ⟨fun _ => h1, fun _ => h2⟩

example : passes .date (.inst .datetime true) = true ∧ ¬ Odd .date (.inst .datetime true) ∧
    passes .null (.doc .none) = false ∧ passes .integer (.doc (.bool true)) = true ∧ passes .uri (.doc (.str "http://a".toList)) = false ∧
    passes .set (.inst .set true) = false := ⟨rfl, nofun, rfl, rfl, rfl, rfl⟩

/-- A value that does not pass is refused with a TypeError, one that passes is given back as it is. -/
theorem C305_outcome (t : Ty) (v : V) : check t v = .ok v ∨ check t v = .error .typeError := by
  have hch : ∀ p, checker p v = .ok v ∨ checker p v = .error .typeError := by
    intro p
    cases p with
    | none => exact .inl rfl
    | some p => simp only [checker]; split <;> simp
  have hpr : ∀ p, primitive p v = .ok v ∨ primitive p v = .error .typeError := by
    intro p
    cases p with
    | none => simp only [primitive]; split <;> simp
    | some p => exact hch (some p)
  have hor : ∀ a r, (r = .ok v ∨ r = .error .typeError) → orCheck a r v = .ok v ∨ orCheck a r v = .error .typeError := by
    intro a r hr
    unfold orCheck
    split
    · exact .inl rfl
    · rcases hr with rfl | rfl
      · simp only; split <;> simp
      · exact .inr rfl
  have hst : (if isStr v then .ok v else .error .typeError : Res V) = .ok v
      ∨ (if isStr v then .ok v else .error .typeError : Res V) = .error .typeError := by split <;> simp
  have har : ∀ p, array p v = .ok v ∨ array p v = .error .typeError := by
    intro p
    unfold array
    split
    · split <;> simp
    · split
      · exact hch _
      · exact .inr rfl
  cases t with
  | null => exact .inr rfl
  | true_ => exact .inl rfl
  | false_ => exact .inr rfl
  | boolean => exact hpr (some .bool)
  | number => simp only [check]; split <;> simp
  | integer => exact hpr (some .int)
  | string => exact hpr (some .str)
  | enum b m => exact hor _ _ (hpr _)
  | uri =>
    simp only [check]
    rcases hpr (some .url) with h | h <;> rw [h]
    · exact hor _ _ hst
    · exact .inr rfl
  | path =>
    simp only [check]
    rcases hpr (some .path) with h | h <;> rw [h]
    · exact hor _ _ hst
    · exact .inr rfl
  | date => exact hor _ _ (hch _)
  | time => exact hor _ _ (hch _)
  | datetime => exact hor _ _ (hch _)
  | array => exact har _
  | tuple => exact har _
  | set => exact har _
  | object => simp only [check]; split <;> simp

example : check .integer (.doc (.int 3)) = .ok (.doc (.int 3)) ∧ check .integer (.doc (.str [])) = .error .typeError :=
  ⟨rfl, rfl⟩

/-! ### C306 -/

theorem member_iff (members : List Val) (hm : ∀ m ∈ members, Query.WellFormed m) (v : Val) (hv : Query.WellFormed v) :
    member (.doc v) members = true ↔ OneOf members (.doc v) := by
  simp only [member, List.any_eq_true]
  constructor
  · rintro ⟨m, h, e⟩; exact .mk m v h ((Query.C296_equal m v (hm m h) hv).1 e)
  · rintro ⟨m, v, h, e⟩; exact ⟨m, h, (Query.C296_equal m v (hm m h) hv).2 e⟩

theorem fits_primitive {base : Option PyType} {v : V} (h : Fits base v) : primitive base v = .ok v := by
  cases h with
  | inst c b h1 h2 => cases c <;> first | rfl | exact absurd rfl h1 | exact absurd rfl h2
  | _ => rfl

theorem primitive_fits {base : Option PyType} {v : V} (h : primitive base v = .ok v) : Fits base v := by
  cases base with
  | none => cases v with
    | doc d => cases d <;> first | constructor | exact absurd h (by simp [primitive, isCollection, isStr])
    | inst c b =>
      refine .inst c b ?_ ?_ <;> (rintro rfl; simp [primitive, isCollection, isStr] at h)
  | some t => cases v with
    | doc d => cases t <;> cases d <;> first | constructor | exact absurd h (by simp [primitive, checker, isInstance])
    | inst c b => cases t <;> cases c <;> first | constructor | exact absurd h (by simp [primitive, checker, isInstance])

theorem primitive_gives {base : Option PyType} {v w : V} (h : primitive base v = .ok w) : w = v := by
  cases base with
  | none => simp only [primitive] at h; split at h <;> simp_all
  | some t => simp only [primitive, checker] at h; split at h <;> simp_all

/-- **C306**, what holds: the members of an enumeration pass its check, and nothing that counts as false but is no
member does. -/
theorem C306_members_partial (base : Option PyType) (members : List Val) (hm : ∀ m ∈ members, Query.WellFormed m) (v : Val)
    (hv : Query.WellFormed v) :
    (OneOf members (.doc v) → passes (.enum base members) (.doc v) = true) ∧
    (v.truthy = false → (passes (.enum base members) (.doc v) = true ↔ OneOf members (.doc v))) := by
  have h := member_iff members hm v hv
  constructor
  · intro ho
    simp [passes, check, orCheck, h.2 ho]
  · intro ht
    rw [← h]
    cases hb : member (.doc v) members with
    | true => simp [passes, check, orCheck, hb]
    | false =>
      simp only [passes, check, orCheck, hb, Bool.false_eq_true, if_false, iff_false]
      cases hp : primitive base (.doc v) with
      | error e => simp
      | ok w => rw [primitive_gives hp]; simp [V.truthy, ht]

/-- **C306**, exactly what passes: the members, and every value of the type of the enumeration that counts as true. -/
theorem C306_exact_partial (base : Option PyType) (members : List Val) (hm : ∀ m ∈ members, Query.WellFormed m) (v : V)
    (hv : ∀ d, v = .doc d → Query.WellFormed d) :
    passes (.enum base members) v = true ↔ OneOf members v ∨ (Fits base v ∧ v.truthy = true) := by
  have h : member v members = true ↔ OneOf members v := by
    cases v with
    | doc d => exact member_iff members hm d (hv d rfl)
    | inst c b => exact ⟨fun h => by simp [member] at h, fun h => by cases h⟩
  rw [← h]
  cases hb : member v members with
  | true => simp [passes, check, orCheck, hb]
  | false =>
    simp only [passes, check, orCheck, hb, Bool.false_eq_true, if_false, false_or]
    cases hp : primitive base v with
    | error e =>
      simp only [Bool.false_eq_true, false_iff, not_and]
      intro hf
      rw [fits_primitive hf] at hp; cases hp
    | ok w =>
      obtain rfl := primitive_gives hp
      have := primitive_fits hp
      cases ht : w.truthy <;> simp [this, ht]

/-- **C306** fails: every value of the type of the enumeration that counts as true passes. -/
theorem C306_others_violated (base : Option PyType) (members : List Val) (v : V) (hf : Fits base v) (ht : v.truthy = true) :
    passes (.enum base members) v = true := by
  simp only [passes, check, orCheck, fits_primitive hf, ht, if_true, ite_self]

example : Fits (some .str) (.doc (.str "blue".toList)) ∧ ¬ OneOf [.str "red".toList, .str "green".toList] (.doc (.str "blue".toList)) ∧
    passes (.enum (some .str) [.str "red".toList, .str "green".toList]) (.doc (.str "blue".toList)) = true ∧
    passes (.enum (some .str) [.str "red".toList, .str "green".toList]) (.doc (.str [])) = false ∧
    passes (.enum (some .int) [.int 0, .int 1]) (.doc (.int 0)) = true := by
  refine ⟨.ofStr _, ?_, by decide +kernel, by decide +kernel, by decide +kernel⟩
  intro h
  have := (member_iff _ (by intro m hm; simp at hm; rcases hm with rfl | rfl <;> constructor) (.str "blue".toList) (by constructor)).2 h
  exact absurd this (by decide +kernel)

/-! ### C307 -/

theorem allCheck_pass {checks : List (Val → Res Val)} {ks : List Val} (h : Pass checks ks) :
    allCheck checks ks = .ok (ks.all Val.truthy) := by
  induction h with
  | nil => rfl
  | @cons t v ts vs hv _ ih =>
    rw [allCheck, hv]
    cases hb : v.truthy with
    | true => simp [ih, hb]
    | false => simp [hb]

/-- **C307**, what holds: a list of components that pass their checks, all of them counting as true, passes. -/
theorem C307_true_partial (ev : Val → Val) (checks : List (Val → Res Val)) (ks : List Val) (hl : ∀ x ∈ ks, Keys.Spec.Literal x)
    (h : Pass checks ks) (ht : ∀ k ∈ ks, k.truthy = true) : keyCheck ev checks (.list ks) = .ok (.list ks) := by
  have : ks.all Val.truthy = true := by simpa using ht
  simp [keyCheck, Keys.items_list ev false ks hl, allCheck_pass h, this]

/-- **C307** fails: a key with a component that counts as false, such as 0, does not pass. -/
theorem C307_false_violated (ev : Val → Val) (checks : List (Val → Res Val)) (ks : List Val) (hl : ∀ x ∈ ks, Keys.Spec.Literal x)
    (h : Pass checks ks) (k : Val) (hk : k ∈ ks) (ht : k.truthy = false) :
    keyCheck ev checks (.list ks) = .error .typeError := by
  have : ks.all Val.truthy = false := by
    rw [List.all_eq_false]; exact ⟨k, hk, by simp [ht]⟩
  simp [keyCheck, Keys.items_list ev false ks hl, allCheck_pass h, this]

/-- **C307** fails: components that are missing are not noticed. -/
theorem C307_missing_violated (ev : Val → Val) (checks more : List (Val → Res Val)) (ks : List Val)
    (hl : ∀ x ∈ ks, Keys.Spec.Literal x) (h : Pass checks ks) (ht : ∀ k ∈ ks, k.truthy = true) :
    keyCheck ev (checks ++ more) (.list ks) = .ok (.list ks) := by
  have ha : allCheck (checks ++ more) ks = .ok (ks.all Val.truthy) := by
    clear hl ht
    induction h with
    | nil => cases more <;> rfl
    | @cons t v ts vs hv _ ih =>
      rw [List.cons_append, allCheck, hv]
      cases hb : v.truthy with
      | true => simp [ih, hb]
      | false => simp [hb]
  have : ks.all Val.truthy = true := by simpa using ht
  simp [keyCheck, Keys.items_list ev false ks hl, ha, this]

example : Pass [idT, idT] [.int 1, .str "a".toList] ∧ keyCheck id [idT, idT] (.list [.int 1, .str "a".toList]) = .ok (.list [.int 1, .str "a".toList]) ∧
    keyCheck id [idT, idT] (.list [.int 0, .str "a".toList]) = .error .typeError ∧
    keyCheck id [idT, idT] (.list [.int 1]) = .ok (.list [.int 1]) :=
  ⟨.cons rfl (.cons rfl .nil), by decide +kernel, by decide +kernel, by decide +kernel⟩

/-! ### C308 -/

/-- **C308**, what holds: a type that is detected accepts the value, and none that is registered before does. -/
theorem C308_first_partial (types : AList Str Ty) (v : V) (k : Str) :
    detect v types = some k ↔ ∃ pre t post, types = pre ++ (k, t) :: post ∧ passes t v = true ∧ ∀ p ∈ pre, passes p.2 v = false := by
  induction types with
  | nil => simp [detect]
  | cons x xs ih =>
    obtain ⟨k', t'⟩ := x
    rw [detect]
    cases hp : passes t' v with
    | true =>
      simp only [if_true, Option.some.injEq]
      constructor
      · rintro rfl; exact ⟨[], t', xs, rfl, hp, by simp⟩
      · rintro ⟨pre, t, post, he, h1, h2⟩
        cases pre with
        | nil => simp at he; exact he.1.1
        | cons p ps =>
          have : p = (k', t') := by simp at he; exact he.1.symm
          have := h2 p (by simp)
          simp_all
    | false =>
      simp only [Bool.false_eq_true, if_false, ih]
      constructor
      · rintro ⟨pre, t, post, rfl, h1, h2⟩
        refine ⟨(k', t') :: pre, t, post, rfl, h1, ?_⟩
        intro p hp'
        simp only [List.mem_cons] at hp'
        rcases hp' with rfl | h
        · exact hp
        · exact h2 p h
      · rintro ⟨pre, t, post, he, h1, h2⟩
        cases pre with
        | nil => simp at he; simp_all
        | cons p ps =>
          simp only [List.cons_append, List.cons.injEq] at he
          exact ⟨ps, t, post, he.2, h1, fun q hq => h2 q (by simp [hq])⟩

/-- **C308** fails: for every value the type detected is that of the schema `true`. -/
theorem C308_true_violated (v : V) : detect v registry = some "true".toList := rfl

/-- **C308**, asking for a type by name. -/
theorem C308_named_partial (types : AList Str Ty) (v : V) (id : Str) (t : Ty) (h : AList.get? types id = some t)
    (ht : ∀ b m, t ≠ .enum b m) (hv : Proper v) (ho : ¬ Odd t v) :
    ∃ b, isType types v id = .ok b ∧ (b = true ↔ Belongs t v) := by
  refine ⟨passes t v, by simp [isType, h], (C305_types_partial t ht v hv).2 ho⟩

/-- **C308**, asking for one of the types that are registered. -/
theorem C308_registered_partial (n : Str) (t : Ty) (hn : Named n t) (v : V) (hv : Proper v) (ho : ¬ Odd t v) :
    ∃ b, isType registry v n = .ok b ∧ (b = true ↔ Belongs t v) := by
  cases hn <;> exact C308_named_partial registry v _ _ rfl nofun hv ho

example : Named "integer".toList .integer ∧ Proper (.doc (.int 3)) ∧ ¬ Odd .integer (.doc (.int 3)) := ⟨.integer, trivial, nofun⟩

example : detect (.doc (.str "x".toList)) (registry.drop 3) = some "enum".toList ∧
    detect (.doc (.list [])) (registry.drop 3) = some "array".toList ∧
    isType registry (.doc (.int 3)) "integer".toList = .ok true ∧ isType registry (.doc (.int 3)) "int".toList = .error .exception :=
  ⟨by decide +kernel, by decide +kernel, by decide +kernel, by decide +kernel⟩

end Verif.Check
