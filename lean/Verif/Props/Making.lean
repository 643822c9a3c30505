import Verif.Spec.Making
/-
C214-C218: types made of other types.
-/
namespace Verif.Making
open Spec

/-! ### C214: a property of an object type has the type it was declared with -/

theorem make_get? {σ τ : Type} (build : σ → τ) (a : Nat) : ∀ (ps : List (Str × σ)) (reg : Reg τ) (n : Str),
    (AList.keys ps).Nodup →
    (∀ b m, AList.get? (make build reg a ps).2 (b, m) = match AList.get? reg (b, m) with
      | some t => some t
      | none => if b = a then (AList.get? ps m).map build else none)
    ∧ AList.get? (make build reg a ps).1 n = (AList.get? ps n).map fun s => (AList.get? reg (a, n)).getD (build s) := by
  intro ps
  induction ps with
  | nil =>
    intro reg n _
    refine ⟨fun b m => ?_, rfl⟩
    simp only [make, AList.get?, Option.map_none]
    cases AList.get? reg (b, m) <;> simp
  | cons p ps ih =>
    obtain ⟨n', s⟩ := p
    intro reg n hn
    rw [AList.keys_cons, List.nodup_cons] at hn
    have hnone : AList.get? ps n' = none := AList.get?_eq_none.mpr hn.1
    have hreg : ∀ b m, AList.get? (if AList.contains reg (a, n') then reg
        else AList.set reg (a, n') ((AList.get? reg (a, n')).getD (build s))) (b, m)
        = match AList.get? reg (b, m) with
          | some t => some t
          | none => if b = a ∧ n' = m then some (build s) else none := by
      intro b m
      cases hc : AList.get? reg (a, n') with
      | some t =>
        simp only [AList.contains, hc, Option.isSome_some, if_true]
        by_cases h : b = a ∧ n' = m
        · obtain ⟨rfl, rfl⟩ := h; rw [hc]
        · cases AList.get? reg (b, m) <;> simp [h]
      | none =>
        simp only [AList.contains, hc, Option.isSome_none, Bool.false_eq_true, if_false, Option.getD_none]
        by_cases h : b = a ∧ n' = m
        · obtain ⟨rfl, rfl⟩ := h; rw [hc, AList.get?_set_self]; simp
        · rw [AList.get?_set_ne _ _ (fun e => h (by cases e; exact ⟨rfl, rfl⟩))]
          cases AList.get? reg (b, m) <;> simp [h]
    obtain ⟨h1, h2⟩ := ih (if AList.contains reg (a, n') then reg
        else AList.set reg (a, n') ((AList.get? reg (a, n')).getD (build s))) n hn.2
    constructor
    · intro b m
      simp only [make]
      rw [h1, hreg]
      cases AList.get? reg (b, m) with
      | some t => rfl
      | none =>
        by_cases hb : b = a
        · by_cases hm : n' = m
          · subst hm; simp [hb, AList.get?]
          · simp [hb, hm, AList.get?]
        · simp [hb]
    · simp only [make, AList.get?]
      by_cases hm : n' = n
      · subst hm; simp
      · rw [if_neg hm, if_neg hm, h2, hreg]
        cases AList.get? reg (a, n) <;> simp [hm]

theorem made_get? {σ τ : Type} (build : σ → τ) : ∀ (h : List (Nat × List (Str × σ))) (reg : Reg τ),
    (∀ p ∈ h, (AList.keys p.2).Nodup) → ∀ a n, AList.get? (made build reg h) (a, n) = match AList.get? reg (a, n) with
      | some t => some t
      | none => (firstGiven a n h).map build := by
  intro h
  induction h with
  | nil => intro reg _ a n; cases hr : AList.get? reg (a, n) <;> simp [made, hr, firstGiven]
  | cons p h ih =>
    obtain ⟨b, ps⟩ := p
    intro reg hn a n
    rw [made, ih _ (fun p hp => hn p (by simp [hp])), (make_get? build b ps reg n (hn (b, ps) (by simp))).1]
    cases AList.get? reg (a, n) with
    | some t => rfl
    | none =>
      simp only [firstGiven]
      by_cases hb : a = b
      · subst hb
        simp only [if_true]
        cases AList.get? ps n <;> rfl
      · rw [if_neg hb, if_neg fun e => hb e.symm]

/-- The type of a property is the one of the first declaration under its name at the address, in any history. -/
theorem C214_first_partial {σ τ : Type} (build : σ → τ) (h : List (Nat × List (Str × σ)))
    (hn : ∀ p ∈ h, (AList.keys p.2).Nodup) (a : Nat) (ps : List (Str × σ)) (hps : (AList.keys ps).Nodup) (n : Str) (s : σ)
    (hs : AList.get? ps n = some s) :
    AList.get? (make build (made build [] h) a ps).1 n = (firstGiven a n (h ++ [(a, ps)])).map build := by
  rw [(make_get? build a ps _ n hps).2, hs, made_get? build h [] hn]
  have : ∀ h : List (Nat × List (Str × σ)), firstGiven a n (h ++ [(a, ps)]) = some ((firstGiven a n h).getD s) := by
    intro h
    induction h with
    | nil => simp [firstGiven, hs]
    | cons p h ih =>
      obtain ⟨b, qs⟩ := p
      rw [List.cons_append, firstGiven, firstGiven, ih]
      split
      · cases AList.get? qs n <;> rfl
      · rfl
  rw [this]
  simp only [AList.get?, Option.map_some]
  cases firstGiven a n h <;> rfl

/-- So it is the declared one if no earlier type at the address had a property of that name. -/
theorem C214_fresh_partial {σ τ : Type} (build : σ → τ) (h : List (Nat × List (Str × σ)))
    (hn : ∀ p ∈ h, (AList.keys p.2).Nodup) (a : Nat) (ps : List (Str × σ)) (hps : (AList.keys ps).Nodup) (n : Str) (s : σ)
    (hs : AList.get? ps n = some s) (hf : ∀ p ∈ h, p.1 = a → n ∉ AList.keys p.2) :
    AList.get? (make build (made build [] h) a ps).1 n = some (build s) := by
  rw [C214_first_partial build h hn a ps hps n s hs]
  have : ∀ h : List (Nat × List (Str × σ)), (∀ p ∈ h, p.1 = a → n ∉ AList.keys p.2) →
      firstGiven a n (h ++ [(a, ps)]) = some s := by
    intro h
    induction h with
    | nil => intro _; simp [firstGiven, hs]
    | cons p h ih =>
      obtain ⟨b, qs⟩ := p
      intro hf
      rw [List.cons_append, firstGiven, ih fun p hp => hf p (by simp [hp])]
      split
      · next hb => rw [AList.get?_eq_none.mpr (hf (b, qs) (by simp) hb)]
      · rfl
  rw [this h hf]; rfl

example : (make id (made id [] [(1, [("a".toList, "int")]), (2, [("a".toList, "bool")])]) 1
    [("b".toList, "str")]).1 = [("b".toList, "str")] := by decide +kernel

/-- At an address that is used again, the property has the type of the object that is gone. -/
theorem C214_reused_violated {σ τ : Type} (build : σ → τ) (a : Nat) (n : Str) (s s' : σ) :
    (make build (made build [] [(a, [(n, s)])]) a [(n, s')]).1 = [(n, build s)] := by
  simp [make, made, AList.get?, AList.contains, AList.set]

example : (make id (made id [] [(1, [("a".toList, "int")])]) 1 [("a".toList, "str")]).1 = [("a".toList, "int")] := by
  decide +kernel

/-! ### C215: an object type made with pattern properties has them -/

/-- Only if there are none. -/
theorem C215_none_partial {σ τ : Type} : makePatterns (σ := σ) (τ := τ) [] = .ok [] := rfl

/-- Every other is refused by AttributeError. -/
theorem C215_attribute_violated {σ τ : Type} (p : Str × σ) (ps : List (Str × σ)) :
    makePatterns (τ := τ) (p :: ps) = .error .attributeError := rfl

/-! ### C216: no type is left in a schema -/

mutual
theorem hasType_untypeValue : (s : Sch) → (HasType (untypeValue s) ↔ InList s)
  | .plain v => ⟨fun h => by (simp only [untypeValue] at h; cases h), fun h => by cases h⟩
  | .type i r => by
    constructor
    · intro h
      cases i with
      | none => simp only [untypeValue] at h; cases h
      | some i =>
        simp only [untypeValue] at h
        cases h with
        | dict d k s hm hs =>
          simp only [List.mem_singleton, Prod.mk.injEq] at hm
          rw [hm.2] at hs
          cases hs
    · intro h; cases h
  | .list l => by
    simp only [untypeValue]
    constructor
    · intro h
      cases h with
      | list l s hm hs => exact .list l s hm hs
    · intro h
      cases h with
      | list l s hm hs => exact .list l s hm hs
  | .dict d => by
    simp only [untypeValue]
    constructor
    · intro h
      cases h with
      | dict d' k s hm hs =>
        obtain ⟨s', hm', hs'⟩ := (hasType_untype d k).mp ⟨s, hm, hs⟩
        exact .dict d k s' hm' hs'
    · intro h
      cases h with
      | dict d' k s hm hs =>
        obtain ⟨s', hm', hs'⟩ := (hasType_untype d k).mpr ⟨s, hm, hs⟩
        exact .dict _ k s' hm' hs'
theorem hasType_untype : (d : List (Str × Sch)) → (k : Str) →
    ((∃ s, (k, s) ∈ untype d ∧ HasType s) ↔ ∃ s, (k, s) ∈ d ∧ InList s)
  | [], k => by simp [untype]
  | (k', s') :: d, k => by
    simp only [untype, List.mem_cons, Prod.mk.injEq]
    have ih := hasType_untype d k
    have hv := hasType_untypeValue s'
    constructor
    · rintro ⟨s, ⟨rfl, rfl⟩ | hm, hs⟩
      · exact ⟨s', .inl ⟨rfl, rfl⟩, hv.mp hs⟩
      · obtain ⟨s, hm, hs⟩ := ih.mp ⟨s, hm, hs⟩
        exact ⟨s, .inr hm, hs⟩
    · rintro ⟨s, ⟨rfl, rfl⟩ | hm, hs⟩
      · exact ⟨_, .inl ⟨rfl, rfl⟩, hv.mpr hs⟩
      · obtain ⟨s, hm, hs⟩ := ih.mpr ⟨s, hm, hs⟩
        exact ⟨s, .inr hm, hs⟩
end

/-- A type is left exactly if there is one below a list. -/
theorem C216_left_partial (d : List (Str × Sch)) : HasType (.dict (untype d)) ↔ InList (.dict d) :=
  hasType_untypeValue (.dict d)

mutual
theorem untypeValue_self : (s : Sch) → ¬ HasType s → untypeValue s = s
  | .plain v, _ => by simp only [untypeValue]
  | .type i r, h => absurd (.type i r) h
  | .list l, _ => by simp only [untypeValue]
  | .dict d, h => by
    simp only [untypeValue]
    rw [untype_self d fun k s hm hs => h (.dict d k s hm hs)]
theorem untype_self : (d : List (Str × Sch)) → (∀ k s, (k, s) ∈ d → ¬ HasType s) → untype d = d
  | [], _ => rfl
  | (k, s) :: d, h => by
    rw [untype, untypeValue_self s (h k s (by simp)), untype_self d fun k s hm => h k s (by simp [hm])]
end

/-- A schema without types is left as it is; a type with an identifier becomes a reference, another one its schema. -/
theorem C216_plain (d : List (Str × Sch)) : (¬ HasType (.dict d) → untype d = d)
    ∧ ∀ k i r, untype ((k, .type i r) :: d) = (k, match i with
      | some i => .dict [("$ref".toList, .plain (.str i))]
      | none => .plain r) :: untype d := by
  refine ⟨fun h => untype_self d fun k s hm hs => h (.dict d k s hm hs), fun k i r => ?_⟩
  cases i <;> simp [untype, untypeValue]

example : untype [("a".toList, .dict [("b".toList, .type (some "i".toList) .none)]), ("c".toList, .type none (.int 1))]
    = [("a".toList, .dict [("b".toList, .dict [("$ref".toList, .plain (.str "i".toList))])]), ("c".toList, .plain (.int 1))] := rfl

/-- A type in a list is left. -/
theorem C216_list_violated (k : Str) (i : Option Str) (r : Val) :
    untype [(k, .list [.type i r])] = [(k, .list [.type i r])] := rfl

/-! ### C217: the stand-in of a type that is being built acts as the type -/

/-- Once it is built. -/
theorem C217_built_partial (t : Ty) (v : Val) : proxyCheck (some t) v = t.check v
    ∧ proxy Ty.convert (some t) v = t.convert v ∧ proxy Ty.validate (some t) v = t.validate v
    ∧ proxy Ty.evaluate (some t) v = t.evaluate v ∧ proxy Ty.serialize (some t) v = t.serialize v
    ∧ proxyHasDefault (some t) none = .ok (t.hasDefault .none) := ⟨rfl, rfl, rfl, rfl, rfl, rfl⟩

example : proxy Ty.convert (some ⟨fun _ => true, fun _ => .ok (.int 1), .ok, .ok, .ok, fun _ => true⟩) .none
    = .ok (.int 1) := by decide +kernel

/-- Before, every value is converted to None and accepted by validation, though none passes the check
and there is no default. -/
theorem C217_lost_violated (v : Val) : proxy Ty.convert none v = .ok .none ∧ proxy Ty.validate none v = .ok .none
    ∧ proxy Ty.serialize none v = .ok .none ∧ proxyCheck none v = false
    ∧ proxyHasDefault none none = .ok false := ⟨rfl, rfl, rfl, rfl, rfl⟩

/-- It cannot be asked whether there is a default for a value. -/
theorem C217_default_violated (p : Option Ty) (v : Val) : proxyHasDefault p (some v) = .error .typeError := rfl

/-! ### C218: tuple and set types evaluate tuples and sets -/

theorem indexed_eq {c : Coll} (hk : c.kind ≠ .set) : indexed c = .ok c.items := by
  obtain ⟨k, l⟩ := c
  cases k <;> first | rfl | exact absurd rfl hk

/-- Conversion of a list or a tuple gives a tuple of the converted items. -/
theorem C218_convert_partial (conv : Val → Res Val) (c : Coll) (hk : c.kind ≠ .set) (l : List Val)
    (h : each (fun v => if v = .none then .ok v else conv v) c.items = .ok l) : convert conv .tuple c = .ok ⟨.tuple, l⟩ := by
  rw [convert, indexed_eq hk]; simp only [h, toKind]

example : convert (fun _ => .ok (.int 1)) .tuple ⟨.list, [.none, .str []]⟩ = .ok ⟨.tuple, [.none, .int 1]⟩ := by
  decide +kernel

theorem distinct_spec (l : List Val) : (distinct l).Nodup ∧ ∀ v, v ∈ distinct l ↔ v ∈ l := by
  induction l with
  | nil => simp [distinct]
  | cons x l ih =>
    refine ⟨?_, fun v => ?_⟩
    · rw [distinct, List.nodup_cons]
      exact ⟨by simp, ih.1.filter _⟩
    · rw [distinct, List.mem_cons, List.mem_filter, ih.2, List.mem_cons]
      by_cases h : v = x <;> simp [h]

/-- Conversion of a list or a tuple to a set gives the different converted items, each once. -/
theorem C218_set_partial (conv : Val → Res Val) (c : Coll) (hk : c.kind ≠ .set) (l : List Val)
    (h : each (fun v => if v = .none then .ok v else conv v) c.items = .ok l) (hl : ∀ v ∈ l, (∀ m, v ≠ .list m) ∧ ∀ d, v ≠ .dict d) :
    ∃ s, convert conv .set c = .ok ⟨.set, s⟩ ∧ s.Nodup ∧ ∀ v, v ∈ s ↔ v ∈ l := by
  refine ⟨distinct l, ?_, distinct_spec l⟩
  rw [convert, indexed_eq hk]; simp only [h]
  simp only [toKind]
  rw [if_pos (List.all_eq_true.mpr fun v hv => ?_)]
  obtain ⟨h1, h2⟩ := hl v hv
  cases v with
  | list m => exact absurd rfl (h1 m)
  | dict d => exact absurd rfl (h2 d)
  | _ => rfl

example : convert .ok .set ⟨.list, [.int 1, .int 2, .int 1]⟩ = .ok ⟨.set, [.int 1, .int 2]⟩ := by decide +kernel

/-- Lists and mappings are refused. -/
theorem C218_hash_partial (conv : Val → Res Val) (c : Coll) (hk : c.kind ≠ .set) (l : List Val)
    (h : each (fun v => if v = .none then .ok v else conv v) c.items = .ok l) (v : Val) (hv : v ∈ l)
    (hh : (∃ m, v = .list m) ∨ ∃ d, v = .dict d) : convert conv .set c = .error .conversionError := by
  rw [convert, indexed_eq hk]; simp only [h]
  simp only [toKind]
  rw [if_neg]
  intro ha
  have := List.all_eq_true.mp ha v hv
  rcases hh with ⟨m, rfl⟩ | ⟨d, rfl⟩ <;> simp [hashable] at this

example : convert .ok .set ⟨.list, [.int 1, .list []]⟩ = .error .conversionError := by decide +kernel

/-- A list is evaluated: its items are converted, then evaluated, and the whole is validated. -/
theorem C218_list_partial (conv ev : Val → Res Val) (valid : List Val → Bool) (c : Coll) (hk : c.kind ≠ .set)
    (l l' : List Val)
    (h : each (fun v => if v = .none then .ok v else conv v) c.items = .ok l) (h' : each ev l = .ok l') :
    evaluate conv ev valid .list c = if valid l' then .ok ⟨.list, l'⟩ else .error .invalidValue := by
  rw [evaluate, convert, indexed_eq hk]
  simp only [h, toKind, evaluateItems, h']

example : evaluate .ok (fun _ => .ok (.int 3)) (fun l => l = [.int 3]) .list ⟨.tuple, [.int 1]⟩ = .ok ⟨.list, [.int 3]⟩
    ∧ evaluate .ok (fun _ => .ok (.int 3)) (fun l => l = [.int 1]) .list ⟨.tuple, [.int 1]⟩ = .error .invalidValue := by
  decide +kernel

/-- Empty ones are evaluated. -/
theorem C218_empty_partial (conv ev : Val → Res Val) (valid : List Val → Bool) (k k' : Kind) (hv : valid [] = true) :
    evaluate conv ev valid k ⟨k', []⟩ = .ok ⟨k, []⟩ := by
  cases k <;> cases k' <;> simp [evaluate, convert, indexed, each, toKind, evaluateItems, hv, distinct]

/-- No other tuple or set can be evaluated: once the items are converted and the first is evaluated, TypeError. -/
theorem C218_evaluate_violated (conv ev : Val → Res Val) (valid : List Val → Bool) (k : Kind) (c : Coll)
    (hk : k ≠ .list) (hc : c.items ≠ []) : ∀ r, evaluate conv ev valid k c ≠ .ok r := by
  intro r h
  rw [evaluate] at h
  split at h
  · exact absurd h (by simp)
  · next c' hc' =>
    have hne : c'.kind = k ∧ c'.items ≠ [] := by
      rw [convert] at hc'
      split at hc'
      · exact absurd hc' (by simp)
      next li hli =>
      have hci : c.items = li := by
        revert hli
        obtain ⟨k0, l0⟩ := c
        cases k0 <;> cases l0 <;> simp [indexed]
      subst hci
      split at hc'
      · exact absurd hc' (by simp)
      · next l hl =>
        have hl0 : l ≠ [] := by
          rintro rfl
          cases hi : c.items with
          | nil => exact hc hi
          | cons x xs =>
            rw [hi, each] at hl
            split at hl
            · exact absurd hl (by simp)
            · split at hl
              · exact absurd hl (by simp)
              · exact absurd hl (by simp)
        cases k with
        | list => exact absurd rfl hk
        | tuple => cases hc'; exact ⟨rfl, hl0⟩
        | set =>
          simp only [toKind] at hc'
          split at hc'
          · cases hc'
            refine ⟨rfl, ?_⟩
            cases l with
            | nil => exact absurd rfl hl0
            | cons x l => simp [distinct]
          · exact absurd hc' (by simp)
    have herr : ∃ e, evaluateItems ev c' = .error e := by
      obtain ⟨k', l⟩ := c'
      obtain ⟨rfl, hl⟩ := hne
      cases l with
      | nil => exact absurd rfl hl
      | cons x l =>
        cases k' with
        | list => exact absurd rfl hk
        | tuple =>
          simp only [evaluateItems]
          cases ev x with
          | error e => exact ⟨e, rfl⟩
          | ok _ => exact ⟨_, rfl⟩
        | set => exact ⟨_, rfl⟩
    obtain ⟨e, he⟩ := herr
    rw [he] at h
    exact absurd h (by simp)

example : evaluate .ok .ok (fun _ => true) .tuple ⟨.tuple, [.int 1]⟩ = .error .typeError
    ∧ evaluate .ok .ok (fun _ => true) .set ⟨.list, [.int 1]⟩ = .error .typeError
    ∧ evaluate .ok .ok (fun _ => true) .list ⟨.list, [.int 1]⟩ = .ok ⟨.list, [.int 1]⟩ := by decide +kernel

/-- A set with items cannot be converted at all, not even to a set. -/
theorem C218_index_violated (conv : Val → Res Val) (k : Kind) (v : Val) (l : List Val) :
    convert conv k ⟨.set, v :: l⟩ = .error .typeError := rfl

end Verif.Making
