import Verif.Lemmas.Equality
import Verif.Props.Compare
/-
C134-C138: equality, hash and copies of instances.
-/
namespace Verif.Equality
open Query (pyEq)

/-! ### C134: an equivalence -/

/-- **C134.** Comparing instances and plain values never fails, and is reflexive, symmetric and transitive, over any
hierarchy of classes. -/
theorem C134_equivalence (sub : Nat → Nat → Bool) (ho : Order sub) (at_ : Nat → Node) :
    (∀ a b, ∃ r, eqNode sub a b = .ok r) ∧
    (∀ a, Sound at_ a → eqNode sub a a = .ok true) ∧
    (∀ a b, Sound at_ a → Sound at_ b → eqNode sub a b = eqNode sub b a) ∧
    (∀ a b c, Sound at_ a → Sound at_ b → Sound at_ c → eqNode sub a b = .ok true → eqNode sub b c = .ok true →
      eqNode sub a c = .ok true) := by
  refine ⟨eqNode_ok ho, eqNode_refl ho, fun a b ha hb => ?_, eqNode_trans ho⟩
  obtain ⟨r, hr⟩ := eqNode_ok ho a b
  obtain ⟨r', hr'⟩ := eqNode_ok ho b a
  cases r with
  | true => rw [hr, eqNode_symm ho a b ha hb hr]
  | false =>
    cases r' with
    | false => rw [hr, hr']
    | true => rw [eqNode_symm ho b a hb ha hr'] at hr; cases hr

/-- Class 1 derives from class 0. -/
private def two : Nat → Nat → Bool := fun c d => c == d || (c == 1 && d == 0)

private theorem two_order : Order two := by
  constructor
  · simp [two]
  · intro c d h h'; simp only [two, Bool.or_eq_true, beq_iff_eq, Bool.and_eq_true] at h h'; omega
  · intro c d e h h'; simp only [two, Bool.or_eq_true, beq_iff_eq, Bool.and_eq_true] at h h' ⊢; omega

private def ann : Node := .obj 7 5 false [("name".toList, .atom (.str "Ann".toList))]
private def listA : Node := .arr 1 0 [.atom (.int 1), ann]
private def listB : Node := .arr 2 0 [.atom (.bool true), ann]
private def listC : Node := .arr 3 1 [.atom (.int 1), ann]

private def heap : Nat → Node
  | 1 => listA
  | 2 => listB
  | 3 => listC
  | _ => ann

private theorem ann_sound : Sound heap ann := .obj rfl (by intro x hx; simp at hx; subst hx; exact .atom trivial)
private theorem listA_sound : Sound heap listA :=
  .arr rfl (by intro x hx; simp at hx; rcases hx with rfl | rfl; exact .atom trivial; exact ann_sound)
private theorem listB_sound : Sound heap listB :=
  .arr rfl (by intro x hx; simp at hx; rcases hx with rfl | rfl; exact .atom trivial; exact ann_sound)

example : Sound heap listA ∧ Sound heap listB ∧ eqNode two listA listB = .ok true ∧ eqNode two listA listC = .ok false := by
  refine ⟨listA_sound, listB_sound, ?_, ?_⟩
  · rw [listA, listB, eqNode_arr two_order]
    simp [eqItems, eqNode, ann, pyEq, Query.num]
  · rw [listA, listC, eqNode_arr two_order]
    simp

/-! ### C135: equality tells the content -/

private theorem scalar_wf {v : Val} (h : Scalar v) : Query.WellFormed v := by
  cases v with
  | list _ => exact h.elim
  | dict _ => exact h.elim
  | _ => constructor

private theorem Same.refl_of {at_ : Nat → Node} : ∀ (a : Node), Sound at_ a → Same a a
  | .atom v, .atom h => .atom ((Query.C296_equal v v (scalar_wf h) (scalar_wf h)).1 (pyEq_refl h))
  | .arr i c l, .arr _ h => .arr rfl (fun k x y hx hy => by
      rw [hx] at hy; cases hy
      have hx' := List.mem_of_getElem? hx
      exact Same.refl_of x (h x hx'))
  | .obj i c p l, .obj _ h => .obj rfl (fun k x y hx hy => by
      rw [hx] at hy; cases hy
      have hx' := List.mem_of_getElem? hx
      exact Same.refl_of x.2 (h x hx'))
termination_by a => sizeOf a
decreasing_by
  · have := List.sizeOf_lt_of_mem hx'; simp; omega
  · have := List.sizeOf_lt_of_mem hx'
    have h2 : sizeOf x.2 < sizeOf x := by cases x; simp; omega
    simp; omega

private theorem same_iff {sub : Nat → Nat → Bool} (ho : Order sub) {at_ : Nat → Node} : ∀ (a b : Node),
    Sound at_ a → Sound at_ b → NoObject a → NoObject b → (eqNode sub a b = .ok true ↔ Same a b)
  | .atom v, .atom w, .atom hv, .atom hw, _, _ => by
    rw [eqNode]; simp only [Except.ok.injEq]
    rw [Query.C296_equal v w (scalar_wf hv) (scalar_wf hw)]
    exact ⟨.atom, fun h => by cases h; assumption⟩
  | .atom v, .arr _ _ _, _, _, _, _ => by
    rw [eqNode]; simp only [Except.ok.injEq, Bool.false_eq_true, false_iff]; intro h; cases h
  | .arr _ _ _, .atom v, _, _, _, _ => by
    rw [eqNode]; simp only [Except.ok.injEq, Bool.false_eq_true, false_iff]; intro h; cases h
  | .arr i c l, .arr j d m, .arr ha hl, .arr hb hm, .arr nl, .arr nm => by
    rw [eqNode_arr_iff ho]
    constructor
    · rintro (h | ⟨h1, h2, h3⟩)
      · subst h
        have := ha.symm.trans hb; cases this
        exact Same.refl_of _ (.arr ha hl)
      · subst h1
        exact .arr h2 (fun k x y hx hy => by
          have hx' := List.mem_of_getElem? hx
          have hy' := List.mem_of_getElem? hy
          exact (same_iff ho x y (hl x hx') (hm y hy') (nl x hx') (nm y hy')).1 (h3 k x y hx hy))
    · intro h
      cases h with
      | arr h1 h2 =>
        exact .inr ⟨rfl, h1, fun k x y hx hy => by
          have hx' := List.mem_of_getElem? hx
          have hy' := List.mem_of_getElem? hy
          exact (same_iff ho x y (hl x hx') (hm y hy') (nl x hx') (nm y hy')).2 (h2 k x y hx hy)⟩
termination_by a => sizeOf a
decreasing_by
  all_goals (have := List.sizeOf_lt_of_mem hx'; simp; omega)

/-- **C135, the part that holds.** Arrays of arrays of plain values, to any depth, are equal exactly when they are of
one class and have the same content. -/
theorem C135_arrays_partial (sub : Nat → Nat → Bool) (ho : Order sub) (at_ : Nat → Node) (a b : Node)
    (ha : Sound at_ a) (hb : Sound at_ b) (na : NoObject a) (nb : NoObject b) :
    eqNode sub a b = .ok true ↔ Same a b := same_iff ho a b ha hb na nb

private def grid (i : Nat) : Node := .arr i 0 [.arr (i + 1) 0 [.atom (.int 4)], .arr (i + 2) 0 []]

private theorem grid_ok (at_ : Nat → Node) (i : Nat) (h : at_ i = grid i) (h1 : at_ (i + 1) = .arr (i + 1) 0 [.atom (.int 4)])
    (h2 : at_ (i + 2) = .arr (i + 2) 0 []) : Sound at_ (grid i) ∧ NoObject (grid i) := by
  refine ⟨.arr h ?_, .arr ?_⟩
  · intro x hx; simp at hx
    rcases hx with rfl | rfl
    · exact .arr h1 (by intro x hx; simp at hx; subst hx; exact .atom trivial)
    · exact .arr h2 (by simp)
  · intro x hx; simp at hx
    rcases hx with rfl | rfl
    · exact .arr (by intro x hx; simp at hx; subst hx; exact .atom)
    · exact .arr (by simp)

private def gridHeap : Nat → Node
  | 1 => .arr 1 0 [.atom (.int 4)]
  | 2 => .arr 2 0 []
  | 10 => grid 10
  | 11 => .arr 11 0 [.atom (.int 4)]
  | 12 => .arr 12 0 []
  | _ => grid 0

example : (Sound gridHeap (grid 0) ∧ NoObject (grid 0)) ∧ (Sound gridHeap (grid 10) ∧ NoObject (grid 10)) ∧
    eqNode two (grid 0) (grid 10) = .ok true := by
  refine ⟨grid_ok gridHeap 0 rfl rfl rfl, grid_ok gridHeap 10 rfl rfl rfl, ?_⟩
  simp [grid, eqNode_arr two_order, eqItems, eqNode, pyEq, Query.num]

/-- **C135 is violated.** An object with properties is equal to no other object, whatever its content. -/
theorem C135_objects_violated (sub : Nat → Nat → Bool) (i c : Nat) (p : Bool) (l : List (Str × Node)) (hl : l ≠ [])
    (j d : Nat) (q : Bool) (m : List (Str × Node)) (hij : i ≠ j) :
    eqNode sub (.obj i c p l) (.obj j d q m) = .ok false := by
  rw [eqNode_obj]
  have : (i == j) = false := by simp [hij]
  cases l with
  | nil => exact absurd rfl hl
  | cons x l => simp [this]

/-- Two objects with the same content that differ. -/
example : Same ann (.obj 8 5 false [("name".toList, .atom (.str "Ann".toList))]) ∧
    eqNode two ann (.obj 8 5 false [("name".toList, .atom (.str "Ann".toList))]) = .ok false := by
  refine ⟨.obj rfl ?_, C135_objects_violated two 7 5 false _ (by simp) 8 5 false _ (by decide)⟩
  intro k x y hx hy
  have := hx.symm.trans hy; cases this
  have hx' := List.mem_of_getElem? hx
  simp at hx'; subst hx'
  exact .atom .str

/-- **C135 is violated.** Objects without properties are equal whatever their classes, and equal to an empty
dictionary. -/
theorem C135_empty_violated (sub : Nat → Nat → Bool) (i c : Nat) (p : Bool) (j d : Nat) (q : Bool) :
    eqNode sub (.obj i c p []) (.obj j d q []) = .ok true ∧ eqNode sub (.obj i c p []) (.atom (.dict [])) = .ok true := by
  constructor
  · rw [eqNode_obj]; simp
  · rw [eqNode, objEq_eq]; simp [isMapping, keysOf]

/-- C135: of the plain values, an object without properties is equal to the empty dictionary alone, on either side of the
comparison; and of the objects, to those without properties alone. -/
theorem C135_empty_partial (sub : Nat → Nat → Bool) (i c : Nat) (p : Bool) :
    (∀ v, (eqNode sub (.obj i c p []) (.atom v) = .ok true ↔ v = .dict []) ∧
      eqNode sub (.atom v) (.obj i c p []) = eqNode sub (.obj i c p []) (.atom v)) ∧
    (∀ j d q m, j ≠ i → (eqNode sub (.obj i c p []) (.obj j d q m) = .ok true ↔ m = [])) := by
  refine ⟨fun v => ⟨?_, by rw [eqNode, eqNode]⟩, fun j d q m hj => ?_⟩
  · rw [eqNode, objEq_eq]
    cases v with
    | dict d => cases d <;> simp [isMapping, keysOf]
    | _ => simp [isMapping]
  · rw [eqNode_obj]
    cases m with
    | nil => simp
    | cons x m =>
      have : (i == j) = false := by simp [Ne.symm hj]
      simp [this]

example : eqNode two (.obj 7 5 false []) (.atom (.dict [])) = .ok true ∧
    eqNode two (.obj 7 5 false []) (.atom (.dict [("a".toList, .int 1)])) = .ok false := by
  constructor
  · exact ((C135_empty_partial two 7 5 false).1 _).1.2 rfl
  · rw [eqNode, objEq_eq]; rfl

/-- **C135 is violated.** An array is equal to no list and an object with properties to no dictionary, on either side
of the comparison. -/
theorem C135_plain_violated (sub : Nat → Nat → Bool) (v : Val) :
    (∀ i c l, eqNode sub (.arr i c l) (.atom v) = .ok false ∧ eqNode sub (.atom v) (.arr i c l) = .ok false) ∧
    (∀ i c p l, l ≠ [] → eqNode sub (.obj i c p l) (.atom v) = .ok false ∧ eqNode sub (.atom v) (.obj i c p l) = .ok false) := by
  refine ⟨fun i c l => ⟨by rw [eqNode], by rw [eqNode]⟩, fun i c p l hl => ?_⟩
  have : (l.length == 0) = false := by cases l with
    | nil => exact absurd rfl hl
    | cons x l => rfl
  constructor <;> (rw [eqNode, objEq_eq, this]; simp)

example : eqNode two (.arr 1 0 [.atom (.int 4)]) (.atom (.list [.int 4])) = .ok false :=
  ((C135_plain_violated two _).1 1 0 _).1

/-! ### C136: hashes -/

/-- **C136 is violated.** No instance has a hash, whatever it contains. -/
theorem C136_hash_violated (n : Node) : hashNode n = .ok () ↔ ∃ v, n = .atom v ∧ Scalar v := by
  cases n with
  | atom v => cases v <;> simp [hashNode, Query.hashable, Scalar]
  | arr i c l => simp [hashNode]
  | obj i c p l => simp [hashNode]

/-- **C136, exact behaviour.** An array with unique items is accepted exactly when all its items are plain values other
than lists and dictionaries, repeated or not; with any instance inside it fails with TypeError. -/
theorem C136_unique_violated (l : List Node) :
    ((∀ x ∈ l, ∃ v, x = .atom v ∧ Scalar v) → uniqueItems l = .ok ()) ∧
    ((∃ x ∈ l, ∀ v, x = .atom v → ¬ Scalar v) → uniqueItems l = .error .typeError) := by
  induction l with
  | nil => simp [uniqueItems]
  | cons x l ih =>
    by_cases h : ∃ v, x = .atom v ∧ Scalar v
    · have h1 := (C136_hash_violated x).2 h
      rw [uniqueItems, h1]
      refine ⟨fun h2 => ih.1 (fun y hy => h2 y (List.mem_cons_of_mem _ hy)), ?_⟩
      rintro ⟨y, hy, h2⟩
      rcases List.mem_cons.1 hy with rfl | hy
      · obtain ⟨v, hv, hs⟩ := h
        exact absurd hs (h2 v hv)
      · exact ih.2 ⟨y, hy, h2⟩
    · refine ⟨fun h2 => absurd (h2 x (by simp)) h, fun _ => ?_⟩
      have h1 : hashNode x = .error .typeError := by
        cases x with
        | atom v => cases v <;> simp_all [hashNode, Query.hashable, Scalar]
        | arr i c l => rfl
        | obj i c p l => rfl
      rw [uniqueItems, h1]

example : uniqueItems [.atom (.int 1), .atom (.int 1)] = .ok () ∧ uniqueItems [.atom (.int 1), ann] = .error .typeError := by
  constructor <;> rfl

/-! ### C137: a copy is equal to the original -/

/-- **C137, the part that holds.** A copy of an array is equal to the array, instances inside included. -/
theorem C137_array_partial (sub : Nat → Nat → Bool) (ho : Order sub) (at_ : Nat → Node) (i c : Nat) (l : List Node) (new : Nat)
    (h : Sound at_ (.arr i c l)) :
    eqNode sub (copy new (.arr i c l)) (.arr i c l) = .ok true ∧ eqNode sub (.arr i c l) (copy new (.arr i c l)) = .ok true := by
  have hl : ∀ x ∈ l, Sound at_ x := by cases h; assumption
  have : ∀ k : Nat, ∀ x y : Node, l[k]? = some x → l[k]? = some y → eqNode sub x y = .ok true := fun k x y hx hy => by
    have := hx.symm.trans hy; cases this
    exact eqNode_refl ho x (hl x (List.mem_of_getElem? hx))
  exact ⟨(eqNode_arr_iff ho _ _ _ _ _ _).2 (.inr ⟨rfl, rfl, this⟩), (eqNode_arr_iff ho _ _ _ _ _ _).2 (.inr ⟨rfl, rfl, this⟩)⟩

example : eqNode two (copy 20 listA) listA = .ok true := (C137_array_partial two two_order heap 1 0 _ 20 listA_sound).1

/-- **C137 is violated.** A copy of an object with properties is never equal to the object. -/
theorem C137_object_violated (sub : Nat → Nat → Bool) (i c : Nat) (p : Bool) (l : List (Str × Node)) (hl : l ≠ []) (new : Nat)
    (hn : new ≠ i) :
    eqNode sub (copy new (.obj i c p l)) (.obj i c p l) = .ok false ∧ eqNode sub (.obj i c p l) (copy new (.obj i c p l)) = .ok false :=
  ⟨C135_objects_violated sub new c p l hl i c p l hn, C135_objects_violated sub i c p l hl new c p l hn.symm⟩

example : eqNode two (copy 20 ann) ann = .ok false := (C137_object_violated two 7 5 false _ (by simp) 20 (by decide)).1

/-! ### C138: default objects -/

/-- **C138 is violated.** The value of a property of objects is never left out of the serialised object, although it is
the default: the default is an instance of its own. Only a value without properties is left out. -/
theorem C138_default_object_violated (sub : Nat → Nat → Bool) (i c : Nat) (p : Bool) (l : List (Str × Node)) (new : Nat)
    (hn : new ≠ i) (q : Bool) :
    leftOut sub (.obj i c p l) (.obj new c q l) = .ok l.isEmpty := by
  rw [leftOut, eqNode_obj]
  have : (i == new) = false := by simp [hn.symm]
  simp [this]

example : leftOut two ann (.obj 9 5 false [("name".toList, .atom (.str "Ann".toList))]) = .ok false :=
  C138_default_object_violated two 7 5 false _ 9 (by decide) false

/-- **C138, the part that holds.** The value of a property of arrays of plain values is left out exactly when it has the
content of the default. -/
theorem C138_default_array_partial (sub : Nat → Nat → Bool) (ho : Order sub) (at_ : Nat → Node) (value dflt : Node)
    (hv : Sound at_ value) (hd : Sound at_ dflt) (nv : NoObject value) (nd : NoObject dflt) :
    leftOut sub value dflt = .ok true ↔ Same value dflt := same_iff ho value dflt hv hd nv nd

example : leftOut two (grid 0) (grid 10) = .ok true := by
  simp [leftOut, grid, eqNode_arr two_order, eqItems, eqNode, pyEq, Query.num]

end Verif.Equality
