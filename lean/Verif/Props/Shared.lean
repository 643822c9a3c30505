import Verif.Model.Shared
import Verif.Lemmas.Classes
import Verif.Props.Topo
/-
C124, C125: state shared between a class and its instances.
-/
namespace Verif.Shared
open Classes (updDep)

/-! ### C124 -/

/-- `y` was detected as an input of `x` in the value. -/
def Input (props : List Str) (v : Value) (x y : Str) : Prop := ∃ ins, (x, ins) ∈ v.inputs ∧ y ∈ ins ∧ y ∈ props

theorem get?_updDep (m : AList Str (List Str)) (k k' : Str) (xs : List Str) (y : Str) :
    y ∈ ((updDep m k xs).get? k').getD [] ↔ y ∈ (m.get? k').getD [] ∨ (k' = k ∧ y ∈ xs) := by
  unfold updDep
  by_cases h : k = k'
  · subst h; simp [AList.get?_set_self]
  · rw [AList.get?_set_ne _ _ h]
    constructor
    · exact .inl
    · rintro (h' | ⟨rfl, -⟩)
      · exact h'
      · exact absurd rfl h

theorem mem_withInputs (props : List Str) (deps : AList Str (List Str)) (v : Value) (k y : Str) :
    y ∈ ((withInputs props deps v).get? k).getD [] ↔ y ∈ (deps.get? k).getD [] ∨ Input props v k y := by
  unfold withInputs Input
  generalize v.inputs = ins
  induction ins generalizing deps with
  | nil => simp
  | cons q ins ih =>
    simp only [List.foldl_cons]
    rw [ih]
    split
    · rename_i he
      simp only [List.isEmpty_iff] at he
      constructor
      · rintro (h | ⟨i, hi, h⟩)
        · exact .inl h
        · exact .inr ⟨i, by simp [hi], h⟩
      · rintro (h | ⟨i, hi, h⟩)
        · exact .inl h
        · rcases List.mem_cons.1 hi with rfl | hi
          · simp only at he; rw [he] at h; cases h.1
          · exact .inr ⟨i, hi, h⟩
    · rw [get?_updDep]
      simp only [List.mem_filter, decide_eq_true_eq]
      constructor
      · rintro ((h | ⟨rfl, h⟩) | ⟨i, hi, h⟩)
        · exact .inl h
        · exact .inr ⟨q.2, by simp, h⟩
        · exact .inr ⟨i, by simp [hi], h⟩
      · rintro (h | ⟨i, hi, h⟩)
        · exact .inl (.inl h)
        · rcases List.mem_cons.1 hi with rfl | hi
          · exact .inl (.inr ⟨rfl, h⟩)
          · exact .inr ⟨i, hi, h⟩

theorem keys_after (deps dict : AList Str (List Str)) (b : Bool) : (after deps dict b).keys = deps.keys := by
  simp [after, AList.keys, Function.comp_def]

theorem get?_after (deps dict : AList Str (List Str)) (b : Bool) (k : Str) :
    (after deps dict b).get? k = (deps.get? k).map
      (fun s => let s := (dict.get? k).getD s; if b then s.filter (· ≠ k) else s) := by
  unfold after
  induction deps with
  | nil => rfl
  | cons q deps ih =>
    simp only [List.map_cons, AList.get?]
    split
    · rename_i h; subst h; rfl
    · exact ih

theorem mem_after (ord : List Str → List Str) (props : List Str) (deps : AList Str (List Str)) (v : Value) (k y : Str)
    (hk : k ∈ deps.keys) (hy : y ≠ k) :
    y ∈ (((callOrder ord props deps v).2).get? k).getD [] ↔ y ∈ (deps.get? k).getD [] ∨ Input props v k y := by
  rw [← mem_withInputs]
  simp only [callOrder, get?_after]
  rw [← AList.get?_isSome, Option.isSome_iff_exists] at hk
  obtain ⟨s, hs⟩ := hk
  have hd : ((withInputs props deps v).get? k).isSome = true := by
    have : ∀ (ins : AList Str (List Str)) (m : AList Str (List Str)), (m.get? k).isSome = true →
        ((ins.foldl (fun m q => if q.2.isEmpty then m else updDep m q.1 (q.2.filter (· ∈ props))) m).get? k).isSome = true := by
      intro ins
      induction ins with
      | nil => exact fun m h => h
      | cons q ins ih =>
        intro m h
        refine ih _ ?_
        dsimp only
        split
        · exact h
        · unfold updDep
          by_cases hq : q.1 = k
          · rw [hq, AList.get?_set_self]; rfl
          · rw [AList.get?_set_ne _ _ hq]; exact h
    exact this v.inputs deps (by rw [hs]; rfl)
  obtain ⟨t, ht⟩ := Option.isSome_iff_exists.1 hd
  simp only [hs, ht, Option.map_some, Option.getD_some]
  split
  · simp [hy]
  · rfl

/-- C124, what really happens. Creating instances changes the dependencies of the class: to the set of every property with
declared dependencies it adds the inputs found in every instance so far. -/
theorem C124_class_after_instances_partial (ord : List Str → List Str) (props : List Str) (deps : AList Str (List Str))
    (vs : List Value) :
    (afterAll ord props deps vs).keys = deps.keys ∧
    ∀ k ∈ deps.keys, ∀ y, y ≠ k → (y ∈ ((afterAll ord props deps vs).get? k).getD [] ↔
      y ∈ (deps.get? k).getD [] ∨ ∃ v ∈ vs, Input props v k y) := by
  unfold afterAll
  induction vs generalizing deps with
  | nil => simp
  | cons v vs ih =>
    simp only [List.foldl_cons]
    have hkeys : ((callOrder ord props deps v).2).keys = deps.keys := keys_after _ _ _
    obtain ⟨i1, i2⟩ := ih (callOrder ord props deps v).2
    refine ⟨i1.trans hkeys, fun k hk y hy => ?_⟩
    rw [i2 k (by rw [hkeys]; exact hk) y hy, mem_after ord props deps v k y hk hy]
    simp only [List.mem_cons, exists_eq_or_imp]
    exact or_assoc

/-- C124, the property itself. A declared dependency of a property on itself is forgotten by the class as soon as an instance with
any entry is created. -/
theorem C124_self_partial (ord : List Str → List Str) (props : List Str) (deps : AList Str (List Str)) (v : Value) (k : Str)
    (hk : k ∈ deps.keys) :
    k ∈ (((callOrder ord props deps v).2).get? k).getD [] ↔ v.keys = [] ∧ (k ∈ (deps.get? k).getD [] ∨ Input props v k k) := by
  rw [← mem_withInputs]
  simp only [callOrder, get?_after]
  rw [← AList.get?_isSome, Option.isSome_iff_exists] at hk
  obtain ⟨s, hs⟩ := hk
  rw [hs]
  cases hv : v.keys with
  | cons x xs => simp
  | nil =>
    have hd : ((withInputs props deps v).get? k).isSome = true := by
      have : ∀ (ins : AList Str (List Str)) (m : AList Str (List Str)), (m.get? k).isSome = true →
          ((ins.foldl (fun m q => if q.2.isEmpty then m else updDep m q.1 (q.2.filter (· ∈ props))) m).get? k).isSome = true := by
        intro ins
        induction ins with
        | nil => exact fun m h => h
        | cons q ins ih =>
          intro m h
          refine ih _ ?_
          dsimp only
          split
          · exact h
          · unfold updDep
            by_cases hq : q.1 = k
            · rw [hq, AList.get?_set_self]; rfl
            · rw [AList.get?_set_ne _ _ hq]; exact h
      exact this v.inputs deps (by rw [hs]; rfl)
    obtain ⟨t, ht⟩ := Option.isSome_iff_exists.1 hd
    simp [ht]

example : ((callOrder id [] [("a".toList, ["a".toList, "b".toList])] ⟨["c".toList], []⟩).2).get? "a".toList = some ["b".toList] ∧
    ((callOrder id [] [("a".toList, ["a".toList, "b".toList])] ⟨[], []⟩).2).get? "a".toList = some ["a".toList, "b".toList] := by
  decide +kernel

/-- C124. The dependencies of a class are those declared, whatever instances were created, if no instance had inputs for a
property with declared dependencies other than those dependencies. -/
theorem C124_unchanged_partial (ord : List Str → List Str) (props : List Str) (deps : AList Str (List Str))
    (vs : List Value) (h : ∀ v ∈ vs, ∀ k ∈ deps.keys, ∀ y, Input props v k y → y ∈ (deps.get? k).getD []) :
    ∀ k y, y ≠ k → (y ∈ ((afterAll ord props deps vs).get? k).getD [] ↔ y ∈ (deps.get? k).getD []) := by
  intro k y hy
  obtain ⟨h1, h2⟩ := C124_class_after_instances_partial ord props deps vs
  by_cases hk : k ∈ deps.keys
  · rw [h2 k hk y hy]
    constructor
    · rintro (h' | ⟨v, hv, hi⟩)
      · exact h'
      · exact h v hv k hk y hi
    · exact .inl
  · have : k ∉ (afterAll ord props deps vs).keys := by rw [h1]; exact hk
    rw [AList.get?_eq_none.2 hk, AList.get?_eq_none.2 this]

/-- C124, the order itself. The keys of an instance come after those they depend on, by declaration, by an input of this
instance or (as the class has changed) by an input of an earlier one. -/
theorem C124_order_sound_partial (ord : List Str → List Str) (hord : ∀ l, (ord l).Perm l) (props : List Str)
    (deps : AList Str (List Str)) (v : Value) (hw : deps.WF) (hk : v.keys.Nodup)
    (hac : ¬ Topo.Cyclic (withInputs props deps v)) :
    ∃ l, (callOrder ord props deps v).1 = (l, none) ∧ l.Perm v.keys ∧
      ∀ x ∈ v.keys, ∀ y ∈ v.keys, y ≠ x → (y ∈ (deps.get? x).getD [] ∨ Input props v x y) → [y, x].Sublist l := by
  have hwf : (withInputs props deps v).WF := by
    have aux : ∀ (ins : AList Str (List Str)) (m : AList Str (List Str)), m.WF →
        AList.WF (ins.foldl (fun m q => if q.2.isEmpty then m else updDep m q.1 (q.2.filter (· ∈ props))) m) := by
      intro ins
      induction ins with
      | nil => exact fun m h => h
      | cons q ins ih =>
        intro m h
        refine ih _ ?_
        dsimp only
        split
        · exact h
        · exact AList.wf_set h _ _
    exact aux v.inputs deps hw
  obtain ⟨rest, h1, h2, h3, h4⟩ := Topo.C14_call_order ord hord [] v.keys (withInputs props deps v) (by simp) hk hwf hac
  simp only [List.nil_append] at h1 h2
  refine ⟨rest, h1, ?_, ?_⟩
  · refine (List.perm_ext_iff_of_nodup h2 hk).2 fun x => ?_
    rw [h3]; simp
  · intro x hx y hy hne hd
    rw [← mem_withInputs] at hd
    refine h4 x y ((h3 x).2 ⟨hx, by simp⟩) ((h3 y).2 ⟨hy, by simp⟩) (.single ?_)
    cases hg : (withInputs props deps v).get? x with
    | none => rw [hg] at hd; cases hd
    | some ds => rw [hg] at hd; exact ⟨ds, AList.mem_of_get? hg, hd, hne⟩

/-- Properties `a`, `b`, `x`, `y`; `a` depends on `x` and `b` on `y`. -/
def exProps : List Str := ["a".toList, "b".toList, "x".toList, "y".toList]
def exDeps : AList Str (List Str) := [("a".toList, ["x".toList]), ("b".toList, ["y".toList])]
/-- An instance whose `a` is a template using `b`, and one whose `b` is a template using `a`. -/
def exFirst : Value := ⟨["a".toList, "b".toList], [("a".toList, ["b".toList])]⟩
def exSecond : Value := ⟨["a".toList, "b".toList], [("b".toList, ["a".toList])]⟩

example : (callOrder id exProps exDeps exFirst).1 = (["b".toList, "a".toList], none) := by decide +kernel
example : exDeps.WF ∧ exFirst.keys.Nodup ∧ (Topo.topologicalSort (withInputs exProps exDeps exFirst)).2 = none := by
  refine ⟨?_, ?_, ?_⟩
  · unfold AList.WF; decide
  · decide
  · decide +kernel

/-- C124 fails: the second instance can be created on its own, but not after the first one. -/
theorem C124_instances_interfere_violated : ∃ (props : List Str) (deps : AList Str (List Str)) (v v' : Value),
    (callOrder id props deps v').1.2 = none ∧
    (callOrder id props (afterAll id props deps [v]) v').1.2 = some .assertionError :=
  ⟨exProps, exDeps, exFirst, exSecond, by decide +kernel, by decide +kernel⟩

/-! ### C125 -/

/-- C125, what really happens: every collection type has the names given to any of them. -/
theorem C125_shared_sets_partial (given : List (List Str)) (i : Nat) (hi : i < given.length) :
    (Types.run given).notValidatedOf i = some given.flatten := by
  have : ∀ (g : List (List Str)) (s : Types), (g.foldl Types.create s).notValidated = s.notValidated ++ g.flatten ∧
      (g.foldl Types.create s).given = s.given ++ g := by
    intro g
    induction g with
    | nil => intro s; simp
    | cons x g ih =>
      intro s
      obtain ⟨h1, h2⟩ := ih (s.create x)
      rw [List.foldl_cons, h1, h2]
      simp [Types.create]
  obtain ⟨h1, h2⟩ := this given {}
  unfold Types.run Types.notValidatedOf
  rw [h1, h2]
  simp [hi]

/-- C125 fails: creating a type changes the set of the one created before. -/
theorem C125_other_type_violated : ∃ (given : List (List Str)) (i : Nat) (own : List Str) (k : Str),
    given[i]? = some own ∧ k ∉ own ∧ ∃ s, (Types.run given).notValidatedOf i = some s ∧ k ∈ s :=
  ⟨[["a".toList], ["b".toList]], 0, ["a".toList], "b".toList, rfl, by decide, _,
    C125_shared_sets_partial _ _ (by decide), by decide⟩

end Verif.Shared
