import Verif.Lemmas.Mro
/-
C09, C10: `mro`; C11: `gcs`.
-/
namespace Verif.Mro
variable {α : Type} [DecidableEq α]

/-! ### C09 -/

/-- A returned order is consistent, and contains exactly the bases and the classes of their own
linearisations. -/
theorem C09_mro_sound (lin : α → List α) (bases L : List α) (h : mro lin bases = .ok L) :
    Consistent lin bases L ∧ ∀ x, x ∈ L ↔ x ∈ bases ∨ ∃ b ∈ bases, x ∈ lin b := by
  obtain ⟨M, rfl, hn, hsub, hin⟩ := mroLoop_sound _ _ _ h (by simp) (by simp)
  have hb : bases.Sublist L := hsub bases (by simp)
  have hl : ∀ b ∈ bases, (lin b).Sublist L := fun b hb => hsub _ (by simp; exact .inl ⟨b, hb, rfl⟩)
  refine ⟨⟨hn, hl, hb⟩, fun x => ⟨fun hx => ?_, ?_⟩⟩
  · obtain ⟨s, hs, hxs⟩ := hin x hx
    simp only [List.mem_append, List.mem_map, List.mem_singleton] at hs
    rcases hs with ⟨b, hb, rfl⟩ | rfl
    · exact .inr ⟨b, hb, hxs⟩
    · exact .inl hxs
  · rintro (hx | ⟨b, hb', hx⟩)
    · exact hb.subset hx
    · exact (hl b hb').subset hx

/-! ### C10 -/

/-- `mro` raises exactly when no consistent linearisation exists; then it raises `TypeError`; it
always ends. -/
theorem C10_mro_fails_iff_inconsistent (lin : α → List α) (bases : List α) :
    (mro lin bases = .error .typeError ↔ ¬ ∃ L, Consistent lin bases L) ∧
    ((∃ L, mro lin bases = .ok L) ↔ ∃ L, Consistent lin bases L) := by
  have complete : (∃ L, Consistent lin bases L) → ∃ M, mro lin bases = .ok M := by
    rintro ⟨L, h1, h2, h3⟩
    refine mroLoop_complete _ _ L h1 fun s hs => ?_
    simp only [List.mem_append, List.mem_map, List.mem_singleton] at hs
    rcases hs with ⟨b, hb, rfl⟩ | rfl
    · exact h2 b hb
    · exact h3
  have sound : (∃ L, mro lin bases = .ok L) → ∃ L, Consistent lin bases L :=
    fun ⟨L, h⟩ => ⟨L, (C09_mro_sound lin bases L h).1⟩
  refine ⟨⟨fun h hc => ?_, fun h => ?_⟩, sound, complete⟩
  · obtain ⟨M, hM⟩ := complete hc; rw [hM] at h; cases h
  · cases hm : mro lin bases with
    | ok L => exact absurd (sound ⟨L, hm⟩) h
    | error e => rw [mroLoop_error _ _ hm]

/-- Linearisations of a small hierarchy: 1, 2 derive from 0; 3 from 1, 2; 4 from 2, 1. -/
def exLin : Nat → List Nat
  | 0 => [0] | 1 => [1, 0] | 2 => [2, 0] | 3 => [3, 1, 2, 0] | 4 => [4, 2, 1, 0] | _ => []

theorem exMro : mro exLin [1, 2] = .ok [1, 2, 0] := by
  decide +kernel

theorem exMroBad : mro exLin [3, 4] = .error .typeError := by
  decide +kernel

example : Consistent exLin [1, 2] [1, 2, 0] ∧ ¬ ∃ L, Consistent exLin [3, 4] L :=
  ⟨(C09_mro_sound _ _ _ exMro).1, (C10_mro_fails_iff_inconsistent _ _).1.1 exMroBad⟩

/-! ### C11 -/

/-- `x` is common to the linearisations of all the classes. -/
def Common (lin : α → List α) (classes : List α) (x : α) : Prop := ∀ c ∈ classes, x ∈ lin c

/-- `gcs` returns the first common class in the order of the first class's linearisation. -/
theorem C11_gcs_first_common (lin : α → List α) (c : α) (cs : List α) (x : α) :
    gcs lin (c :: cs) = .ok (some x) ↔
      ∃ pre post, lin c = pre ++ x :: post ∧ Common lin (c :: cs) x ∧
        ∀ y ∈ pre, ¬ Common lin (c :: cs) y := by
  have hall : ∀ y, ((c :: cs).map lin).all (fun m => m.contains y) = true ↔ Common lin (c :: cs) y := by
    intro y; simp [Common]
  simp only [gcs, List.map_cons]
  rw [show (lin c :: cs.map lin) = (c :: cs).map lin from rfl]
  constructor
  · intro h
    have h := Except.ok.inj h
    rw [List.find?_eq_some_iff_append] at h
    obtain ⟨h1, pre, post, h2, h3⟩ := h
    refine ⟨pre, post, h2, (hall x).1 h1, fun y hy hc => ?_⟩
    have := h3 y hy
    rw [(hall y).2 hc] at this; cases this
  · rintro ⟨pre, post, h1, h2, h3⟩
    congr 1
    rw [List.find?_eq_some_iff_append]
    refine ⟨(hall x).2 h2, pre, post, h1, fun y hy => ?_⟩
    rw [Bool.not_eq_true', Bool.eq_false_iff]
    exact fun h => h3 y hy ((hall y).1 h)

/-- `gcs` returns `None` exactly when the classes have nothing in common; it needs a class. -/
theorem C11_gcs_none (lin : α → List α) (c : α) (cs : List α) :
    (gcs lin (c :: cs) = .ok none ↔ ∀ x, ¬ Common lin (c :: cs) x) ∧
    gcs lin ([] : List α) = .error .indexError := by
  refine ⟨?_, rfl⟩
  have hall : ∀ y, ((c :: cs).map lin).all (fun m => m.contains y) = true ↔ Common lin (c :: cs) y := by
    intro y; simp [Common]
  simp only [gcs, List.map_cons]
  rw [show (lin c :: cs.map lin) = (c :: cs).map lin from rfl]
  constructor
  · intro h x hx
    have h := Except.ok.inj h
    rw [List.find?_eq_none] at h
    exact h x (hx c (by simp)) ((hall x).2 hx)
  · intro h
    congr 1
    rw [List.find?_eq_none]
    intro x _ hx; exact h x ((hall x).1 hx)

example : gcs exLin [3, 4] = .ok (some 1) ∧ gcs exLin [3, 5] = .ok none := by decide

end Verif.Mro
