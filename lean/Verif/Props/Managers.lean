import Verif.Spec.Managers
/-
C364.
-/
namespace Verif.Managers
open Managers.Spec

theorem find_append (a b : List M) (ha : ∀ ms, M.ctx ms ∉ a) :
    findNsMgr (a ++ b) = (a.flatMap within).head?.or (findNsMgr b) := by
  induction a with
  | nil => simp
  | cons m a ih =>
    have := ih (fun ms hm => ha ms (List.mem_cons_of_mem _ hm))
    cases m with
    | mgr n => simp [findNsMgr, within]
    | ctx ms => exact absurd (List.mem_cons_self ..) (ha ms)
    | other => simpa [findNsMgr, within] using this

theorem find_child (ms ps : List M) : findNsMgr (createChild ms ps) = findNsMgr (ps ++ ms) := by
  cases ps with
  | nil => rfl
  | cons p ps => rfl

/-- As long as no context is put into another as a map, identifiers in objects, however deep, are read with the nearest
manager around, and with the default one if there is none. The object keeps that manager. -/
theorem C364_nearest_partial (h : How) (hu : Unnested h) :
    idManager h = (around h).head? ∧ idManager (.inside h) = (around h).head? ∧ (make h).kept = (around h).head? := by
  have key : idManager h = (around h).head? := by
    unfold idManager
    induction h with
    | new ps =>
      have := find_append ps [] hu
      simpa [maps, findNsMgr, around] using this
    | child h ps ih =>
      simp only [maps, find_child, around]
      rw [find_append ps _ hu.1, ih hu.2, List.head?_append]
    | inside h ih => exact ih hu
  exact ⟨key, key, key⟩

/-- What is in a context that is put into another as a map is passed over. -/
theorem C364_nested_violated (h : How) (inner : List M) : idManager (.child h [.ctx inner]) = idManager h := rfl

/-- The keys of foreign keys are read with the default manager, whatever managers are around. -/
theorem C364_foreign_violated (h : How) : keyManager h = none := rfl

/-- A manager put in front of the context of an object is used for its identifiers, but is not the one it keeps, unless
it already was. -/
theorem C364_kept_violated (h : How) (n : Nat) (hne : idManager h ≠ some n) :
    findNsMgr (prepend (make h) (.mgr n)).maps = some n ∧ (prepend (make h) (.mgr n)).kept ≠ some n :=
  ⟨rfl, hne⟩

/-- An object in an object in a child, with manager 2, of a context with manager 1. -/
def deep : How := .inside (.inside (.child (.new [.other, .mgr 1]) [.other, .mgr 2, .mgr 3]))

example : Unnested deep ∧ idManager deep = some 2 ∧ idManager (.inside (.new [.other, .mgr 1])) = some 1
    ∧ idManager (.inside (.new [])) = none ∧ keyManager deep = none ∧ around deep = [2, 3, 1]
    ∧ idManager (.child deep [.ctx [.mgr 9]]) = some 2 ∧ around (.child deep [.ctx [.mgr 9]]) = [9, 2, 3, 1]
    ∧ idManager deep ≠ some 5 := by
  refine ⟨⟨by simp, by simp [Unnested]⟩, rfl, rfl, rfl, rfl, ?_, rfl, ?_, by decide +kernel⟩
  · simp [around, deep, within]
  · simp [around, deep, within]

end Verif.Managers
