import Verif.Model.Managers
/-
The manager that should be used: the nearest one, in nested contexts too.
-/
namespace Verif.Managers.Spec

/-- The managers in a map, in order. -/
def within : M → List Nat
  | .mgr n => [n]
  | .ctx ms => ms.flatMap within
  | .other => []

/-- The managers around, nearest first. -/
def around : How → List Nat
  | .new ps => ps.flatMap within
  | .child h ps => ps.flatMap within ++ around h
  | .inside h => around h

/-- No context is put into another as a map. -/
def Unnested : How → Prop
  | .new ps => ∀ ms, .ctx ms ∉ ps
  | .child h ps => (∀ ms, .ctx ms ∉ ps) ∧ Unnested h
  | .inside h => Unnested h

end Verif.Managers.Spec
