import Verif.Model.ObjDefault
/-
What the default of an object type should be.
-/
namespace Verif.ObjDefault.Spec
open Types

/-- The mapping has a value under the name. -/
def Has (m : List (Str × Val)) (k : Str) (v : Val) : Prop := AList.get? m k = some v ∧ v ≠ .none

/-- The property is declared with a default. -/
def Declared (o : ObjDecl) (k : Str) (d : Val) : Prop := AList.get? o.props k = some d ∧ d.truthy = true

/-- No list and no mapping. -/
def Plain : Val → Prop
  | .list _ | .dict _ => False
  | _ => True

end Verif.ObjDefault.Spec
