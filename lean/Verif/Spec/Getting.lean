import Verif.Model.Getting
import Verif.Spec.Query
/-
What C328 says of asking an array for an item.
-/
namespace Verif.Getting.Spec
open Query (pyEq operatorNames)

/-- A name that stands for itself in a query. -/
structure Flat (k : Str) : Prop where
  single : ∀ a b, k ≠ a ++ '_' :: '_' :: b
  notOp : k ∉ operatorNames
  notAt : ∀ s, k ≠ '@' :: s

/-- A value that is there. -/
def hasKey (d : List (Str × Val)) (k : Str) (v : Val) : Bool :=
  match AList.get? d k with
  | some w => w ≠ .none && pyEq w v
  | none => false

/-- An item that has the values asked for. -/
def matchesKeys (kw : List (Str × Val)) : Val → Bool
  | .dict d => !d.isEmpty && kw.all fun e => hasKey d e.1 e.2
  | _ => false

/-- An item is an instance. -/
def IsObject (v : Val) : Prop := ∃ d, v = .dict d

end Verif.Getting.Spec
