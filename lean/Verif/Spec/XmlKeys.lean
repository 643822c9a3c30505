import Verif.Model.XmlKeys
import Verif.Spec.XmlOptions
/-
Documents with other keys.
-/
namespace Verif.XmlKeys.Spec
open Xml (Dict)

mutual
/-- The value with other keys, at any depth. -/
def rekey (g : Str → Str) : Val → Val
  | .list l => .list (rekeyL g l)
  | .dict d => .dict (rekeyD g d)
  | v => v
def rekeyL (g : Str → Str) : List Val → List Val
  | [] => []
  | v :: l => rekey g v :: rekeyL g l
def rekeyD (g : Str → Str) : List (Str × Val) → List (Str × Val)
  | [] => []
  | (k, v) :: d => (g k, rekey g v) :: rekeyD g d
end

mutual
/-- The elements of the document keep their names. -/
def Keeps (g : Str → Str) : List XmlNs.Node → Prop
  | [] => True
  | n :: ns => KeepsN g n ∧ Keeps g ns
def KeepsN (g : Str → Str) : XmlNs.Node → Prop
  | .elem name _ content => g name = name ∧ Keeps g content
  | _ => True
end

/-- Neither a list nor a dictionary. -/
def Scalar : Val → Prop
  | .list _ => False
  | .dict _ => False
  | _ => True

mutual
/-- A document of which the names of elements are kept; attributes and texts are scalars, and lists are not items of lists. -/
def Kept (g : Str → Str) : Val → Prop
  | .list l => KeptL g l
  | .dict d => KeptD g d
  | _ => True
def KeptL (g : Str → Str) : List Val → Prop
  | [] => True
  | .list _ :: _ => False
  | v :: l => Kept g v ∧ KeptL g l
def KeptD (g : Str → Str) : List (Str × Val) → Prop
  | [] => True
  | (k, v) :: d => (((k = "#text".toList ∨ k = "#tail".toList ∨ k.head? = some '@') ∧ Scalar v)
      ∨ ((k ≠ "#text".toList ∧ k ≠ "#tail".toList ∧ k.head? ≠ some '@') ∧ g k = k ∧ Kept g v)) ∧ KeptD g d
end

end Verif.XmlKeys.Spec
