import Verif.Model.Paths
/-
What dotted names should mean, stated with lookups of single names only.
-/
namespace Verif.Paths.Spec

/-- The item under a name. -/
def item : Node → Str → Option Node
  | .dict items, p => AList.get? items (.name p)
  | .obj _ _ items, p => AList.get? items p
  | _, _ => none

/-- Successive lookups of names. -/
def descend : Node → List Str → Option Node
  | n, [] => some n
  | n, p :: ps => (item n p).bind (descend · ps)

/-- A name that can be part of a dotted name. -/
def Plain (p : Str) : Prop := p ≠ [] ∧ '.' ∉ p ∧ '[' ∉ p

/-- The dotted name of a list of names. -/
def dotted (ps : List Str) : Str := joinWith ['.'] ps

/-- No name is that of an attribute of the value it is looked up in, and no value on the way is None. -/
def Open (attr : Kind → Str → Bool) : Node → List Str → Prop
  | _, [] => True
  | n, p :: ps => attr n.kind p = false ∧ ∀ m, item n p = some m → (ps ≠ [] → m.kind ≠ .none) ∧ Open attr m ps

/-- A collection that accepts a value under a name. -/
def Accepts : Node → Str → Prop
  | .dict _, _ => True
  | .obj additional _ items, p => additional = true ∨ (AList.get? items p).isSome = true
  | _, _ => False

end Verif.Paths.Spec
