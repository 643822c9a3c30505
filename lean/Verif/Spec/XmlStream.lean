import Verif.Spec.Xml
import Verif.Model.XmlStream
/-
Specification for C298-C300: the elements at a depth of an XML tree.
-/
namespace Verif.XmlStream
open Xml

/-- An element with the way that leads to it. -/
structure Found where
  path : Path
  content : List Node

mutual
/-- The elements `depth + 1` levels down, in document order (the root is at level 1, `depth = 0`). -/
def elements : Nat → Path → Node → List Found
  | _, _, .text _ => []
  | 0, path, .elem name attrs content => [⟨path ++ [(name, attrs)], content⟩]
  | depth + 1, path, .elem name attrs content => elementsL depth (path ++ [(name, attrs)]) content
def elementsL : Nat → Path → List Node → List Found
  | _, _, [] => []
  | depth, path, n :: ns => elements depth path n ++ elementsL depth path ns
end

mutual
/-- There is no text outside the elements `depth + 1` levels down. -/
def Bare : Nat → Node → Prop
  | _, .text _ => False
  | 0, .elem _ _ _ => True
  | depth + 1, .elem _ _ content => BareL depth content
def BareL : Nat → List Node → Prop
  | _, [] => True
  | depth, n :: ns => Bare depth n ∧ BareL depth ns
end

/-- All the text directly in an element. -/
def textOf : List Node → Str
  | [] => []
  | .text s :: ns => s ++ textOf ns
  | .elem _ _ _ :: ns => textOf ns

/-- What is given for an element: its children by tag, or else its text and the text read before it. -/
def itemOf (fl : Str → Bool) (before : Str) (content : List Node) : Option Val :=
  if kidsOf fl content = [] then
    if before ++ textOf content = [] then none else some (.str (before ++ textOf content))
  else some (.dict (grouped fl (kidsOf fl content)))

mutual
/-- The elements with what is given for them. `before`: the text since the last end of an element that is not inside an
item; the second component is that text after the node. -/
def items (fl : Str → Bool) : Nat → Path → Str → Node → List Call × Str
  | _, _, before, .text s => ([], before ++ s)
  | 0, path, before, .elem name attrs content => ([⟨path ++ [(name, attrs)], itemOf fl before content⟩], [])
  | depth + 1, path, before, .elem name attrs content => ((itemsL fl depth (path ++ [(name, attrs)]) before content).1, [])
def itemsL (fl : Str → Bool) : Nat → Path → Str → List Node → List Call × Str
  | _, _, before, [] => ([], before)
  | depth, path, before, n :: ns =>
    let r := items fl depth path before n
    let q := itemsL fl depth path r.2 ns
    (r.1 ++ q.1, q.2)
end

/-- `l` up to and including the first call after which the callback does not go on. -/
def Until (cb : List Call → Bool) (l calls : List Call) : Prop :=
  calls <+: l ∧ (∀ p, p <+: calls → p ≠ [] → p ≠ calls → cb p = true) ∧
    (calls = l ∨ (calls ≠ [] ∧ cb calls = false))

end Verif.XmlStream
