import Verif.Model.XmlWriter
/-
Documents without what is refused, documents with the lists inside lists named, and documents with other names.
-/
namespace Verif.XmlWriter.Spec
open Xml

mutual
/-- The value without the elements whose name has no new name, at any depth; texts, attributes and lists inside lists
(which are written as text) stay. -/
def prune (names : Str → Option Str) : Val → Val
  | .list l => .list (pruneL names l)
  | .dict d => .dict (pruneD names d)
  | v => v
def pruneL (names : Str → Option Str) : List Val → List Val
  | [] => []
  | .list r :: l => .list r :: pruneL names l
  | v :: l => prune names v :: pruneL names l
def pruneD (names : Str → Option Str) : List (Str × Val) → List (Str × Val)
  | [] => []
  | (k, v) :: d =>
    if k = "#text".toList ∨ k = "#tail".toList ∨ k.head? = some '@' then (k, v) :: pruneD names d
    else if names k = none then pruneD names d
    else (k, prune names v) :: pruneD names d
end

mutual
/-- A list that is an item of a list is a dictionary with the list under `e`. -/
def expanded (e : Str) : Val → Val
  | .list l => .list (expandedL e l)
  | .dict d => .dict (expandedD e d)
  | v => v
def expandedL (e : Str) : List Val → List Val
  | [] => []
  | .list l :: r => .dict [(e, .list (expandedL e l))] :: expandedL e r
  | v :: r => expanded e v :: expandedL e r
def expandedD (e : Str) : List (Str × Val) → List (Str × Val)
  | [] => []
  | (k, v) :: d =>
    (k, if k = "#text".toList ∨ k = "#tail".toList ∨ k.head? = some '@' then v else expanded e v) :: expandedD e d
end

/-- A tag with its new name. -/
def renamed (names : Str → Option Str) : Event → Event
  | .start k attrs => .start ((names k).getD k) attrs
  | .chars s => .chars s
  | .stop k => .stop ((names k).getD k)

end Verif.XmlWriter.Spec
