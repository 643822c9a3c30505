import Verif.Model.Copy
/-
Specification for C139: the content of an object as seen from outside, path by path, and what an assignment does to
it.
-/
namespace Verif.Copy

/-- What is at a path in a plain value; every object is shown as `{}`. -/
def lookVal : Val → List Str → Option Val
  | .dict _, [] => some (.dict [])
  | v, [] => some v
  | .dict d, k :: ks => match AList.get? d k with
    | none => none
    | some v => lookVal v ks
  | _, _ :: _ => none

/-- What is at a path in an item. -/
def lookSlot (h : Heap) : Slot → List Str → Option Val
  | .plain v, p => lookVal v p
  | .inst _, [] => some (.dict [])
  | .inst i, k :: ks => match (h.data i).get? k with
    | none => none
    | some s => lookSlot h s ks

/-- What is at a path in an object. -/
def look (h : Heap) (o : Nat) (p : List Str) : Option Val := lookSlot h (.inst o) p

/-- A content after an assignment: nothing happens if there is no object to assign to. -/
def updated (view : List Str → Option Val) (path : List Str) (k : Str) (v : Val) (p : List Str) : Option Val :=
  if view path = some (.dict []) ∧ (path ++ [k]) <+: p then lookVal v (p.drop (path.length + 1)) else view p

/-- The content after the operations done on an object; those on other objects do not matter. -/
def after (o : Nat) (view : List Str → Option Val) : List (Nat × Op) → List Str → Option Val
  | [] => view
  | (i, .assign path k v) :: l => after o (if i = o then updated view path k v else view) l
  | (_, .read _) :: l => after o view l

/-- No instance refers to an identity that is not in use. -/
def Closed (h : Heap) : Prop := ∀ i k j, i < h.next → (h.data i).get? k = some (.inst j) → j < h.next

end Verif.Copy
