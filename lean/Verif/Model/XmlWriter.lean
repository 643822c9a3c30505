import Verif.Model.Xml
/-
Writing XML with a preprocessor and with `expand_iter`: /repo/ngoschema/utils/xmltodict.py 369-491.

Simplifications: as in `Verif.Xml`. A preprocessor gives a key another name or refuses it, and leaves the value as it is:
`names`. No `expand_iter` is the empty one.
-/
namespace Verif.XmlWriter
open Xml

structure W where
  c : Cfg
  names : Str → Option Str := some
  expand : Str := []

mutual
/-- xmltodict.py 369-452 `_emit`; 388-392: the preprocessor comes first. -/
def emit (w : W) (full : Bool) (depth : Nat) (key : Str) : Val → Res (List Event)
  | .list l => match w.names key with
    | none => .ok []
    | some key => emitItems w full depth key 0 l
  | .dict d => match w.names key with
    | none => .ok []
    | some key => wrap w.c depth key d (emitChildren w (depth + 1) d)
  | v => match w.names key with
    | none => .ok []
    | some key => wrap w.c depth key (leafDict w.c v) (.ok [])
/-- xmltodict.py 397-452, the loop; 403-404: an item that is a list. -/
def emitItems (w : W) (full : Bool) (depth : Nat) (key : Str) (index : Nat) : List Val → Res (List Event)
  | [] => .ok []
  | .dict d :: rest => do
    if full ∧ depth = 0 ∧ index > 0 then .error .valueError
    else
      let a ← wrap w.c depth key d (emitChildren w (depth + 1) d)
      let b ← emitItems w full depth key (index + 1) rest
      return a ++ b
  | .list l :: rest => do
    if full ∧ depth = 0 ∧ index > 0 then .error .valueError
    else
      let a ← (if w.expand = [] then wrap w.c depth key (leafDict w.c (.list l)) (.ok [])
        else wrap w.c depth key [(w.expand, .list l)]
          (if isChildKey w.expand then emit w true (depth + 1) w.expand (.list l) else .ok []) : Res (List Event))
      let b ← emitItems w full depth key (index + 1) rest
      return a ++ b
  | v :: rest => do
    if full ∧ depth = 0 ∧ index > 0 then .error .valueError
    else
      let a ← wrap w.c depth key (leafDict w.c v) (.ok [])
      let b ← emitItems w full depth key (index + 1) rest
      return a ++ b
/-- xmltodict.py 440-445: the children of an element. -/
def emitChildren (w : W) (depth : Nat) : List (Str × Val) → Res (List Event)
  | [] => .ok []
  | (k, v) :: rest =>
    if isChildKey k then do
      let a ← emit w true depth k v
      let b ← emitChildren w depth rest
      return a ++ b
    else emitChildren w depth rest
end

/-- xmltodict.py 478-480. -/
def emitRoots (w : W) (full : Bool) : Dict → Res (List Event)
  | [] => .ok []
  | (k, v) :: rest => do
    let a ← emit w full 0 k v
    let b ← emitRoots w full rest
    return a ++ b

/-- xmltodict.py 455-491 `unparse`. -/
def unparse (w : W) (full : Bool) (d : Dict) : Res (List Event) :=
  if full ∧ d.length ≠ 1 then .error .valueError else emitRoots w full d

end Verif.XmlWriter
