import Verif.Model.Query
/-
Equality, hash and copies of instances: protocols/collection_protocol.py 206-224 (`copy`, `__eq__`, `__hash__`), with
`Validator.check` (protocols/validator.py 91-101), `ObjectProtocol._check` (object_protocol.py 167-178), `Array._check`
(types/array.py 171-179), `Checker._check` (protocols/checker.py 15-24), `ObjectProtocol.__getitem__` on numbers
(object_protocol.py 371-374), uniqueness of items (types/array.py 52-59) and defaults in `Object._print_order`
(types/object.py 236-254).

Simplifications:
* Instances are trees of what reading their items gives: every item has been read once without error. Instances have an
  identity; two nodes with one identity are the same instance. An instance that contains itself is not a tree.
* Plain values are `Val`; the keys of plain dictionaries are texts.
* `sub c d`: the class numbered `c` derives from `d`, or is `d`. Classes are made by `build`, which makes the class its
  own `_pyType` (array_protocol.py 141, object_protocol.py 796).
* Of the parent of an object only whether there is one is kept: it is an object (contexts/object_protocol_context.py 16).
-/
namespace Verif.Equality
open Query (pyEq hashable)

inductive Node where
  | atom (v : Val)
  | arr (id cls : Nat) (items : List Node)
  | obj (id cls : Nat) (parent : Bool) (items : List (Str × Node))

/-- `cls.check(value)` of a class of objects: object_protocol.py 168-169. -/
def isMapping : Node → Bool
  | .atom (.dict _) => true
  | .obj _ _ _ _ => true
  | _ => false

/-- The keys of a mapping. -/
def keysOf : Node → List Str
  | .atom (.dict d) => d.map Prod.fst
  | .obj _ _ _ items => items.map Prod.fst
  | _ => []

/-- `self[0] != key`: `self[0]` is the parent (object_protocol.py 372-373). None differs from a text; a parent
compares the text with itself by `__eq__`, where `check` fails. -/
def parentDiffers (parent : Bool) (key : Str) : Bool :=
  if parent then !isMapping (.atom (.str key)) else !pyEq .none (.str key)

/-- collection_protocol.py 218-221 on an object: `self[i]` of `i > 0` is a TypeError (`'.' in key`). -/
def keyLoop (parent : Bool) : Nat → List Str → Res Bool
  | _, [] => .ok true
  | 0, k :: ks => if parentDiffers parent k then .ok false else keyLoop parent 1 ks
  | _ + 1, _ :: _ => .error .typeError

/-- `obj.__eq__(other)` for another object than itself: `n` is the number of its items. -/
def objEq (parent : Bool) (n : Nat) (other : Node) : Res Bool :=
  if !isMapping other then .ok false
  else if n != (keysOf other).length then .ok false
  else keyLoop parent 0 (keysOf other)

/-- `type(b)` is another class that derives from `type(a)`: Python then asks `b` first. -/
def derives (sub : Nat → Nat → Bool) (a b : Nat) : Bool := sub b a && b != a

mutual
/-- `a == b`. Plain values answer NotImplemented to an instance, which is then asked. -/
def eqNode (sub : Nat → Nat → Bool) : Node → Node → Res Bool
  | .atom v, .atom w => .ok (pyEq v w)
  | .atom _, .arr _ _ _ => .ok false
  | .atom v, .obj _ _ p items => objEq p items.length (.atom v)
  | .obj _ _ p items, .atom v => objEq p items.length (.atom v)
  | .arr _ _ _, .atom _ => .ok false
  | .arr _ _ _, .obj _ _ _ _ => .ok false
  | .obj _ _ p items, .arr i c l => objEq p items.length (.arr i c l)
  | .obj i c p items, .obj j d q items' =>
    if i = j then .ok true
    else if derives sub c d then objEq q items'.length (.obj i c p items)
    else objEq p items.length (.obj j d q items')
  | .arr i c l, .arr j d m =>
    if i = j then .ok true
    else if derives sub c d then
      (if sub c d && l.length == m.length then eqItems sub m l else .ok false)
    else (if sub d c && l.length == m.length then eqItems sub l m else .ok false)
termination_by a b => sizeOf a + sizeOf b
/-- collection_protocol.py 218-221 on arrays of the same length. -/
def eqItems (sub : Nat → Nat → Bool) : List Node → List Node → Res Bool
  | x :: l, y :: m => match eqNode sub x y with
    | .error e => .error e
    | .ok false => .ok false
    | .ok true => eqItems sub l m
  | _, _ => .ok true
termination_by l m => sizeOf l + sizeOf m
end

/-- `hash(x)`. The one of instances calls `tuple` with two arguments (collection_protocol.py 224). -/
def hashNode : Node → Res Unit
  | .atom v => if hashable v then .ok () else .error .typeError
  | .arr _ _ _ => .error .typeError
  | .obj _ _ _ _ => .error .typeError

/-- types/array.py 55-58: the hashes of the items; the error for duplicates is not raised. -/
def uniqueItems : List Node → Res Unit
  | [] => .ok ()
  | x :: l => match hashNode x with
    | .error e => .error e
    | .ok _ => uniqueItems l

/-- collection_protocol.py 206-207 `copy`: the same items under a new identity, and the same parent. -/
def copy (id : Nat) : Node → Node
  | .arr _ c l => .arr id c l
  | .obj _ c p items => .obj id c p items
  | .atom v => .atom v

/-- types/object.py 242-252: a property is left out when its value equals the default. The default is converted anew:
for a property of objects it is an instance of its own. -/
def leftOut (sub : Nat → Nat → Bool) (value dflt : Node) : Res Bool := eqNode sub value dflt

end Verif.Equality
