import Verif.Num
/-
Dotted names: `split_cname` (protocols/object_protocol.py 44-53), item access and assignment by dotted name
(`__getitem__` 381-411, `__setitem__` 413-434), `resolve_cname_path` and `resolve_cname` (323-366), with
`ObjectProtocol.__getattr__` (289-321), and canonical names of instances (models/instances.py 40-45).

Simplifications:
* An instance is a tree of what reading its items gives. The object the lookup starts from has no parent; the parent of
  a nested instance is the closest object above it (contexts/object_protocol_context.py 16).
* Every declared property is among the items of an object; no property is named with the empty text. Properties are
  read by the name they are declared with: no alias and no translated name. `_attributeByName` is off, its default.
* `attr k p`: the lookup of the attribute `p` on a value of kind `k` succeeds without `__getattr__` and is no property:
  a method or a class attribute.
* Types convert any assigned value to itself; nothing is read only.
-/
namespace Verif.Paths

/-- A key of a collection, or an element of a split name. -/
inductive Key where
  | name (s : Str)
  | idx (i : Int)
  deriving DecidableEq, Repr

inductive Node where
  | none
  | atom (n : Nat)
  | dict (items : List (Key × Node))
  | arr (items : List Node)
  | obj (additional : Bool) (required : List Str) (items : List (Str × Node))

inductive Kind where
  | none | atom | dict | arr | obj
  | bound  -- a method or a class attribute
  deriving DecidableEq, Repr

def Node.kind : Node → Kind
  | .none => .none
  | .atom _ => .atom
  | .dict _ => .dict
  | .arr _ => .arr
  | .obj _ _ _ => .obj

/-- `int(i.strip(']'))`: object_protocol.py 51. -/
def indexOf (s : Str) : Option Int := parseInt (strip (· == ']') s)

/-- `split_part`: object_protocol.py 48-51. `none` is a ValueError. -/
def splitPart (part : Str) : Option (List Key) :=
  match splitOn '[' part with
  | [] => some []
  | n :: indices => (indices.mapM indexOf).map (fun l => Key.name n :: l.map Key.idx)

/-- `split_cname`: object_protocol.py 44-53. A name that starts with a dot gives the empty text (`cns.pop(0)`), which
is iterated as an empty list. -/
def splitCname (cname : Str) : Option (List Key) :=
  match (splitOn '.' cname).mapM splitPart with
  | none => none
  | some ls => match ls.flatten with
    | .name [] :: _ => some []
    | cns => some cns

/-- `collection[key]`, `none` for any exception. -/
def child : Node → Key → Option Node
  | .dict items, k => AList.get? items k
  | .obj _ _ items, .name p => AList.get? items p
  | .arr l, .idx i => pyIndex l i
  | _, _ => none

/-- The node at an address. -/
def nodeAt : Node → List Key → Option Node
  | n, [] => some n
  | n, k :: ks => match child n k with
    | none => none
    | some m => nodeAt m ks

/-- What `cur` may be. -/
inductive Cur where
  | at (addr : List Key)
  | bound (p : Str)
  | nothing  -- None
  deriving DecidableEq

/-- Whether a node is an object. -/
def isObj : Option Node → Bool
  | some (.obj _ _ _) => true
  | _ => false

/-- The closest object strictly above the address, given in reverse. -/
def parentRev (root : Node) : List Key → Cur
  | [] => .nothing
  | _ :: up => if isObj (nodeAt root up.reverse) then .at up.reverse else parentRev root up

/-- `self._parent`. -/
def parent (root : Node) (addr : List Key) : Cur := parentRev root addr.reverse

/-- `cur[p] if not hasattr(cur, p) else getattr(cur, p)` for an object or another value, `none` for any exception:
object_protocol.py 390 with 289-321 and 382-383. -/
def stepName (attr : Kind → Str → Bool) (root : Node) (addr : List Key) (n : Node) (p : Str) : Option Cur :=
  if attr n.kind p then some (.bound p)
  else match n with
    | .obj additional required items =>
      if AList.contains items p then some (.at (addr ++ [.name p]))
      else if !(p.head? == some '_') && additional && !required.contains p then some .nothing
      else if p = [] then some (parent root addr)
      else none
    | .dict items => if AList.contains items (.name p) then some (.at (addr ++ [.name p])) else none
    | _ => none

/-- One turn of the loop, object_protocol.py 390. `hasattr` of a number is a TypeError. -/
def step (attr : Kind → Str → Bool) (root : Node) : Cur → Key → Option Cur
  | _, .idx _ => none
  | .nothing, .name p => if attr .none p then some (.bound p) else none
  | .bound _, .name p => if attr .bound p then some (.bound p) else none
  | .at addr, .name p => match nodeAt root addr with
    | none => none
    | some n => stepName attr root addr n p

/-- Whether `cur` is None. -/
def isNone (root : Node) : Cur → Bool
  | .nothing => true
  | .bound _ => false
  | .at addr => match nodeAt root addr with
    | some .none => true
    | _ => false

/-- The loop over the parts: object_protocol.py 389-392. -/
def walk (attr : Kind → Str → Bool) (root : Node) : Cur → List Key → Option Cur
  | c, [] => some c
  | c, p :: ps => match step attr root c p with
    | none => none
    | some c' => if isNone root c' then some .nothing else walk attr root c' ps

/-- A result of a lookup. -/
inductive Got where
  | node (n : Node)
  | bound (p : Str)

def read (root : Node) : Cur → Got
  | .nothing => .node .none
  | .bound p => .bound p
  | .at addr => .node ((nodeAt root addr).getD .none)

/-- `ObjectProtocol.__getitem__`: object_protocol.py 381-411. -/
def getItem (attr : Kind → Str → Bool) (root : Node) (key : Str) : Res Got :=
  if key = [] then .ok (.node .none)
  else if '.' ∈ key then
    match splitCname key with
    | none => .error .valueError
    | some parts => match walk attr root (.at []) parts with
      | none => .error .keyError
      | some c => .ok (read root c)
  else match child root (.name key) with
    | none => .error .keyError
    | some n => .ok (.node n)

/-- `l[i] = v`. -/
def pySet {α} (l : List α) (i : Int) (v : α) : Option (List α) :=
  if 0 ≤ i then (if i.toNat < l.length then some (l.set i.toNat v) else none)
  else if i.natAbs ≤ l.length then some (l.set (l.length - i.natAbs) v) else none

/-- `collection[key] = v` with an undotted key, `none` for any exception: object_protocol.py 427-434 for an object. -/
def setChild : Node → Key → Node → Option Node
  | .dict items, k, v => some (.dict (AList.set items k v))
  | .obj additional required items, .name p, v =>
    if AList.contains items p || additional then some (.obj additional required (AList.set items p v)) else none
  | .arr l, .idx i, v => (pySet l i v).map .arr
  | _, _, _ => none

/-- The tree after an assignment at an address. -/
def setAt : Node → List Key → Key → Node → Option Node
  | n, [], k, v => setChild n k v
  | n, a :: as, k, v => match child n a with
    | none => none
    | some m => match setAt m as k v with
      | none => none
      | some m' => setChild n a m'

/-- `ObjectProtocol.__setitem__`: object_protocol.py 413-434. Gives the tree after the assignment. -/
def setItem (attr : Kind → Str → Bool) (root : Node) (key : Str) (v : Node) : Res Node :=
  if '.' ∈ key then
    match splitCname key with
    | none => .error .valueError
    | some parts => match walk attr root (.at []) parts.dropLast with
      | none => .error .keyError
      | some .nothing => .ok root
      | some (.bound _) => .error .keyError
      | some (.at addr) => match parts.getLast? with
        | none => .error .keyError
        | some k => match setAt root addr k v with
          | none => .error .keyError
          | some root' => .ok root'
  else match setChild root (.name key) v with
    | none => .error .keyError
    | some root' => .ok root'

/-- `resolve_cname_path(cname)`: object_protocol.py 323-358. The argument is overwritten in 344, so the names looked for
are none, or the name of the instance twice (`inst` is `isinstance(self, Instance)`, `name` its name). Without names the
first result of the search is the object itself, of which `cname[-1]` is looked up: IndexError. With names the search is
for the name of the object itself: the object is its only result, when the name is not empty and has no colon, since the
names are compared without what is before the last colon. -/
def resolveCnamePath (inst : Bool) (name : Option Str) (_cname : List Str) : Res (List Str) :=
  if !inst then .error .indexError
  else match name with
    | none => .error .attributeError
    | some n =>
      let l := (splitOn ':' n).getLast?.getD []
      if n ≠ [] ∧ [l] = [n] then .ok [l] else .error .exception

/-- `resolve_cname`: object_protocol.py 361-366. -/
def resolveCname (attr : Kind → Str → Bool) (inst : Bool) (name : Option Str) (root : Node) (cname : List Str) :
    Res Got :=
  match resolveCnamePath inst name cname with
  | .error e => .error e
  | .ok [] => .ok (.node root)
  | .ok (p :: _) => getItem attr root p

/-- An optional text in an f-string. -/
def shown : Option Str → Str
  | none => "None".toList
  | some s => s

/-- `Instance._canonicalName`: models/instances.py 40-45. The name of the instance first, then those of the instances
above it. -/
def canonicalName : Option Str → List (Option Str) → Option Str
  | n, [] => n
  | n, p :: ps => some (shown (canonicalName p ps) ++ ['.'] ++ shown n)

end Verif.Paths
