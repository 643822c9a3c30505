import Verif.Model.Types
/-
Names of properties in documents: protocols/object_protocol.py 167-178 (`_check`), 206-223 (`_deserialize`), 446-473
(`_serialize`) and 494-512 (`_items_type`, with types/object.py 152-171).

Simplifications:
* Documents have no `$schema` (object_protocol.py 212-215); the schema written by 470-472 is left out.
* What follows the renaming of keys in `_check` and `_deserialize` is left out here (`Types.objDeserialize`).
* `ord` is the iteration order of the set of keys to translate.
* Types of properties are numbers; a type that stands for a class under construction is `proxy uri`, and `built` tells
  what the type builder has for a URI. `pattern` is the first pattern property whose regular expression finds the name.
-/
namespace Verif.Alias
open Types (negate)

/-- What a class says about names. `translation`: clean name → name. -/
structure Names where
  props : List Str
  translation : AList Str Str := []
  aliases : AList Str Str := []
  negated : AList Str Str := []
  notValidated : List Str := []

/-! ### Reading a document -/

/-- `value[k2] = value.pop(k1)` for a key that is there. -/
def move (k1 k2 : Str) (d : AList Str Val) : AList Str Val :=
  match d.get? k1 with
  | none => d
  | some v => (d.erase k1).set k2 v

/-- The body of the loop: a clean name gives way to the name. -/
def moveClean (c : Names) (d : AList Str Val) (k : Str) : AList Str Val :=
  match c.translation.get? k with
  | some p => move k p d
  | none => d

/-- object_protocol.py 217-219. -/
def translate (ord : List Str → List Str) (c : Names) (d : AList Str Val) : AList Str Val :=
  (ord (d.keys.filter (fun k => k ∉ c.props && c.translation.contains k))).foldl (moveClean c) d

/-- `{k2: f(value.pop(k1)) for k1, k2 in m.items() if k1 in value}`: what is left of the document, and the new
dictionary. -/
def popAll (f : Val → Res Val) : AList Str Str → AList Str Val → AList Str Val → Res (AList Str Val × AList Str Val)
  | [], d, new => .ok (d, new)
  | (k1, k2) :: m, d, new => match d.get? k1 with
    | none => popAll f m d new
    | some v => match f v with
      | .error e => .error e
      | .ok w => popAll f m (d.erase k1) (new.set k2 w)

/-- `value.update({...})` with the dictionary above (object_protocol.py 220, 221). -/
def replaceAll (f : Val → Res Val) (m : AList Str Str) (d : AList Str Val) : Res (AList Str Val) :=
  match popAll f m d [] with
  | .error e => .error e
  | .ok (d, new) => .ok (d.update new)

/-- object_protocol.py 206-221 `_deserialize`: the document with the names of the properties. -/
def readNames (ord : List Str → List Str) (c : Names) (d : AList Str Val) : Res (AList Str Val) :=
  match replaceAll .ok c.aliases (translate ord c d) with
  | .error e => .error e
  | .ok d => replaceAll negate c.negated d

/-! ### Checking a document -/

/-- The items of `ChainMap(translation, aliases, negated)`, in some order: the first map that has a key gives its
value. -/
def chained (c : Names) : AList Str Str :=
  c.translation ++ c.aliases.filter (fun p => !c.translation.contains p.1)
    ++ c.negated.filter (fun p => !c.translation.contains p.1 && !c.aliases.contains p.1)

/-- object_protocol.py 168-177 `_check`: the document that is validated. `names`: the items of the chain in the order
they come. -/
def checkNames (c : Names) (names : AList Str Str) (d : AList Str Val) : AList Str Val :=
  c.notValidated.foldl (fun d k => d.erase k)
    (names.foldl (fun d' p => if d.contains p.1 then move p.1 p.2 d' else d') d)

/-! ### Writing a document -/

/-- `(attr_prefix if t.is_primitive() else '') + k`. -/
def prefixed (attrPrefix : Str) (prim : Str → Bool) (k name : Str) : Str :=
  (if prim k then attrPrefix else []) ++ name

/-- object_protocol.py 451-452. -/
def addPrefix (attrPrefix : Str) (prim : Str → Bool) (ret : AList Str Val) : AList Str Val :=
  AList.update [] (ret.map (fun p => (prefixed attrPrefix prim p.1 p.1, p.2)))

/-- object_protocol.py 453-467, one of the two loops. -/
def writeAliases (f : Val → Res Val) (attrPrefix : Str) (prim : Str → Bool) (only excludes : List Str) :
    AList Str Str → AList Str Val → Res (AList Str Val)
  | [], ret => .ok ret
  | (a, raw) :: m, ret =>
    if !only.isEmpty && a ∉ only then writeAliases f attrPrefix prim only excludes m ret
    else if a ∈ excludes then writeAliases f attrPrefix prim only excludes m ret
    else match ret.get? raw with
      | none => writeAliases f attrPrefix prim only excludes m ret
      | some .none => writeAliases f attrPrefix prim only excludes m ret
      | some v => match f v with
        | .error e => .error e
        | .ok w => writeAliases f attrPrefix prim only excludes m (ret.set (prefixed attrPrefix prim raw a) w)

/-- object_protocol.py 450-467 `_serialize`; `ret` is what `CollectionProtocol._serialize` gives. -/
def writeNames (c : Names) (attrPrefix : Str) (prim : Str → Bool) (only excludes : List Str) (ret : AList Str Val) :
    Res (AList Str Val) :=
  match writeAliases .ok attrPrefix prim only excludes c.aliases (addPrefix attrPrefix prim ret) with
  | .error e => .error e
  | .ok ret => writeAliases negate attrPrefix prim only excludes c.negated ret

/-- The whole of 446-467 on an object whose items are not collections. -/
def serialize (ser : Val → Val) (ord : List Str → List Str) (c : Names) (o : Types.ObjDecl) (attrPrefix : Str)
    (prim : Str → Bool) (only excludes : List Str) (value : AList Str Val) : Res (AList Str Val) :=
  match Types.objSerialize ser ord [] o { excludes := some excludes, only } value with
  | (.error e, _) => .error e
  | (.ok ret, _) => writeNames c attrPrefix prim only excludes ret

/-! ### Types of properties -/

inductive Ty where
  | real (n : Nat)
  | proxy (uri : Nat)
  deriving DecidableEq, Repr

/-- What a class says about types. `additional`: none for `additionalProperties: false`. -/
structure Decl where
  names : Names
  types : AList Str Ty
  pattern : Str → Option Ty := fun _ => none
  additional : Option Ty := none

/-- `_items_type_cache`; None entries are left out, as they are never distinguished. -/
abbrev Cache := AList Str Ty

/-- types/object.py 156-173 `Object._items_type`. -/
def baseType (c : Decl) (name : Str) (cache : Cache) : Res Ty × Cache :=
  match cache.get? name with
  | some t => (.ok t, cache)
  | none => match c.types.get? name with
    | some t => (.ok t, cache.set name t)
    | none => match c.pattern name with
      | some t => (.ok t, cache.set name t)
      | none => match c.additional with
        | some t => (.ok t, cache.set name t)
        | none => (.error .keyError, cache)

/-- object_protocol.py 494-512 `_items_type`. The first assignment to `i` (501) is overwritten by the second. -/
def itemsType (built : Nat → Option Ty) (c : Decl) (item : Str) (cache : Cache) : Res Ty × Cache :=
  match cache.get? item with
  | some t => (.ok t, cache)
  | none => match baseType c ((c.names.negated.get? item).getD item) cache with
    | (.error e, cache) => (.error e, cache)
    | (.ok t, cache) => match t with
      | .real n => (.ok (.real n), cache.set item (.real n))
      | .proxy u => match built u with
        | some p => (.ok p, cache.set item p)
        | none => (.ok (.proxy u), cache.erase item)

end Verif.Alias
