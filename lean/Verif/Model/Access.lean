import Verif.Model.Object
/-
Attributes of object instances: protocols/object_protocol.py 289-321 (`__getattr__`), 368-379 (`__setattr__`), 742-751
and 778-784 (which descriptors are attributes of the class), and the lookup of attributes by Python.

Simplifications:
* A class is `Obj.Cls` with what Python finds when it looks a name up in the class and its bases (`attrs`): the
  descriptor of a property, or something else (methods, constants, classes of definitions), which is not a data
  descriptor and is given as it is.
* `MutableMapping.__getattribute__` in `__getattr__` (293, 295) is called for names that Python has just looked for in
  vain, or whose descriptor has just raised AttributeError; it raises AttributeError again.
* `resolve_cname([name])` (310) is a function of the name. Of `__dict__`, only what was assigned to private names is
  kept; the attributes used internally (`_data` and others) are the fields of `Obj.Obj`. There are no relationships.
* `object.__delattr__` is Python's: no class of the package defines `__delattr__`.
-/
namespace Verif.Access
open Obj (Out)

/-- What the class and its bases have under a name. -/
inductive ClassAttr where
  | plain (v : Val)
  | prop (raw : Str)
  deriving DecidableEq, Repr

structure Cls where
  base : Obj.Cls
  attrs : AList Str ClassAttr
  orig : List Str := []
  byName : Bool := false
  resolve : Str → Res Val := fun _ => .error .exception

/-- An instance: its items, and its own attributes. -/
structure Inst where
  obj : Obj.Obj
  dict : AList Str Val
  deriving DecidableEq, Repr

/-- `name.startswith('_')`. -/
def isPrivate (name : Str) : Bool := ['_'].isPrefixOf name
/-- `name.startswith('__')`. -/
def isDunder (name : Str) : Bool := ['_', '_'].isPrefixOf name

/-- object_protocol.py 768-769 `_propertiesAllowed`. -/
def allowed (c : Obj.Cls) : List Str :=
  (c.props ++ c.aliases.keys ++ c.aliases.map Prod.snd ++ c.negated.keys ++ c.negated.map Prod.snd ++
    c.translation.keys).filter (fun k => k ∉ c.readOnly)

/-- object_protocol.py 304-307: an additional property. -/
def additional (c : Obj.Cls) (n : Nat) (name raw : Str) (o : Obj.Obj) : Out Val :=
  match Obj.inputsOf c (Obj.getItem c n) name o with
  | (.error e, o) => (.error e, o)
  | (.ok ins, o) => Obj.through c name (Obj.getItem c n name { o with inputs := o.inputs.set raw ins })

/-- object_protocol.py 289-321 `__getattr__`; at most `n` reads are nested. -/
def fallback (c : Cls) (n : Nat) (name : Str) (o : Obj.Obj) : Out Val :=
  if (isPrivate name || decide (name ∈ c.orig)) && (isDunder name || decide (name ∉ allowed c.base)) then
    (.error .attributeError, o)
  else
    let name := Obj.unalias c.base name
    let raw := (c.base.translation.get? name).getD name
    if raw ∈ c.base.props then Obj.through c.base name (Obj.descGet c.base (Obj.getItem c.base n) raw o)
    else if c.base.additional && o.data.contains name then additional c.base n name raw o
    else if c.byName then Obj.through c.base name (c.resolve name, o)
    else if !c.base.additional then (.error .attributeError, o)
    else if name ∉ c.base.required then (.ok .none, o)
    else (.error .attributeError, o)

/-- What is not found in the class, or is not a data descriptor there, is looked for in the instance. -/
def ownOr (name : Str) (other : Inst → Out Val) (i : Inst) : Out Val :=
  match i.dict.get? name with
  | some v => (.ok v, i.obj)
  | none => other i

/-- `getattr(o, name)`: Python's lookup, and `__getattr__` when it raised AttributeError. -/
def lookup (c : Cls) (n : Nat) (name : Str) (i : Inst) : Out Val :=
  match c.attrs.get? name with
  | some (.prop raw) => match Obj.descGet c.base (Obj.getItem c.base n) raw i.obj with
    | (.error .attributeError, o) => fallback c n name o
    | r => r
  | some (.plain v) => ownOr name (fun i => (.ok v, i.obj)) i
  | none => ownOr name (fun i => fallback c n name i.obj) i

def getattr (c : Cls) (n : Nat) (name : Str) (i : Inst) : Res Val × Inst :=
  match lookup c n name i with
  | (r, o) => (r, { i with obj := o })

/-- `getattr(o, name, default)`. -/
def getattrOr (c : Cls) (n : Nat) (name : Str) (d : Val) (i : Inst) : Res Val × Inst :=
  match getattr c n name i with
  | (.error .attributeError, i) => (.ok d, i)
  | r => r

/-- `hasattr(o, name)`. -/
def hasattr (c : Cls) (n : Nat) (name : Str) (i : Inst) : Res Bool × Inst :=
  match getattr c n name i with
  | (.ok _, i) => (.ok true, i)
  | (.error .attributeError, i) => (.ok false, i)
  | (.error e, i) => (.error e, i)

/-- object_protocol.py 368-379 `__setattr__`. -/
def setattr (c : Cls) (n : Nat) (name : Str) (v : Val) (i : Inst) : Res Unit × Inst :=
  if isPrivate name && decide (name ∉ allowed c.base) then (.ok (), { i with dict := i.dict.set name v })
  else match Obj.setItem c.base n name v i.obj with
    | (.error .keyError, o) => (.error .attributeError, { i with obj := o })
    | (r, o) => (r, { i with obj := o })

/-- Deleting an attribute of the instance. -/
def delOwn (name : Str) (i : Inst) : Res Unit × Inst :=
  if i.dict.contains name then (.ok (), { i with dict := i.dict.erase name }) else (.error .attributeError, i)

/-- `del o.name`. -/
def delattr (c : Cls) (name : Str) (i : Inst) : Res Unit × Inst :=
  match c.attrs.get? name with
  | some (.prop raw) => match Obj.descDel c.base raw i.obj with
    | (r, o) => (r, { i with obj := o })
  | _ => delOwn name i

end Verif.Access
