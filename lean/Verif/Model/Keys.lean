import Verif.Model.Types
/-
Model of foreign keys: /repo/ngoschema/types/foreign_key.py (`ForeignKey`), the repositories of a session
(/repo/ngoschema/session.py 77-83, /repo/ngoschema/repositories/memory_repository.py 25-29) and entities written by their
keys (/repo/ngoschema/models/instances.py 60-106).

Simplifications. Tuples and lists are both `Val.list`. The types of the keys are arbitrary conversions. Objects of other
classes than the one referred to are not given as keys. Keys are compared as documents: no keys are booleans or floats,
which Python would compare with integers, and all are hashable. The session and the context count as true.
-/
namespace Verif.Keys

/-- An object of the class referred to; `attr` is `getattr`. -/
structure Entity where
  ref : Nat
  attr : Str → Res Val

/-- What is given for a foreign key. -/
inductive Arg where
  | val (v : Val)
  | entity (e : Entity)

/-- types/strings.py 46-50 and 67-71: `Expr.check` and `Pattern.check`. -/
def isExpr : Val → Bool
  | .str s => s.head? == some '`' || Query.isInfix ['{', '{'] s || Query.isInfix ['{', '%'] s
  | _ => false

/-- types/constants.py 43-48, the conversion of items of an array without `items`; `ev` is `Primitive.convert`. -/
def evalItem (ev : Val → Val) (v : Val) : Val := if isExpr v then ev v else v

/-- `Array.deserialize(value, split_string=split)`: protocols/serializer.py 48-54, types/collection.py 75-93. -/
def items (ev : Val → Val) (split : Bool) (v : Val) : Res (List Val) :=
  match Types.arrDeserializeOr {} split true v with
  | .error e => .error e
  | .ok l => .ok (l.map (evalItem ev))

/-- `tuple(t._convert(t, v) for t, v in zip(types, values))`. -/
def zipConv : List (Val → Res Val) → List Val → Res (List Val)
  | t :: ts, v :: vs => match t v with
    | .error e => .error e
    | .ok w => match zipConv ts vs with
      | .error e => .error e
      | .ok ws => .ok (w :: ws)
  | _, _ => .ok []

/-- The tuple as a value. -/
def pack : Res (List Val) → Res Val
  | .error e => .error e
  | .ok ws => .ok (.list ws)

/-- foreign_key.py 118. -/
def apply (types : List (Val → Res Val)) (vs : List Val) : Res Val :=
  match types with
  | [t] => match vs with
    | [] => .error .indexError
    | v :: _ => t v
  | ts => pack (zipConv ts vs)

/-- `[getattr(value, k) for k in self._foreignKeys]`. -/
def attrs (e : Entity) : List Str → Res (List Val)
  | [] => .ok []
  | n :: ns => match e.attr n with
    | .error x => .error x
    | .ok v => match attrs e ns with
      | .error x => .error x
      | .ok vs => .ok (v :: vs)

/-- foreign_key.py 103-118 `ForeignKey._convert`; `names` is `_foreignKeys`, `types` is `_foreignKeysType`. -/
def convert (ev : Val → Val) (names : List Str) (types : List (Val → Res Val)) : Arg → Res Val
  | .entity e => match attrs e names with
    | .error x => .error x
    | .ok vs => apply types vs
  | .val .none => .ok .none
  | .val (.int i) => if i < 0 then .ok .none else apply types [.int i]
  | .val (.bool b) => apply types [.bool b]
  | .val v => match items ev true v with
    | .error x => .error x
    | .ok vs => apply types vs

/-- Iteration over a value; `none` for a TypeError. -/
def iter : Val → Option (List Val)
  | .list l => some l
  | .str s => some (s.map fun c => .str [c])
  | .dict d => some (d.map fun kv => .str kv.1)
  | _ => none

/-- foreign_key.py 128-132 `ForeignKey._serialize`. -/
def serialize (types : List (Val → Res Val)) (v : Val) : Res Val :=
  match types with
  | [t] => t v
  | ts => match iter v with
    | none => .error .typeError
    | some vs => pack (zipConv ts vs)

/-- A repository: whether its objects are of the class asked for, and its catalogue. -/
structure Repo where
  sub : Bool
  catalog : AList (List Val) Nat

/-- memory_repository.py 28-29 `resolve_fkey`. -/
def Repo.find (r : Repo) (ks : List Val) : Res Nat :=
  match AList.get? r.catalog ks with
  | some o => .ok o
  | none => .error .keyError

/-- foreign_key.py 152-163 `ForeignKey._resolve`. The argument is made a tuple by `assert_arg` (decorators.py 131-158). -/
def resolve (ev : Val → Val) (repos : List Repo) (key : Val) : Res Nat :=
  match items ev false key with
  | .error x => .error x
  | .ok ks => match repos.filter Repo.sub with
    | [] => .error .invalidValue
    | r :: _ => r.find ks

/-- session.py 79-83, over the repositories of the class; the message of the exception is formatted with the tuple, a
TypeError unless it has one item. -/
def search (ks : List Val) : List Repo → Res Nat
  | [] => .error (if ks.length = 1 then .exception else .typeError)
  | r :: rs => if AList.contains r.catalog ks then r.find ks else search ks rs

/-- session.py 77-83 `Session.resolve_fkey`. -/
def sessionResolve (ev : Val → Val) (repos : List Repo) (key : Val) : Res Nat :=
  match items ev false key with
  | .error x => .error x
  | .ok ks => search ks (repos.filter Repo.sub)

/-- instances.py 98-100 `Entity._serialize` with `use_identity_keys`. -/
def identity : List Val → Val
  | [k] => k
  | ks => .list ks

/-- instances.py 60-76: the stored object from which `Entity(value)` takes its data, `none` when it takes it from `value`
itself. `__new__` resolves the tuple of its arguments, `__init__` the value. -/
def construct (ev : Val → Val) (repos : List Repo) (value : Val) : Res (Option Nat) :=
  match value with
  | .dict _ => .ok none
  | v => if !v.truthy then .ok none else
    match sessionResolve ev repos (.list [v]) with
    | .error x => .error x
    | .ok _ => match sessionResolve ev repos v with
      | .error x => .error x
      | .ok o => .ok (some o)

/-- The class a foreign key refers to: whether it is still under construction, so that a proxy stands for it, whether it
is an entity, its primary keys, and the names for which `_items_type` does not raise (types/object.py 157-173). -/
structure Target where
  proxy : Bool
  entity : Bool
  primary : List Str
  knows : Str → Bool

/-- The attribute `_foreignKeys` of the type of a property with `foreignKey`, `declared` being its `foreignKeys`:
protocols/type_protocol.py 54-68 makes the class (the schema of the target is a dictionary, which has no attribute
`primaryKeys`), foreign_key.py 60-92 the instance. The target can be loaded. -/
def buildKeys (declared : Option (List Str)) (c : Target) : Res (List Str) :=
  let fks := declared.getD ["id".toList]
  if !fks.all c.knows && !c.proxy then .error .assertionError
  else if c.proxy || !c.entity then .ok fks
  else .ok (declared.getD c.primary)

/-- managers/relationship_builder.py 28-30 `RelationshipDescriptor.__set__`: what the property holds after assigning an
entity with these identity keys to the relationship; assigning converts (C66). -/
def relSet (ev : Val → Val) (names : List Str) (types : List (Val → Res Val)) (ks : List Val) : Res Val :=
  convert ev names types (.val (.list ks))

/-- relationship_builder.py 21-26 `RelationshipDescriptor.__get__`, with protocols/resolver.py 24-27. -/
def relGet (ev : Val → Val) (names : List Str) (types : List (Val → Res Val)) (repos : List Repo) (held : Val) : Res Nat :=
  match convert ev names types (.val held) with
  | .error x => .error x
  | .ok key => resolve ev repos key

end Verif.Keys
