import Verif.Model.Types
/-
Model of how the arguments of a call become the data of an object:
- /repo/ngoschema/protocols/collection_protocol.py 37-45 `CollectionProtocol.__init__(value, lazyLoading, items, validate,
  context, session, **opts)`, for instances of classes;
- /repo/ngoschema/types/object.py 147-150 `Object.__call__(value, **opts)` with types/type.py 29-32 `Type.__call__`,
  for types that are no classes.
Simplifications: contexts are values like others; of the call of a type, the items are neither evaluated nor written
(`objDeserialize` and `objValidate` of Model/Types.lean); keyword arguments have no key twice, as in Python.
-/
namespace Verif.Given
open Verif.Types

abbrev Kw := AList Str Val

/-- The first argument, bound to `value`: given by position, by keyword, or not at all (None). A call with both is a
TypeError of Python. -/
def bind (arg : Option Val) (kw : Kw) : Res (Val × Kw) :=
  match arg, AList.get? kw "value".toList with
  | some _, some _ => .error .typeError
  | some v, none => .ok (v, kw)
  | none, some v => .ok (v, AList.erase kw "value".toList)
  | none, none => .ok (.none, kw)

/-- The other parameters of `CollectionProtocol.__init__`, line 37. -/
def params : List Str :=
  ["lazyLoading".toList, "items".toList, "validate".toList, "context".toList, "session".toList]

/-- The keyword arguments without those bound to parameters: `**opts`. -/
def rest (kw : Kw) : Kw := params.foldl AList.erase kw

/-- collection_protocol.py 37-45: the data, and the options for their deserialisation. -/
def init (arg : Option Val) (kw : Kw) : Res (Val × Kw) :=
  match bind arg kw with
  | .error e => .error e
  | .ok (v, kw) => if v = .none then .ok (.dict (rest kw), []) else .ok (v, rest kw)

/-- object.py 149: the context is in `opts` afterwards, `new` if none was given. -/
def withContext (new : Val) (opts : Kw) : Kw :=
  if AList.contains opts "context".toList then opts else AList.set opts "context".toList new

/-- object.py 147-150: the data, and the options. `value or opts` is `opts` itself, into which the context is written
afterwards. -/
def call (new : Val) (arg : Option Val) (kw : Kw) : Res (Val × Kw) :=
  match bind arg kw with
  | .error e => .error e
  | .ok (v, opts) =>
    if v.truthy then .ok (v, withContext new opts) else .ok (.dict (withContext new opts), withContext new opts)

/-- The call of an object type on these arguments, items aside; `ord`, `other` as in Model/Types.lean. -/
def callType (ord : List Str → List Str) (other : List (Str × Val) → Bool) (o : ObjDecl) (new : Val) (arg : Option Val)
    (kw : Kw) : Res (List (Str × Val)) :=
  match call new arg kw with
  | .error e => .error e
  | .ok (.dict d, _) =>
    match objDeserialize ord o d with
    | .error e => .error e
    | .ok r => objValidate other o r
  | .ok _ => .error .typeError

end Verif.Given
