import Verif.Model.Keys
/-
Checking the type of a value: `check` of the registered types (/repo/ngoschema/protocols/validator.py 91-101,
/repo/ngoschema/protocols/checker.py 15-24, /repo/ngoschema/types/*.py `_check`), /repo/ngoschema/managers/type_builder.py
50-60 (`is_type`, `detect_type`), and evaluating a foreign key (/repo/ngoschema/types/foreign_key.py 120-143).

Simplifications. Values are documents and instances of the classes of the standard library and of arrow that the types
stand for; of the last only the class matters. `convert` and `validate` are not asked for. Identifiers and symbols are in
`Ids` and `Symbols`.
-/
namespace Verif.Check

/-- The classes of the values that are not documents. -/
inductive Cls where
  | float | decimal | tuple | set | date | time | datetime | arrow | url | path
  deriving DecidableEq, Repr

/-- A value: a document, or an instance of a class and whether it counts as true. -/
inductive V where
  | doc (v : Val)
  | inst (c : Cls) (truth : Bool)
  deriving DecidableEq

def V.truthy : V → Bool
  | .doc v => v.truthy
  | .inst _ b => b

/-- The classes that `_pyType` may be. -/
inductive PyType where
  | bool | int | decimal | str | list | tuple | set | odict | date | time | arrow | url | path
  deriving DecidableEq, Repr

/-- `isinstance(value, pyType)`: `bool` is a subclass of `int`, `datetime` of `date`, `ParseResult` of `tuple`; no document
is an ordered dictionary. -/
def isInstance : V → PyType → Bool
  | .doc (.bool _), .bool => true
  | .doc (.bool _), .int => true
  | .doc (.int _), .int => true
  | .doc (.str _), .str => true
  | .doc (.list _), .list => true
  | .inst .decimal _, .decimal => true
  | .inst .tuple _, .tuple => true
  | .inst .url _, .tuple => true
  | .inst .set _, .set => true
  | .inst .date _, .date => true
  | .inst .datetime _, .date => true
  | .inst .time _, .time => true
  | .inst .arrow _, .arrow => true
  | .inst .url _, .url => true
  | .inst .path _, .path => true
  | _, _ => false

/-- `isinstance(value, (Mapping, Sequence))`. -/
def isCollection : V → Bool
  | .doc (.str _) => true
  | .doc (.list _) => true
  | .doc (.dict _) => true
  | .inst .tuple _ => true
  | .inst .url _ => true
  | _ => false

/-- `isinstance(value, Sequence)`. -/
def isSequence : V → Bool
  | .doc (.str _) => true
  | .doc (.list _) => true
  | .inst .tuple _ => true
  | .inst .url _ => true
  | _ => false

/-- `String.check`. -/
def isStr : V → Bool
  | .doc (.str _) => true
  | _ => false

/-- `isinstance(value, (arrow.Arrow, datetime.datetime))`. -/
def isMoment : V → Bool
  | .inst .arrow _ => true
  | .inst .datetime _ => true
  | _ => false

/-- checker.py 15-24 `Checker._check`. -/
def checker (t : Option PyType) (v : V) : Res V :=
  match t with
  | some t => if isInstance v t then .ok v else .error .typeError
  | none => .ok v

/-- types/type.py 46-54 `Primitive._check`. -/
def primitive (t : Option PyType) (v : V) : Res V :=
  match t with
  | none => if isCollection v && !isStr v then .error .typeError else .ok v
  | some t => checker (some t) v

/-- `value in enum`. -/
def member (v : V) (enum : List Val) : Bool :=
  match v with
  | .doc v => enum.any fun m => Query.pyEq m v
  | .inst _ _ => false

/-- The types. -/
inductive Ty where
  | null | true_ | false_ | boolean | number | integer | string
  | enum (base : Option PyType) (members : List Val)
  | uri | path | date | time | datetime | array | tuple | set | object

/-- A condition written `if a or b: return value`, then a TypeError; `a` is a test, `b` a check that gives the value. -/
def orCheck (a : Bool) (b : Res V) (v : V) : Res V :=
  if a then .ok v else match b with
    | .error e => .error e
    | .ok w => if w.truthy then .ok v else .error .typeError

/-- types/array.py 171-179 `Array._check`: a text is first made a collection of the type (it is not a Sequence if it is a
set), then collection.py 64-73 and checker.py 15-24. -/
def array (t : PyType) (v : V) : Res V :=
  if isStr v then (if t = .set then .error .typeError else .ok v)
  else if isSequence v then checker (some t) v
  else .error .typeError

/-- `_check` of the types: constants.py 19-23; checker.py 15-24 by type.py 46-54; numerics.py 42-46; type.py 94-98;
uri.py 26-35; datetime.py 33-37, 77-81, 117-121; array.py 171-179; object.py 48-53. -/
def check : Ty → V → Res V
  | .null, _ => .error .typeError
  | .true_, v => .ok v
  | .false_, _ => .error .typeError
  | .boolean, v => primitive (some .bool) v
  | .number, v => match v with
    | .doc (.bool _) => .ok v
    | .doc (.int _) => .ok v
    | .inst .float _ => .ok v
    | .inst .decimal _ => .ok v
    | _ => .error .typeError
  | .integer, v => primitive (some .int) v
  | .string, v => primitive (some .str) v
  | .enum base members, v => orCheck (member v members) (primitive base v) v
  | .uri, v => match primitive (some .url) v with
    | .error e => .error e
    | .ok w => orCheck w.truthy (if isStr v then .ok v else .error .typeError) v
  | .path, v => match primitive (some .path) v with
    | .error e => .error e
    | .ok w => orCheck w.truthy (if isStr v then .ok v else .error .typeError) v
  | .date, v => orCheck (isMoment v) (checker (some .date) v) v
  | .time, v => orCheck (isMoment v) (checker (some .time) v) v
  | .datetime, v => orCheck (isMoment v) (checker (some .arrow) v) v
  | .array, v => array .list v
  | .tuple, v => array .tuple v
  | .set, v => array .set v
  | .object, v => match v with
    | .doc (.dict _) => .ok v
    | _ => .error .typeError

/-- validator.py 91-101 `check(value)`. -/
def passes (t : Ty) (v : V) : Bool :=
  match check t v with
  | .ok _ => true
  | .error _ => false

/-- type_builder.py 50-55 `is_type`; `types` is `_type_registry`. -/
def isType (types : AList Str Ty) (v : V) (id : Str) : Res Bool :=
  match AList.get? types id with
  | none => .error .exception
  | some t => .ok (passes t v)

/-- type_builder.py 57-60 `detect_type`. -/
def detect (v : V) : AList Str Ty → Option Str
  | [] => none
  | (k, t) :: ts => if passes t v then some k else detect v ts

/-- `_type_registry` as filled by types/__init__.py: constants.py comes first, then type.py, boolean.py, numerics.py,
strings.py, uri.py, datetime.py, array.py, object.py. Identifiers and symbols are left out. -/
def registry : AList Str Ty :=
  [("null".toList, .null), ("true".toList, .true_), ("false".toList, .false_), ("enum".toList, .enum none []),
   ("boolean".toList, .boolean), ("number".toList, .number), ("integer".toList, .integer), ("string".toList, .string),
   ("uri".toList, .uri), ("path".toList, .path), ("date".toList, .date), ("time".toList, .time),
   ("datetime".toList, .datetime), ("array".toList, .array), ("tuple".toList, .tuple), ("set".toList, .set),
   ("object".toList, .object)]

/-! ### Foreign keys -/

/-- foreign_key.py 124: `all(t._check(t, v) for t, v in zip(types, values))`; a check gives the value back. -/
def allCheck : List (Val → Res Val) → List Val → Res Bool
  | t :: ts, v :: vs => match t v with
    | .error e => .error e
    | .ok w => if w.truthy then allCheck ts vs else .ok false
  | _, _ => .ok true

/-- foreign_key.py 120-126 `ForeignKey._check`; `checks` are the checks of the types of the keys. -/
def keyCheck (ev : Val → Val) (checks : List (Val → Res Val)) (v : Val) : Res Val :=
  match Keys.items ev false v with
  | .error e => .error e
  | .ok ks => match Keys.items ev false (.list ks) with
    | .error e => .error e
    | .ok ks' => match allCheck checks ks' with
      | .error e => .error e
      | .ok true => .ok (.list ks)
      | .ok false => .error .typeError

/-- What evaluating a foreign key gives. -/
inductive Out where
  | key (v : Val)
  | obj (o : Nat)
  deriving DecidableEq

/-- The repositories of `scoped_session(session_maker())()`: a new registry has a new session, which has none
(session.py 293-299, 226-245). -/
def freshRepos : List Keys.Repo := []

/-- foreign_key.py 134-143 `ForeignKey._evaluate`: `_resolve` is called without the session that is in the context.
`valid`: the exception that validating raises. `_session` has the repositories of the context. -/
def evaluate (ev : Val → Val) (names : List Str) (types : List (Val → Res Val)) (valid : Val → Option Exc)
    (_session : List Keys.Repo) (validate resolve : Bool) (a : Keys.Arg) : Res Out :=
  match Keys.convert ev names types a with
  | .error e => .error e
  | .ok v => match (if validate then valid v else none) with
    | some e => .error e
    | none => if resolve then
        match Keys.resolve ev freshRepos v with
        | .error e => .error e
        | .ok o => .ok (.obj o)
      else .ok (.key v)

end Verif.Check
