import Verif.Val
/-
Model of constant types, defaults and the precision of numbers: /repo/ngoschema/types/constants.py, types/type.py 85-92,
types/array.py 156-165, types/numerics.py 34-52, protocols/type_protocol.py 78-106 and protocols/validator.py 74-95.

Simplifications. What conversion and validation of a type do is arbitrary; the evaluation of expressions is arbitrary. The
decimal context is its precision, the one of the running thread.
-/
namespace Verif.Defaults

/-! ### Constant types -/

/-- constants.py 34-67. -/
inductive Const where
  | null
  | true
  | false
  deriving DecidableEq

/-- The truth of `_pyType`: None, True, False. -/
def Const.py : Const → Bool
  | .true => Bool.true
  | _ => Bool.false

/-- constants.py 19-23 under `check` of validator.py 90-101. -/
def check (c : Const) (_ : Val) : Bool := c.py

/-- converter.py 19-30 (null, false) and constants.py 43-48 (true; `ev` evaluates expressions and templates). `isinstance`
refuses the constant False as a class. -/
def convert (ev : Val → Res Val) : Const → Val → Res Val
  | .null, v => .ok v
  | .true, v => ev v
  | .false, v => if v = .none then .ok v else .error .typeError

/-- validator.py 66-72 (null), constants.py 56-58 (true), 65-67 (false). With types, jsonschema asks `check`. -/
def validate (withType : Bool) : Const → Val → Res Val
  | .null, v => if withType && !check .null v then .error .invalidValue else .ok v
  | .true, v => .ok v
  | .false, _ => .error .invalidValue

/-- validator.py 74-85; the default of a constant type is None. -/
def evaluate (ev : Val → Res Val) (c : Const) (v : Val) : Res Val :=
  if v = .none then .ok .none
  else match convert ev c v with
    | .error e => .error e
    | .ok w => validate false c w

/-- constants.py 29-31; 50-54 for `true`, of values that do not serialise themselves. -/
def serialize (c : Const) (v : Val) : Val := if c.py then v else .none

/-! ### Defaults -/

/-- What a schema says: the default, if any, and the values of an enumeration. -/
structure Decl where
  default : Option Val
  enum : List Val

/-- type_protocol.py 78-81: the attribute of the class that is built. -/
def Decl.ofClass (d : Decl) : Val :=
  match d.default, d.enum with
  | some v, _ => v
  | none, v :: _ => v
  | none, [] => .none

/-- validator.py 34 and type.py 91-92: the attribute of the instance that is made from the class. -/
def Decl.ofInstance (d : Decl) : Val :=
  match d.enum with
  | [] => d.ofClass
  | v :: _ => if d.ofClass.truthy then d.ofClass else v

/-- type_protocol.py 96-102 `has_default(value)`, given the attribute that is looked at: the one of the class. -/
def hasDefault (dflt : Val) (value : Val := .none) : Bool := value.truthy || dflt.truthy

/-- validator.py 74-85 for a missing value, given the attribute of the instance. -/
def missing (conv : Val → Res Val) (dflt : Val) : Res Val :=
  if dflt = .none then .ok .none else conv dflt

/-- type_protocol.py 104-106 `default(value)`, given the attribute of the class. `conv` evaluates, with raw literals. -/
def default (conv : Val → Res Val) (dflt : Val) (value : Val := .none) : Res Val :=
  let v := if value.truthy then value else dflt
  if v = .none then .ok .none else conv v

/-- array.py 161-164 `Array.default`, before it is read again: `dflt` of the class of the items. -/
def arrayDefault (conv : Val → Res Val) (dflt : Val) : List Val → Res (List Val)
  | [] => .ok []
  | v :: vs => match (if hasDefault dflt v then default conv dflt v else .ok .none) with
    | .error e => .error e
    | .ok w => match arrayDefault conv dflt vs with
      | .error e => .error e
      | .ok ws => .ok (w :: ws)

/-! ### The precision of numbers -/

/-- A use of a type: `evaluate` of a number type of some precision, or any other conversion. `conv p` is the conversion
under the precision `p`. -/
inductive Use where
  | evaluateNumber (prec : Nat) (conv : Nat → Val → Res Val) (v : Val)
  | other (conv : Nat → Val → Res Val) (v : Val)

/-- numerics.py 48-52 `Number._evaluate`; other types, and `_deserialize` and `_convert` of numbers (serializer.py 38-41),
do not touch the context. The result and the precision afterwards. -/
def use (p : Nat) : Use → Res Val × Nat
  | .evaluateNumber prec conv v => (conv prec v, prec)
  | .other conv v => (conv p v, p)

/-- The precision after some uses. -/
def after (p : Nat) (l : List Use) : Nat := l.foldl (fun p u => (use p u).2) p

end Verif.Defaults
