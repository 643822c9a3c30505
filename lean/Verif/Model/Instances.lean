import Verif.Py
/-
Model of the evaluation of instances and of data by a class: /repo/ngoschema/protocols/collection_protocol.py 72-81 over
types/collection.py 105-113 and protocols/validator.py 74-85; protocols/object_protocol.py 225-228.

Simplifications. Values are of any kind `α`. What conversion, the evaluation of items and validation do is arbitrary (the
default of a missing value is part of the conversion); validation changes nothing. Excluded names are part of it.
-/
namespace Verif.Instances

/-- A class of objects or arrays. `isInst`: `isinstance(value, self._pyType)`; `items`: the loop over the items, given
whether they are validated. -/
structure Cls (α : Type) where
  isInst : α → Bool
  convert : α → Res α
  items : Bool → α → Res α
  valid : α → Bool
  lazy : Bool

/-- The options of a call; `none`: not given. -/
structure Opts where
  convert : Option Bool := none
  validate : Option Bool := none
  items : Option Bool := none

/-- validator.py 82-84. -/
def validated {α : Type} (c : Cls α) (b : Bool) (v : α) : Res α :=
  if b && !c.valid v then .error .invalidValue else .ok v

/-- collection.py 105-113 `Collection._evaluate`; `items` is what it is called with. -/
def evaluateData {α : Type} (c : Cls α) (o : Opts) (items : Bool) (v : α) : Res α :=
  match (if o.convert.getD true then c.convert v else .ok v) with
  | .error e => .error e
  | .ok w => match (if items then c.items (o.validate.getD true) w else .ok w) with
    | .error e => .error e
    | .ok w => validated c (o.validate.getD true) w

/-- collection_protocol.py 72-81 `CollectionProtocol._evaluate`. -/
def evaluate {α : Type} (c : Cls α) (o : Opts) (v : α) : Res α :=
  if c.isInst v then validated c (o.validate.getD false) v
  else evaluateData c o (o.items.getD (!c.lazy)) v

/-- A chain of calls on the value of the one before. -/
def evaluates {α : Type} (c : Cls α) : List Opts → α → Res α
  | [], v => .ok v
  | o :: os, v => match evaluate c o v with
    | .error e => .error e
    | .ok w => evaluates c os w

/-- object_protocol.py 225-228 `ObjectProtocol._has_default(value)`: `own` is the attribute `_default`, `declared` the
default of the schema. -/
def hasDefault {δ : Type} (truthy : δ → Bool) (own : δ) (declared : Option δ) (value : Option δ) : Bool :=
  truthy (value.getD own) || declared.isSome

end Verif.Instances
