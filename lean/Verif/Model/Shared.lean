import Verif.Model.Topo
import Verif.Model.Classes
/-
State of a class reached through its instances: the dependency sets of a class, which `_call_order`
(protocols/object_protocol.py 190-203) hands to the sorter, and the sets of names of `Collection.__init__`
(types/collection.py 51-61).

Simplifications:
* The value given to `_call_order` is the list of its keys, with for each included key (197) the first components of the
  inputs of its value or default (198-200), which are parameters. Their computation is not modelled.
* The sorter always runs with `ObjectDeserializer._required`, the empty set (203: `self._deserializer.call_order` is a class
  method of `ObjectDeserializer`), so nothing is required there.
-/
namespace Verif.Shared
open Classes (updDep)

/-- A value: its keys, and the inputs detected. -/
structure Value where
  keys : List Str
  inputs : AList Str (List Str) := []

/-- object_protocol.py 193-202: the dictionary is new, the sets in it are those of the class. -/
def withInputs (props : List Str) (deps : AList Str (List Str)) (v : Value) : AList Str (List Str) :=
  v.inputs.foldl (fun m q => if q.2.isEmpty then m else updDep m q.1 (q.2.filter (· ∈ props))) deps

/-- The sets of the class after the call: those of the dictionary, from which utils/utils.py 683-684 takes the item itself
if the sorter is run (types/object.py 39) on a non-empty dictionary. -/
def after (deps dict : AList Str (List Str)) (sorted : Bool) : AList Str (List Str) :=
  deps.map (fun q => (q.1, let s := (dict.get? q.1).getD q.2; if sorted then s.filter (· ≠ q.1) else s))

/-- object_protocol.py 190-203: the order with the exception that ends it, and the dependencies of the class afterwards. -/
def callOrder (ord : List Str → List Str) (props : List Str) (deps : AList Str (List Str)) (v : Value) :
    (List Str × Option Exc) × AList Str (List Str) :=
  let dict := withInputs props deps v
  (Topo.callOrder ord [] v.keys dict, after deps dict (!v.keys.isEmpty))

/-- The dependencies of the class after several instances. -/
def afterAll (ord : List Str → List Str) (props : List Str) (deps : AList Str (List Str)) (vs : List Value) :
    AList Str (List Str) :=
  vs.foldl (fun m v => (callOrder ord props m v).2) deps

/-! ### Collection types -/

/-- The set `_notValidated` of `Collection`, and what each type was given. -/
structure Types where
  notValidated : List Str := []
  given : List (List Str) := []

/-- types/collection.py 51-61 (`_notValidated`; the same for `_notSerialized`): `update` of the set of the class. -/
def Types.create (s : Types) (notValidated : List Str) : Types :=
  ⟨s.notValidated ++ notValidated, s.given ++ [notValidated]⟩

/-- `t._notValidated` of the `i`-th type: the attribute is found in the class. -/
def Types.notValidatedOf (s : Types) (i : Nat) : Option (List Str) :=
  if i < s.given.length then some s.notValidated else none

def Types.run (given : List (List Str)) : Types := given.foldl Types.create {}

end Verif.Shared
