import Verif.Model.Paths
/-
Model of the canonical names and the texts that instances remember: /repo/ngoschema/models/instances.py 23-45
(`Instance.__str__`, `get_canonicalName`, `_canonicalName`) through protocols/object_protocol.py 66-104
(`PropertyDescriptor.__get__`, `__set__`) and protocols/collection_protocol.py 88-98, 169-192 (`_touch`, `_items_touch`,
`_set_data`, `_set_dataValidated`, `_is_outdated`).
Simplifications: the instances are those on the way from one instance to its outermost one, the inner one first; names
are texts without expressions, or missing; the required properties other than the name do not change, `parts` gives
their texts from the name.
-/
namespace Verif.Labels
open Verif.Paths (canonicalName)

/-- An instance: its name; `_str`; of the property `canonicalName`, `_data`, `_dataValidated` and the name among its
`_itemsInputs`. -/
structure Inst where
  name : Option Str
  str : Option Str := none
  data : Option Str := none
  validated : Option Str := none
  input : Option (Option Str) := none
  deriving DecidableEq, Repr

abbrev World := List Inst

/-- instances.py 40-45 for the instance at `i`. -/
def cname (w : World) (i : Nat) : Option Str :=
  match (w.drop i).map Inst.name with
  | [] => none
  | n :: ps => canonicalName n ps

/-- Change the instance at `i`. -/
def alter (w : World) (i : Nat) (f : Inst → Inst) : World := w.modify i f

/-- object_protocol.py 93-98, collection_protocol.py 92-98, 169-178: a name that differs touches the name and
`canonicalName`, which depends on it (instances.py 33), and the texts. -/
def setName (n : Option Str) (x : Inst) : Inst :=
  if n = x.name then x else { x with name := n, str := none, validated := none, input := none }

def rename (w : World) (i : Nat) (n : Option Str) : World := alter w i (setName n)

/-- object_protocol.py 71-73: whether `canonicalName` is computed again. -/
def outdated (x : Inst) : Bool := x.validated.isNone || x.input ≠ some x.name

/-- object_protocol.py 75-81: the getter has given `c`; a value that differs from the data touches the texts. -/
def compute (c : Option Str) (x : Inst) : Inst :=
  { x with str := if c = x.data then x.str else none, data := c, validated := c, input := some x.name }

/-- Reading `canonicalName` of the instance at `i`: object_protocol.py 66-86. -/
def read (w : World) (i : Nat) : Option Str × World :=
  match w[i]? with
  | none => (none, w)
  | some x => if outdated x then (cname w i, alter w i (compute (cname w i))) else (x.validated, w)

/-- instances.py 29-30. -/
def label (q : Str) (parts : Option Str → List Str) (c n : Option Str) : Str :=
  let a := match c with
    | some (ch :: s) => [ch :: s]
    | _ => []
  ['<'] ++ q ++ [' '] ++ joinWith [' '] (a ++ parts n) ++ ['>']

/-- instances.py 26-31 `__str__` of the instance at `i`; `q` is the name of its class. -/
def text (q : Str) (parts : Option Str → List Str) (w : World) (i : Nat) : Str × World :=
  match w[i]? with
  | none => ([], w)
  | some x =>
    match x.str with
    | some s => (s, w)
    | none =>
      let s := label q parts (cname w i) x.name
      (s, alter w i fun x => { x with str := some s })

/-- What is done: an instance is given a name, its canonical name is read, or it is printed. -/
inductive Op where
  | rename (i : Nat) (n : Option Str)
  | read (i : Nat)
  | text (i : Nat)

def step (q : Str) (parts : Option Str → List Str) (w : World) : Op → World
  | .rename i n => rename w i n
  | .read i => (read w i).2
  | .text i => (text q parts w i).2

def run (q : Str) (parts : Option Str → List Str) (w : World) (ops : List Op) : World := ops.foldl (step q parts) w

end Verif.Labels
