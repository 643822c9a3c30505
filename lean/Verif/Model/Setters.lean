import Verif.Model.Query
/-
A property with a setter and a deleter: /repo/ngoschema/protocols/object_protocol.py 66-119 (`PropertyDescriptor`), 436-444
(`__delitem__`) and /repo/ngoschema/protocols/collection_protocol.py 92-98, 100-136, 169-192 (`_items_touch`,
`_items_inputs_evaluate`, `_items_evaluate`, `_set_data`, `_set_dataValidated`, `_is_outdated`).

Simplifications. One property is modelled; all else that its value depends on is an environment. Its inputs are what
`_items_inputs_evaluate` gives in an environment; `empty` stands for `{}`. There is no getter. A setter is told a value and
returns or raises; it does not change the property it belongs to.
-/
namespace Verif.Setters
open Query (pyEq)

/-- What a class says about the property. `conv`: `_items_evaluate`; `tpl`: whether a value is a pattern or an
expression. -/
structure Prp (ε ι : Type) where
  conv : ε → Val → Res Val
  inputs : ε → Val → ι
  empty : ι
  tpl : Val → Bool := fun _ => false
  prim : Bool := true
  lazy : Bool := false
  readOnly : Bool := false
  required : Bool := false
  translated : Bool := false
  setter : Val → Option Exc
  deleter : Option Exc := none

/-- The entries of the property in `_data`, `_dataValidated` and `_itemsInputs`. -/
structure Slot (ι : Type) where
  data : Val
  validated : Val
  recorded : ι
deriving DecidableEq

/-- The property, what it depends on, what the setter was told and how often the deleter was called. -/
structure St (ε ι : Type) where
  env : ε
  slot : Option (Slot ι)
  told : List Val := []
  deleted : Nat := 0
deriving DecidableEq

variable {ε ι : Type} [DecidableEq ι]

/-- collection_protocol.py 190-192 `_is_outdated`. -/
def outdated (p : Prp ε ι) (e : ε) (s : Slot ι) : Bool :=
  (s.validated = .none && s.data ≠ .none) || s.recorded ≠ p.inputs e s.data

/-- collection_protocol.py 169-178 `_set_data` with `_items_touch` (94-95). -/
def setData (p : Prp ε ι) (v : Val) (s : Slot ι) : Slot ι :=
  if p.prim && pyEq v s.data then { s with data := v }
  else ⟨v, .none, p.empty⟩

/-- collection_protocol.py 180-188 `_set_dataValidated`. -/
def setValidated (p : Prp ε ι) (w : Val) (s : Slot ι) : Slot ι :=
  { s with data := if p.prim && p.tpl s.data then s.data else w, validated := w }

/-- object_protocol.py 84, 104: the call of the setter. -/
def tell (p : Prp ε ι) (w : Val) (st : St ε ι) : Res Unit × St ε ι :=
  (match p.setter w with
    | some e => .error e
    | none => .ok (), { st with told := st.told ++ [w] })

/-- object_protocol.py 93-109 `PropertyDescriptor.__set__`. -/
def assign (p : Prp ε ι) (v : Val) (st : St ε ι) : Res Unit × St ε ι :=
  if p.readOnly then (.error .attributeError, st)
  else match st.slot with
    | none => (.error .keyError, st)
    | some s =>
      if p.lazy then (.ok (), { st with slot := some (setData p v s) })
      else match p.conv st.env v with
        | .error e => (.error e, { st with slot := some { setData p v s with recorded := p.inputs st.env v } })
        | .ok w =>
          tell p w { st with slot := some (setValidated p w { setData p v s with recorded := p.inputs st.env v }) }

/-- object_protocol.py 66-89 `PropertyDescriptor.__get__`. -/
def read (p : Prp ε ι) (st : St ε ι) : Res Val × St ε ι :=
  match st.slot with
  | none => (.error .keyError, st)
  | some s =>
    if outdated p st.env s then
      match p.conv st.env s.data with
      | .error e => (.error e, st)
      | .ok w =>
        match tell p w { st with slot := some { setValidated p w s with recorded := p.inputs st.env s.data } } with
        | (.error e, st) => (.error e, st)
        | (.ok (), st) => (.ok w, st)
    else (.ok s.validated, st)

/-- `o.name` for the property: if the descriptor raises AttributeError, Python calls `__getattr__`, which asks the
descriptor again (object_protocol.py 296-302; the name is no private one and no alias). -/
def readAttr (p : Prp ε ι) (st : St ε ι) : Res Val × St ε ι :=
  match read p st with
  | (.error .attributeError, st) => read p st
  | r => r

/-- object_protocol.py 111-119 `PropertyDescriptor.__delete__`. -/
def delete (p : Prp ε ι) (st : St ε ι) : Res Unit × St ε ι :=
  if p.required then (.error .attributeError, st)
  else match p.deleter with
    | some e => (.error e, { st with deleted := st.deleted + 1 })
    | none => match st.slot with
      | none => (.error .keyError, { st with deleted := st.deleted + 1 })
      | some _ => (.ok (), { st with slot := none, deleted := st.deleted + 1 })

/-- object_protocol.py 436-444 `__delitem__`. -/
def deleteItem (p : Prp ε ι) (st : St ε ι) : Res Unit × St ε ι :=
  if p.translated then delete p st
  else match st.slot with
    | none => (.error .keyError, st)
    | some _ => (.ok (), { st with slot := none })

/-- What is done with the property. -/
inductive Op (ε : Type) where
  | assign (v : Val)
  | read
  | change (e : ε)

/-- One operation; what it gives or raises is left out. -/
def step (p : Prp ε ι) (st : St ε ι) : Op ε → St ε ι
  | .assign v => (assign p v st).2
  | .read => (read p st).2
  | .change e => { st with env := e }

/-- A history. -/
def run (p : Prp ε ι) (st : St ε ι) (ops : List (Op ε)) : St ε ι := ops.foldl (step p) st

end Verif.Setters
