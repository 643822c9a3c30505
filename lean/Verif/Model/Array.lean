import Verif.Val
/-
Array instances: protocols/array_protocol.py 43-46, 72-84 (`_touch`, `__len__`, `insert`) and
protocols/collection_protocol.py 37-53, 100-160, 180-188 (`__init__`, `_items_inputs_evaluate`, `_items_evaluate`,
`__setitem__`, `__getitem__`, `__delitem__`, `_set_dataValidated`).

Simplifications:
* The item types are the parameter `conv`: what `_items_evaluate` gives for an item number, as given by the caller,
  and a value (types/array.py 130-133: with a list of types the item number selects the type); `prim` tells whether
  that type is primitive; `tpl` is `Pattern.check(v) or Expr.check(v)`. Conversions are functions of the value: the
  context (parent objects, session) is left out.
* The record of inputs of an item is always `{}`: `_dependencies` is empty for arrays (types/collection.py 17) and the
  inputs of a template are read as `self[name]`, whose TypeError is logged and dropped (collection_protocol.py
  112-115). It is a unit here.
* `None` in `_dataValidated` is `Val.none`, as in the code: an item whose conversion is None counts as not converted.
* `_validate(self, value, items=False)` (array_protocol.py 84, after an insertion) checks the inserted *value* against
  the schema of the array, without minItems, maxItems, uniqueItems, items, but with `type: array`
  (types/array.py 182-187, protocols/validator.py 48-72): lists and texts pass (types/array.py 172-179); the other
  keywords are the parameter `okItem`. After a deletion the array itself is checked: `okSelf`.
* Items are numbers (possibly negative), not slices.
-/
namespace Verif.Arr

structure Arr where
  data : List Val
  validated : List Val
  inputs : List Unit
  deriving DecidableEq, Repr

structure Cfg where
  conv : Int → Val → Res Val
  prim : Int → Bool
  tpl : Val → Bool
  lazy : Bool
  okItem : Val → Option Exc
  okSelf : Arr → Option Exc

/-- The position an item number denotes in a list of `n`. -/
def norm (n : Nat) (i : Int) : Option Nat :=
  if 0 ≤ i then (if i < n then some i.toNat else none)
  else if -(n : Int) ≤ i then some (i + n).toNat else none

/-- `l[i]`. -/
def getAt {α} (l : List α) (i : Int) : Res α :=
  match norm l.length i with
  | none => .error .indexError
  | some k => match l[k]? with
    | none => .error .indexError
    | some x => .ok x

/-- `l[i] = x`. -/
def setAt {α} (l : List α) (i : Int) (x : α) : Res (List α) :=
  match norm l.length i with
  | none => .error .indexError
  | some k => .ok (l.set k x)

/-- `del l[i]`. -/
def delAt {α} (l : List α) (i : Int) : Res (List α) :=
  match norm l.length i with
  | none => .error .indexError
  | some k => .ok (l.eraseIdx k)

/-- Where `list.insert` puts the element. -/
def clamp (n : Nat) (i : Int) : Nat :=
  if i < 0 then (i + n).toNat else min i.toNat n

/-- `l.insert(i, x)`. -/
def insertAt {α} (l : List α) (i : Int) (x : α) : List α := l.take (clamp l.length i) ++ x :: l.drop (clamp l.length i)

/-- array_protocol.py 43-46. -/
def touch (s : Arr) : Arr :=
  { s with validated := List.replicate s.data.length .none, inputs := List.replicate s.data.length () }

/-- collection_protocol.py 180-188. -/
def setValidated (cfg : Cfg) (i : Int) (v : Val) (s : Arr) : Res Unit × Arr :=
  match getAt s.data i with
  | .error e => (.error e, s)
  | .ok orig =>
    match (if cfg.prim i && cfg.tpl orig then .ok s.data else setAt s.data i v) with
    | .error e => (.error e, s)
    | .ok data =>
      match setAt s.validated i v with
      | .error e => (.error e, { s with data := data })
      | .ok validated => (.ok (), { s with data := data, validated := validated })

/-- collection_protocol.py 147-148, 152-153, array_protocol.py 80-81: the inputs, then the conversion. -/
def evaluate (cfg : Cfg) (i : Int) (s : Arr) : Res Unit × Arr :=
  match setAt s.inputs i () with
  | .error e => (.error e, s)
  | .ok inputs =>
    match getAt s.data i with
    | .error e => (.error e, { s with inputs := inputs })
    | .ok v =>
      match cfg.conv i v with
      | .error e => (.error e, { s with inputs := inputs })
      | .ok w => setValidated cfg i w { s with inputs := inputs }

/-- collection_protocol.py 150-154. -/
def getitem (cfg : Cfg) (i : Int) (s : Arr) : Res Val × Arr :=
  match getAt s.validated i with
  | .error e => (.error e, s)
  | .ok .none =>
    match evaluate cfg i s with
    | (.error e, s1) => (.error e, s1)
    | (.ok _, s1) => (getAt s1.validated i, s1)
  | .ok v => (.ok v, s)

/-- collection_protocol.py 144-148. -/
def setitem (cfg : Cfg) (i : Int) (v : Val) (s : Arr) : Res Unit × Arr :=
  match setAt s.data i v with
  | .error e => (.error e, s)
  | .ok data =>
    if cfg.lazy then (.ok (), { s with data := data }) else evaluate cfg i { s with data := data }

/-- collection_protocol.py 156-160. -/
def delitem (cfg : Cfg) (i : Int) (s : Arr) : Res Unit × Arr :=
  match delAt s.data i with
  | .error e => (.error e, s)
  | .ok data =>
    match delAt s.validated i with
    | .error e => (.error e, { s with data := data })
    | .ok validated =>
      match delAt s.inputs i with
      | .error e => (.error e, { s with data := data, validated := validated })
      | .ok inputs =>
        let s1 : Arr := { data := data, validated := validated, inputs := inputs }
        match cfg.okSelf s1 with
        | some e => (.error e, s1)
        | none => (.ok (), s1)

/-- `type: array` on an item (types/array.py 172-179). -/
def sequence : Val → Bool
  | .list _ => true
  | .str _ => true
  | _ => false

/-- array_protocol.py 84. -/
def checkItem (cfg : Cfg) (v : Val) (s : Arr) : Res Unit × Arr :=
  if sequence v then
    match cfg.okItem v with
    | some e => (.error e, s)
    | none => (.ok (), s)
  else (.error .invalidValue, s)

/-- array_protocol.py 75-84. -/
def insert (cfg : Cfg) (i : Int) (v : Val) (s : Arr) : Res Unit × Arr :=
  let s1 : Arr := { data := insertAt s.data i v, validated := insertAt s.validated i .none,
                    inputs := insertAt s.inputs i () }
  if cfg.lazy then checkItem cfg v s1
  else
    match evaluate cfg i s1 with
    | (.error e, s2) => (.error e, s2)
    | (.ok _, s2) => checkItem cfg v s2

/-- `MutableSequence.append`. -/
def append (cfg : Cfg) (v : Val) (s : Arr) : Res Unit × Arr := insert cfg s.data.length v s

/-- `list(self)` (collection_protocol.py 51): items 0, 1, … in turn. -/
def readAll (cfg : Cfg) : List Nat → Arr → Res Unit × Arr
  | [], s => (.ok (), s)
  | k :: ks, s =>
    match getitem cfg k s with
    | (.error e, s1) => (.error e, s1)
    | (.ok _, s1) => readAll cfg ks s1

/-- collection_protocol.py 45-53, the data being a list already; the check of the whole is `okSelf`. -/
def create (cfg : Cfg) (data : List Val) : Res Arr :=
  let s := touch { data := data, validated := [], inputs := [] }
  let r := if cfg.lazy then (.ok (), s) else readAll cfg (List.range data.length) s
  match r with
  | (.error e, _) => .error e
  | (.ok _, s1) => match cfg.okSelf s1 with
    | some e => .error e
    | none => .ok s1

inductive Op where
  | get (i : Int)
  | set (i : Int) (v : Val)
  | del (i : Int)
  | ins (i : Int) (v : Val)
  | app (v : Val)
  deriving Repr

def step (cfg : Cfg) (op : Op) (s : Arr) : Res (Option Val) × Arr :=
  match op with
  | .get i => match getitem cfg i s with
    | (.error e, s1) => (.error e, s1)
    | (.ok v, s1) => (.ok (some v), s1)
  | .set i v => match setitem cfg i v s with
    | (.error e, s1) => (.error e, s1)
    | (.ok _, s1) => (.ok none, s1)
  | .del i => match delitem cfg i s with
    | (.error e, s1) => (.error e, s1)
    | (.ok _, s1) => (.ok none, s1)
  | .ins i v => match insert cfg i v s with
    | (.error e, s1) => (.error e, s1)
    | (.ok _, s1) => (.ok none, s1)
  | .app v => match append cfg v s with
    | (.error e, s1) => (.error e, s1)
    | (.ok _, s1) => (.ok none, s1)

def run (cfg : Cfg) : List Op → Arr → Arr
  | [], s => s
  | op :: ops, s => run cfg ops (step cfg op s).2

end Verif.Arr
