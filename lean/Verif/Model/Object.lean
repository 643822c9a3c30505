import Verif.Model.Query
import Verif.Model.Types
/-
Object instances: protocols/object_protocol.py 66-119 (`PropertyDescriptor`), 235-287 (`_items_touch`, `_touch`,
`_properties_raw_trans`), 381-444 (`__getitem__`, `__setitem__`, `__delitem__`) and protocols/collection_protocol.py
37-53, 92-136, 169-192 (`__init__`, `_items_touch`, `_items_inputs_evaluate`, `_items_evaluate`, `_set_data`,
`_set_dataValidated`, `_is_outdated`).

Simplifications:
* A class is what the methods above read of it (`Cls`). Property types are the parameter `conv`: what
  `_items_evaluate` gives for a property, a value and the context, the latter being what the names a template mentions
  stand for. In the merged context the instance's `_dataValidated` comes before the instance itself and has the same
  keys (object_protocol.py 237, utils/utils.py 111-117), so names are looked up in `_dataValidated`. `reads` is
  `t._inputs(t, v)`, `tpl` is `Pattern.check(v) or Expr.check(v)`, `prim` is `t.is_primitive()`. `_rawLiterals` is off.
* A getter reads a list of items of the instance and computes a value from them, or raises (`Getter`). There are no
  setters (`fset`) nor deleters (`fdel`). Every declared property has its descriptor.
* The sets of `_dependencies` are lists; their iteration order only orders reads.
* Keys are not empty and contain no dot; there are no relationships (object_protocol.py 382-398, 415-426).
* Values are compared with `Query.pyEq`. `_dataAdditional`, which is only written, is left out.
* Python's recursion limit is `limit`, counted separately in nested reads and in nested invalidations. Going beyond it
  raises RecursionError, which, like any other exception, is dropped while inputs are read
  (collection_protocol.py 107, 114).
* Reading all items (`create`) takes the keys as they are at the beginning.
-/
namespace Verif.Obj
open Query (pyEq)

/-- An instance. -/
structure Obj where
  data : AList Str Val
  validated : AList Str Val
  inputs : AList Str (AList Str Val)
  deriving DecidableEq, Repr

/-- A getter method: the items it reads, in order, and what it makes of them. -/
structure Getter where
  args : List Str
  fn : List Val → Res Val

/-- What a class declares. `deps k`: the items `k` is declared to depend on. -/
structure Cls where
  props : List Str
  deps : AList Str (List Str) := []
  conv : Str → Val → (Str → Option Val) → Res Val
  getter : Str → Option Getter := fun _ => none
  prim : Str → Bool := fun _ => true
  reads : Val → List Str := fun _ => []
  tpl : Val → Bool := fun _ => false
  readOnly : List Str := []
  required : List Str := []
  aliases : AList Str Str := []
  negated : AList Str Str := []
  translation : AList Str Str := []
  additional : Bool := true
  lazy : Bool := false
  limit : Nat := 100

/-- The result of a method, and the instance afterwards. -/
abbrev Out (α : Type) := Res α × Obj

/-! ### Invalidation -/

/-- `for d, s in self._dependencies.items(): if item in s`. -/
def dependents (c : Cls) (k : Str) : List Str := (c.deps.filter (fun p => k ∈ p.2)).map Prod.fst

/-- collection_protocol.py 94-95. -/
def reset (k : Str) (s : Obj) : Obj :=
  { s with validated := s.validated.set k .none, inputs := s.inputs.set k [] }

/-- A loop over items that stops at an exception. -/
def forEach (f : Str → Obj → Out Unit) : List Str → Obj → Out Unit
  | [], s => (.ok (), s)
  | k :: ks, s => match f k s with
    | (.ok (), s) => forEach f ks s
    | (.error e, s) => (.error e, s)

/-- object_protocol.py 239-243 and collection_protocol.py 92-98 `_items_touch`: both loop over the dependents. -/
def touch (c : Cls) : Nat → Str → Obj → Out Unit
  | 0, _, s => (.error .recursionError, s)
  | n + 1, k, s =>
    match forEach (touch c n) (dependents c k) (reset k s) with
    | (.ok (), s) => forEach (touch c n) (dependents c k) s
    | (.error e, s) => (.error e, s)

/-- collection_protocol.py 169-178 `_set_data`. -/
def setData (c : Cls) (k : Str) (v : Val) (s : Obj) : Out Unit :=
  match s.data.get? k with
  | none => (.error .keyError, s)
  | some orig =>
    if c.prim k && pyEq v orig then (.ok (), { s with data := s.data.set k v })
    else match touch c c.limit k s with
      | (.error e, s) => (.error e, s)
      | (.ok (), s) => (.ok (), { s with data := s.data.set k v })

/-- collection_protocol.py 180-188 `_set_dataValidated`. -/
def setValidated (c : Cls) (k : Str) (w : Val) (s : Obj) : Out Unit :=
  if c.prim k then
    match s.data.get? k with
    | none => (.error .keyError, s)
    | some orig =>
      (.ok (), { s with data := if c.tpl orig then s.data else s.data.set k w, validated := s.validated.set k w })
  else (.ok (), { s with data := s.data.set k w, validated := s.validated.set k w })

/-! ### Inputs -/

/-- The loops collection_protocol.py 104-108 and 111-115; `rd` is `self[...]`. -/
def collect (rd : Str → Obj → Out Val) : List Str → AList Str Val → Obj → AList Str Val × Obj
  | [], m, s => (m, s)
  | x :: xs, m, s => match rd x s with
    | (.ok v, s) => collect rd xs (m.set x v) s
    | (.error _, s) => collect rd xs m s

/-- `self._dependencies.get(item, [])`. -/
def depsOf (c : Cls) (k : Str) : List Str := (c.deps.get? k).getD []

/-- collection_protocol.py 100-116 `_items_inputs_evaluate`. -/
def inputsOf (c : Cls) (rd : Str → Obj → Out Val) (k : Str) (s : Obj) : Out (AList Str Val) :=
  match collect rd (depsOf c k) [] s with
  | (m, s) =>
    if c.prim k then
      match s.data.get? k with
      | none => (.error .keyError, s)
      | some v => match collect rd (c.reads v) m s with
        | (m, s) => (.ok m, s)
    else (.ok m, s)

/-- `==` on records of inputs. -/
def sameInputs (a b : AList Str Val) : Bool :=
  a.length == b.length &&
    a.all (fun p => match b.get? p.1 with | some w => pyEq p.2 w | none => false)

/-- The second half of collection_protocol.py 191-192. -/
def inputsChanged (c : Cls) (rd : Str → Obj → Out Val) (k : Str) (s : Obj) : Out Bool :=
  match inputsOf c rd k s with
  | (.ok m, s') => (.ok (!sameInputs ((s.inputs.get? k).getD []) m), s')
  | (.error e, s') => (.error e, s')

/-- collection_protocol.py 190-192 `_is_outdated`. -/
def isOutdated (c : Cls) (rd : Str → Obj → Out Val) (k : Str) (s : Obj) : Out Bool :=
  match s.validated.get? k with
  | none => (.error .keyError, s)
  | some .none => match s.data.get? k with
    | none => (.error .keyError, s)
    | some .none => inputsChanged c rd k s
    | some _ => (.ok true, s)
  | some _ => inputsChanged c rd k s

/-- collection_protocol.py 118-136 `_items_evaluate`. -/
def evaluate (c : Cls) (k : Str) (s : Obj) : Res Val :=
  match s.data.get? k with
  | none => .error .keyError
  | some v => c.conv k v (fun x => s.validated.get? x)

/-- `self._dataValidated[k]`. -/
def validatedOf (k : Str) (s : Obj) : Out Val :=
  match s.validated.get? k with
  | some v => (.ok v, s)
  | none => (.error .keyError, s)

/-! ### Descriptors -/

/-- The reads of a getter. -/
def readArgs (rd : Str → Obj → Out Val) : List Str → Obj → Out (List Val)
  | [], s => (.ok [], s)
  | x :: xs, s => match rd x s with
    | (.error e, s) => (.error e, s)
    | (.ok v, s) => match readArgs rd xs s with
      | (.error e, s) => (.error e, s)
      | (.ok vs, s) => (.ok (v :: vs), s)

/-- `obj._set_data(key, self.fget(obj))`, if there is a getter (object_protocol.py 77-78). -/
def runGetter (c : Cls) (rd : Str → Obj → Out Val) (k : Str) (s : Obj) : Out Unit :=
  match c.getter k with
  | none => (.ok (), s)
  | some g => match readArgs rd g.args s with
    | (.error e, s) => (.error e, s)
    | (.ok vs, s) => match g.fn vs with
      | .error e => (.error e, s)
      | .ok v => setData c k v s

/-- `_set_dataValidated(key, _items_evaluate(key))`. -/
def store (c : Cls) (k : Str) (s : Obj) : Out Unit :=
  match evaluate c k s with
  | .error e => (.error e, s)
  | .ok w => setValidated c k w s

/-- object_protocol.py 76-81. -/
def refresh (c : Cls) (rd : Str → Obj → Out Val) (k : Str) (s : Obj) : Out Unit :=
  match inputsOf c rd k s with
  | (.error e, s) => (.error e, s)
  | (.ok ins, s) => match runGetter c rd k s with
    | (.error e, s) => (.error e, s)
    | (.ok (), s) => match store c k s with
      | (.error e, s) => (.error e, s)
      | (.ok (), s) => (.ok (), { s with inputs := s.inputs.set k ins })

/-- `obj._dataValidated.get(key) is None`. -/
def noValue (k : Str) (s : Obj) : Bool := (s.validated.get? k).getD .none == .none

/-- object_protocol.py 66-91 `PropertyDescriptor.__get__`. -/
def descGet (c : Cls) (rd : Str → Obj → Out Val) (k : Str) (s : Obj) : Out Val :=
  match isOutdated c rd k s with
  | (.error e, s) => (.error e, s)
  | (.ok outdated, s) =>
    if outdated || ((c.getter k).isSome && noValue k s) then
      match refresh c rd k s with
      | (.error e, s) => (.error e, s)
      | (.ok (), s) => validatedOf k s
    else validatedOf k s

/-- `self._itemsInputs[key] = self._items_inputs_evaluate(key)` and then `store`
(object_protocol.py 100-102 and 409-410). -/
def reload (c : Cls) (rd : Str → Obj → Out Val) (k : Str) (s : Obj) : Out Unit :=
  match inputsOf c rd k s with
  | (.error e, s) => (.error e, s)
  | (.ok ins, s) => store c k { s with inputs := s.inputs.set k ins }

/-- object_protocol.py 93-109 `PropertyDescriptor.__set__`. -/
def descSet (c : Cls) (rd : Str → Obj → Out Val) (k : Str) (v : Val) (s : Obj) : Out Unit :=
  if k ∈ c.readOnly then (.error .attributeError, s)
  else match setData c k v s with
    | (.error e, s) => (.error e, s)
    | (.ok (), s) => if c.lazy then (.ok (), s) else reload c rd k s

/-- `del self._data[k]`. -/
def delData (k : Str) (s : Obj) : Out Unit :=
  if s.data.contains k then (.ok (), { s with data := s.data.erase k }) else (.error .keyError, s)
/-- `del self._dataValidated[k]`. -/
def delValidated (k : Str) (s : Obj) : Out Unit :=
  if s.validated.contains k then (.ok (), { s with validated := s.validated.erase k }) else (.error .keyError, s)
/-- `del self._itemsInputs[k]`. -/
def delInputs (k : Str) (s : Obj) : Out Unit :=
  if s.inputs.contains k then (.ok (), { s with inputs := s.inputs.erase k }) else (.error .keyError, s)

/-- One statement after another. -/
def andThen (a : Out Unit) (f : Obj → Out Unit) : Out Unit :=
  match a with
  | (.ok (), s) => f s
  | (.error e, s) => (.error e, s)

/-- object_protocol.py 111-119 `PropertyDescriptor.__delete__`. -/
def descDel (c : Cls) (k : Str) (s : Obj) : Out Unit :=
  if k ∈ c.required then (.error .attributeError, s)
  else andThen (andThen (delData k s) (delValidated k)) (delInputs k)

/-! ### Items -/

/-- The first entry of `_propertiesTranslation` (clean name, name) mentioning a name. -/
def translated (c : Cls) (name : Str) : Option (Str × Str) :=
  c.translation.find? (fun p => name = p.2 || name = p.1)

/-- An alias that is not the empty string. -/
def aliasOf (m : AList Str Str) (name : Str) : Option Str :=
  match m.get? name with
  | some a => if a.isEmpty then none else some a
  | none => none

/-- object_protocol.py 260-287 `_properties_raw_trans`, the first component, without the cache (`rawNameCached`). -/
def rawName (c : Cls) (name : Str) : Option Str :=
  if name ∈ c.props then some name
  else match translated c name with
    | some p => some p.2
    | none => match aliasOf c.aliases name with
      | some a => some a
      | none => match aliasOf c.negated name with
        | some a => some a
        | none => if c.additional then some name else none

/-- The same with the dictionary `__properties_raw_trans` of the class: 264-266 and the assignments. -/
def rawNameCached (c : Cls) (cache : AList Str Str) (name : Str) : Option Str × AList Str Str :=
  match cache.get? name with
  | some r => (some r, cache)
  | none => match rawName c name with
    | some r => (some r, cache.set name r)
    | none => (none, cache)

/-- object_protocol.py 400-401. -/
def unalias (c : Cls) (key : Str) : Str :=
  let key := (c.negated.get? key).getD key
  (c.aliases.get? key).getD key

/-- The function `op` (object_protocol.py 399, 414): it looks at the variable `key` when it is called. -/
def op (c : Cls) (key : Str) (v : Val) : Res Val :=
  if c.negated.contains key then Types.negate v else .ok v

/-- The value of a result through `op`. -/
def through (c : Cls) (key : Str) (r : Out Val) : Out Val :=
  match r with
  | (.ok v, s) => (op c key v, s)
  | (.error e, s) => (.error e, s)

/-- object_protocol.py 408-411: an item without descriptor. -/
def plainGet (c : Cls) (rd : Str → Obj → Out Val) (key : Str) (s : Obj) : Out Val :=
  match (if c.lazy then (.ok true, s) else isOutdated c rd key s : Out Bool) with
  | (.error e, s) => (.error e, s)
  | (.ok outdated, s) =>
    if outdated then
      match reload c rd key s with
      | (.error e, s) => (.error e, s)
      | (.ok (), s) => validatedOf key s
    else validatedOf key s

/-- object_protocol.py 399-411 `__getitem__`; at most `n` reads are nested. `op` is called when `key` has been
replaced. -/
def getItem (c : Cls) : Nat → Str → Obj → Out Val
  | 0, _, s => (.error .recursionError, s)
  | n + 1, name, s =>
    let key := unalias c name
    match rawName c key with
    | none => (.error .keyError, s)
    | some raw =>
      if !s.data.contains raw then (.error .keyError, s)
      else if raw ∈ c.props then through c key (descGet c (getItem c n) raw s)
      else through c key (plainGet c (getItem c n) key s)

/-- object_protocol.py 413-434 `__setitem__`. -/
def setItem (c : Cls) (n : Nat) (key : Str) (v : Val) (s : Obj) : Out Unit :=
  match rawName c key with
  | none => (.error .keyError, s)
  | some raw =>
    if raw ∈ c.props then
      match op c key v with
      | .error e => (.error e, s)
      | .ok v => descSet c (getItem c n) raw v s
    else if !c.additional then (.error .keyError, s)
    else match op c key v with
      | .error e => (.error e, s)
      | .ok v => (.ok (), { s with data := s.data.set key v, validated := s.validated.set key v })

/-- object_protocol.py 436-444 `__delitem__`. -/
def delItem (c : Cls) (key : Str) (s : Obj) : Out Unit :=
  match translated c key with
  | some p => descDel c p.2 s
  | none => andThen (andThen (delData key s) (delInputs key)) (delValidated key)

/-- `del obj.name` for the attribute of a declared property. -/
def delAttr (c : Cls) (k : Str) (s : Obj) : Out Unit := descDel c k s

/-- Reading every item of a list. -/
def readAll (c : Cls) (n : Nat) : List Str → Obj → Out Unit
  | [], s => (.ok (), s)
  | k :: ks, s => match getItem c n k s with
    | (.ok _, s) => readAll c n ks s
    | (.error e, s) => (.error e, s)

/-- object_protocol.py 245-251 `_touch` on deserialised data. -/
def touched (data : AList Str Val) : Obj :=
  { data, validated := data.map (fun p => (p.1, .none)), inputs := data.map (fun p => (p.1, [])) }

/-- collection_protocol.py 37-53 `__init__`, on deserialised data: without lazy loading every item is read. -/
def create (c : Cls) (n : Nat) (data : AList Str Val) : Out Unit :=
  let s := touched data
  if c.lazy then (.ok (), s) else readAll c n data.keys s

/-! ### Histories -/

inductive Op where
  | get (k : Str)
  | set (k : Str) (v : Val)
  | del (k : Str)
  | delAttr (k : Str)
  deriving DecidableEq, Repr

/-- An operation; an exception leaves the instance as it is at that moment. -/
def step (c : Cls) (n : Nat) (s : Obj) : Op → Obj
  | .get k => (getItem c n k s).2
  | .set k v => (setItem c n k v s).2
  | .del k => (delItem c k s).2
  | .delAttr k => (delAttr c k s).2

def run (c : Cls) (n : Nat) (s : Obj) (ops : List Op) : Obj := ops.foldl (step c n) s

end Verif.Obj
