import Verif.Model.Array
import Verif.Model.Object
/-
The methods that array and object instances inherit from `collections.abc`: `ArrayProtocol(…, MutableSequence)`
(array_protocol.py 21) and `ObjectProtocol(…, MutableMapping)` (object_protocol.py 122) define `__getitem__`,
`__setitem__`, `__delitem__`, `__len__`, `insert` / `__iter__`, and none of the methods below, except `get` of objects
(collection_protocol.py 162-167). The bodies are those of the Python standard library (`_collections_abc.py`), on the
instances of `Model/Array.lean` and `Model/Object.lean`.
Simplified: `v is value or v == value` is `pyEq` (the values have no NaN); loops `while True` have as many rounds as
there are items, plus the one that stops; `index` without bounds; keys of objects are non-empty and without dots, and
name no relation (object_protocol.py 382-398).
-/
namespace Verif.Mixins
open Verif.Arr (Arr Cfg getitem setitem delitem append)
open Query (pyEq)

/-! ### Arrays -/

/-- One call after another. -/
def next {σ α β : Type} (a : Res α × σ) (f : α → σ → Res β × σ) : Res β × σ :=
  match a with
  | (.error e, s) => (.error e, s)
  | (.ok x, s) => f x s

/-- `MutableSequence.pop`: `v = self[index]; del self[index]; return v`. -/
def pop (cfg : Cfg) (i : Int) (s : Arr) : Res Val × Arr :=
  next (getitem cfg i s) fun v s => next (delitem cfg i s) fun _ s => (.ok v, s)

/-- `MutableSequence.extend`, the values being another list: `for v in values: self.append(v)`. -/
def extend (cfg : Cfg) : List Val → Arr → Res Unit × Arr
  | [], s => (.ok (), s)
  | v :: vs, s => next (append cfg v s) fun _ s => extend cfg vs s

/-- `self[i], self[n-i-1] = self[n-i-1], self[i]`: both are read, then both are written. -/
def swap (cfg : Cfg) (i j : Nat) (s : Arr) : Res Unit × Arr :=
  next (getitem cfg j s) fun a s => next (getitem cfg i s) fun b s =>
    next (setitem cfg i a s) fun _ s => setitem cfg j b s

/-- The loop of `reverse` from `i` on, `count` rounds. -/
def reverseFrom (cfg : Cfg) (n : Nat) : Nat → Nat → Arr → Res Unit × Arr
  | 0, _, s => (.ok (), s)
  | count + 1, i, s => next (swap cfg i (n - i - 1) s) fun _ s => reverseFrom cfg n count (i + 1) s

/-- `MutableSequence.reverse`: `n = len(self); for i in range(n//2): …`. -/
def reverse (cfg : Cfg) (s : Arr) : Res Unit × Arr := reverseFrom cfg s.data.length (s.data.length / 2) 0 s

/-- `Sequence.__iter__` used up: `while True: v = self[i]; yield v; i += 1`, ended by IndexError, `count` rounds. -/
def iterFrom (cfg : Cfg) : Nat → Nat → Arr → Res (List Val) × Arr
  | 0, _, s => (.ok [], s)
  | count + 1, i, s =>
    match getitem cfg i s with
    | (.error .indexError, s) => (.ok [], s)
    | (.error e, s) => (.error e, s)
    | (.ok v, s) => next (iterFrom cfg count (i + 1) s) fun vs s => (.ok (v :: vs), s)

/-- `list(self)`. -/
def items (cfg : Cfg) (s : Arr) : Res (List Val) × Arr := iterFrom cfg (s.data.length + 1) 0 s

/-- `Sequence.__contains__`: `for v in self: if v is value or v == value: return True`. -/
def containsFrom (cfg : Cfg) (x : Val) : Nat → Nat → Arr → Res Bool × Arr
  | 0, _, s => (.ok false, s)
  | count + 1, i, s =>
    match getitem cfg i s with
    | (.error .indexError, s) => (.ok false, s)
    | (.error e, s) => (.error e, s)
    | (.ok v, s) => if pyEq v x then (.ok true, s) else containsFrom cfg x count (i + 1) s

/-- `x in self`. -/
def contains (cfg : Cfg) (x : Val) (s : Arr) : Res Bool × Arr := containsFrom cfg x (s.data.length + 1) 0 s

/-- `Sequence.index`: the number of the first item that is equal; ValueError when reading ends with IndexError. -/
def indexFrom (cfg : Cfg) (x : Val) : Nat → Nat → Arr → Res Nat × Arr
  | 0, _, s => (.error .valueError, s)
  | count + 1, i, s =>
    match getitem cfg i s with
    | (.error .indexError, s) => (.error .valueError, s)
    | (.error e, s) => (.error e, s)
    | (.ok v, s) => if pyEq v x then (.ok i, s) else indexFrom cfg x count (i + 1) s

/-- `self.index(x)`. -/
def index (cfg : Cfg) (x : Val) (s : Arr) : Res Nat × Arr := indexFrom cfg x (s.data.length + 1) 0 s

/-- `Sequence.count`: `sum(1 for v in self if v is value or v == value)`. -/
def count (cfg : Cfg) (x : Val) (s : Arr) : Res Nat × Arr :=
  next (items cfg s) fun vs s => (.ok (vs.countP (fun v => pyEq v x)), s)

/-- `MutableSequence.remove`: `del self[self.index(value)]`. -/
def remove (cfg : Cfg) (x : Val) (s : Arr) : Res Unit × Arr :=
  next (index cfg x s) fun i s => delitem cfg i s

/-- The loop of `clear`. -/
def clearLoop (cfg : Cfg) : Nat → Arr → Res Unit × Arr
  | 0, s => (.ok (), s)
  | rounds + 1, s =>
    match pop cfg (-1) s with
    | (.error .indexError, s) => (.ok (), s)
    | (.error e, s) => (.error e, s)
    | (.ok _, s) => clearLoop cfg rounds s

/-- `MutableSequence.clear`: `try: while True: self.pop()` `except IndexError: pass`. -/
def clear (cfg : Cfg) (s : Arr) : Res Unit × Arr := clearLoop cfg (s.data.length + 1) s

/-! ### Objects -/

open Verif.Obj (Obj Cls Out getItem setItem delItem)

/-- `Mapping.__contains__`: `try: self[key]` `except KeyError: return False` `else: return True`. -/
def has (c : Cls) (n : Nat) (k : Str) (s : Obj) : Out Bool :=
  match getItem c n k s with
  | (.error .keyError, s) => (.ok false, s)
  | (.error e, s) => (.error e, s)
  | (.ok _, s) => (.ok true, s)

/-- collection_protocol.py 162-167 `get`. -/
def get (c : Cls) (n : Nat) (k : Str) (dft : Val) (s : Obj) : Out Val :=
  match getItem c n k s with
  | (.error .keyError, s) => (.ok dft, s)
  | (.error e, s) => (.error e, s)
  | (.ok .none, s) => (.ok dft, s)
  | (.ok v, s) => (.ok v, s)

/-- `MutableMapping.pop`; `dft` is the default if one is given. -/
def popKey (c : Cls) (n : Nat) (k : Str) (dft : Option Val) (s : Obj) : Out Val :=
  match getItem c n k s with
  | (.error .keyError, s) => match dft with
    | some d => (.ok d, s)
    | none => (.error .keyError, s)
  | (.error e, s) => (.error e, s)
  | (.ok v, s) => next (delItem c k s) fun _ s => (.ok v, s)

/-- `MutableMapping.popitem`: the first key of `__iter__` (object_protocol.py 256-257), KeyError when there is none. -/
def popitem (c : Cls) (n : Nat) (s : Obj) : Out (Str × Val) :=
  match s.validated with
  | [] => (.error .keyError, s)
  | (k, _) :: _ => next (getItem c n k s) fun v s => next (delItem c k s) fun _ s => (.ok (k, v), s)

/-- The loop of `clear`. -/
def wipeLoop (c : Cls) (n : Nat) : Nat → Obj → Out Unit
  | 0, s => (.ok (), s)
  | rounds + 1, s =>
    match popitem c n s with
    | (.error .keyError, s) => (.ok (), s)
    | (.error e, s) => (.error e, s)
    | (.ok _, s) => wipeLoop c n rounds s

/-- `MutableMapping.clear`: `try: while True: self.popitem()` `except KeyError: pass`. -/
def wipe (c : Cls) (n : Nat) (s : Obj) : Out Unit := wipeLoop c n (s.validated.length + 1) s

/-- `MutableMapping.setdefault`. -/
def setdefault (c : Cls) (n : Nat) (k : Str) (dft : Val) (s : Obj) : Out Val :=
  match getItem c n k s with
  | (.error .keyError, s) => next (setItem c n k dft s) fun _ s => (.ok dft, s)
  | (.error e, s) => (.error e, s)
  | (.ok v, s) => (.ok v, s)

/-- `MutableMapping.update`, from a mapping with the entries `m`: `for key in other: self[key] = other[key]`. -/
def update (c : Cls) (n : Nat) : List (Str × Val) → Obj → Out Unit
  | [], s => (.ok (), s)
  | (k, v) :: m, s => next (setItem c n k v s) fun _ s => update c n m s

end Verif.Mixins
