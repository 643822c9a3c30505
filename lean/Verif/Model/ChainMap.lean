import Verif.Py
/-
Model of `ReadOnlyChainMap` and `Context`, /repo/ngoschema/utils/utils.py lines 43-157.

A chain holds a list of maps, each of which is a plain dictionary or again a chain
(nested chains are what `create_child(ctx, ...)` produces). Simplification: every map is a
mapping (never `None`), and its keys are drawn from one type with decidable equality.
-/
namespace Verif.ChainMap
variable {κ υ : Type} [DecidableEq κ]

/-- utils.py 43-49: a plain dict, or a `ReadOnlyChainMap(*maps)` holding the list of its maps. -/
inductive Chain (κ υ : Type) where
  | dict (d : AList κ υ)
  | chain (ms : List (Chain κ υ))

mutual
/-- `mapping[key]`; for a chain utils.py 52-58: the maps are tried in order, a `KeyError` moves
on to the next one, any result is returned, `KeyError` at the end. -/
def Chain.getItem : Chain κ υ → κ → Res υ
  | .dict d, k => match d.get? k with
    | some v => .ok v
    | none => .error .keyError
  | .chain ms, k => Chain.getItems ms k
/-- the `for` loop of utils.py 53-58. -/
def Chain.getItems : List (Chain κ υ) → κ → Res υ
  | [], _ => .error .keyError
  | m :: ms, k => match Chain.getItem m k with
    | .ok v => .ok v
    | .error _ => Chain.getItems ms k
end

mutual
/-- `key in mapping`; for a chain utils.py 60-61 `any(key in m or {} for m in self._maps)`. -/
def Chain.contains : Chain κ υ → κ → Bool
  | .dict d, k => d.contains k
  | .chain ms, k => Chain.containsAny ms k
/-- the `any` of utils.py 61. -/
def Chain.containsAny : List (Chain κ υ) → κ → Bool
  | [], _ => false
  | m :: ms, k => Chain.contains m k || Chain.containsAny ms k
end

/-- utils.py 66-75, 80-83: yield the keys not in `viewed`, recording them. Returns the yielded keys. -/
def yieldNew (viewed : List κ) : List κ → List κ
  | [] => []
  | k :: ks => if k ∈ viewed then yieldNew viewed ks else k :: yieldNew (k :: viewed) ks

mutual
/-- `iter(mapping)`; for a chain utils.py 77-83. -/
def Chain.iter : Chain κ υ → List κ
  | .dict d => d.keys
  | .chain ms => yieldNew [] (Chain.iters ms)
/-- the keys of the maps one map after the other (outer loop of utils.py 79-80). -/
def Chain.iters : List (Chain κ υ) → List κ
  | [] => []
  | m :: ms => Chain.iter m ++ Chain.iters ms
end

mutual
/-- utils.py 63-75: the maps in reverse order; a nested chain by its own `reversed_keys`,
a plain map by its iteration order. -/
def Chain.reversedKeys : Chain κ υ → List κ
  | .dict d => d.keys
  | .chain ms => yieldNew [] (Chain.reversedKeysL ms)
/-- the loop over `reversed(self._maps)`, utils.py 65. -/
def Chain.reversedKeysL : List (Chain κ υ) → List κ
  | [] => []
  | m :: ms => Chain.reversedKeysL ms ++ Chain.reversedKeys m
end

/-- Adding one element to a set held as a duplicate-free list. -/
def setAdd (acc : List κ) (k : κ) : List κ := if k ∈ acc then acc else k :: acc

/-- `set().union(*ls)` as a duplicate-free list: the elements are added one by one. -/
def setUnion (ls : List (List κ)) : List κ := ls.flatten.foldl setAdd []

/-- utils.py 85-86: `len(set().union(*self._maps))` (`len(d)` for a plain dict). -/
def Chain.len : Chain κ υ → Nat
  | .dict d => d.length
  | .chain ms => (setUnion (ms.map Chain.iter)).length

mutual
/-- utils.py 98-109 `maps_flattened`, without the memo (see `Ctx.flattened` for the memo). -/
def Chain.flattened : Chain κ υ → List (AList κ υ)
  | .dict d => [d]
  | .chain ms => Chain.flattenedL ms
/-- the loop of utils.py 102-106. -/
def Chain.flattenedL : List (Chain κ υ) → List (AList κ υ)
  | [] => []
  | m :: ms => Chain.flattened m ++ Chain.flattenedL ms
end

/-- Inner loop of utils.py 114-115: assign `m[k]` for the given keys; a failing lookup would
propagate. -/
def mergeKeys (m : Chain κ υ) : List κ → AList κ υ → Res (AList κ υ)
  | [], ret => .ok ret
  | k :: ks, ret => match m.getItem k with
    | .ok v => mergeKeys m ks (ret.set k v)
    | .error e => .error e

/-- utils.py 111-117 `merged`. `ord` is the arbitrary iteration order of the Python set
`set(m.keys()).difference(ret.keys())`. -/
def merge (ord : List κ → List κ) : List (Chain κ υ) → AList κ υ → Res (AList κ υ)
  | [], ret => .ok ret
  | m :: ms, ret =>
    match mergeKeys m (ord (m.iter.filter (fun k => k ∉ ret.keys))) ret with
    | .ok ret => merge ord ms ret
    | .error e => .error e

/-- `.merged` of a chain (a plain dict is its own merge). -/
def Chain.merged (ord : List κ → List κ) : Chain κ υ → Res (AList κ υ)
  | .dict d => .ok d
  | .chain ms => merge ord ms []

/-- utils.py 88-89 `new_child(*maps, **kwargs)`. -/
def newChild (self : List (Chain κ υ)) (maps : List (Chain κ υ)) (kwargs : AList κ υ) :
    List (Chain κ υ) := .dict kwargs :: (maps ++ self)

/-- A `Context` object: its list of maps and the memo of `maps_flattened`
(utils.py 97-109, 120-125). -/
structure Ctx (κ υ : Type) where
  maps : List (Chain κ υ)
  flat : Option (List (AList κ υ)) := none

/-- utils.py 122-125 `Context(*parents, **local)`. -/
def Ctx.init (parents : List (Chain κ υ)) (locals : AList κ υ) : Ctx κ υ :=
  { maps := .dict locals :: parents }

/-- utils.py 136-142 `create_child(*parents, **local)`: the same context when called with nothing,
else a new `Context` (with an empty `local`) over `local, *parents, *self._maps`. -/
def Ctx.createChild (c : Ctx κ υ) (parents : List (Chain κ υ)) (locals : AList κ υ) : Ctx κ υ :=
  if parents.isEmpty && locals.isEmpty then c
  else
    let parents := if locals.isEmpty then parents else .dict locals :: parents
    Ctx.init (parents ++ c.maps) []

/-- utils.py 144-145. -/
def Ctx.prepend (c : Ctx κ υ) (m : Chain κ υ) : Ctx κ υ := { c with maps := m :: c.maps }
/-- utils.py 147-148. -/
def Ctx.append (c : Ctx κ υ) (m : Chain κ υ) : Ctx κ υ := { c with maps := c.maps ++ [m] }
/-- `ctx[key]`. -/
def Ctx.getItem (c : Ctx κ υ) (k : κ) : Res υ := Chain.getItems c.maps k
/-- utils.py 98-109 with its memo: computed on first access, returned from the memo afterwards. -/
def Ctx.flattened (c : Ctx κ υ) : List (AList κ υ) × Ctx κ υ :=
  match c.flat with
  | some f => (f, c)
  | none => (Chain.flattenedL c.maps, { c with flat := some (Chain.flattenedL c.maps) })

/-- Operations of a program holding several contexts, numbered in order of creation. -/
inductive Op (κ υ : Type) where
  | child (i : Nat) (parents : List (Chain κ υ)) (locals : AList κ υ)
  | prepend (i : Nat) (m : Chain κ υ)
  | append (i : Nat) (m : Chain κ υ)

/-- One operation on the list of all contexts created so far (an operation on a context that does
not exist does nothing). `child` adds the new context at the end. Simplification: a context used as
a parent of another one is held as a snapshot. -/
def step (w : List (Ctx κ υ)) : Op κ υ → List (Ctx κ υ)
  | .child i ps loc => match w[i]? with
    | some c => w ++ [c.createChild ps loc]
    | none => w
  | .prepend i m => match w[i]? with
    | some c => w.set i (c.prepend m)
    | none => w
  | .append i m => match w[i]? with
    | some c => w.set i (c.append m)
    | none => w

end Verif.ChainMap
