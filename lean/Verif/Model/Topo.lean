import Verif.Py
/-
Model of `topological_sort` (utils.py 677-695) and of `ObjectDeserializer._call_order`
(types/object.py 30-46).

`data` maps an item to the set of its dependencies, held as a list (only membership matters).
-/
set_option linter.unusedSectionVars false

namespace Verif.Topo
variable {α : Type} [DecidableEq α]

/-- utils.py 683-684: `v.discard(k)` for every item. -/
def discardSelf (data : AList α (List α)) : AList α (List α) :=
  data.map (fun p => (p.1, p.2.filter (· ≠ p.1)))

/-- utils.py 685-686: items that are only dependencies get an entry without dependencies. (The order
in which the Python set is iterated is arbitrary; here order of first appearance. Only the dictionary
order is affected.) -/
def addExtra (data : AList α (List α)) : AList α (List α) :=
  data ++ ((data.flatMap Prod.snd).eraseDups.filter (fun x => x ∉ data.keys)).map (fun x => (x, []))

/-- utils.py 688: `set(item for item, dep in data.items() if not dep)`. -/
def ready (data : AList α (List α)) : List α := (data.filter (fun p => p.2.isEmpty)).map Prod.fst

/-- utils.py 693-694: remove the layer from the items and from the dependencies. -/
def peel (layer : List α) (data : AList α (List α)) : AList α (List α) :=
  (data.filter (fun p => p.1 ∉ layer)).map (fun p => (p.1, p.2.filter (fun d => d ∉ layer)))

theorem peel_lt (data : AList α (List α)) (h : ready data ≠ []) :
    (peel (ready data) data).length < data.length := by
  unfold peel
  rw [List.length_map]
  obtain ⟨x, hx⟩ := List.exists_mem_of_ne_nil _ h
  obtain ⟨p, hp, rfl⟩ := List.mem_map.1 hx
  have hpd : p ∈ data := (List.mem_filter.1 hp).1
  have hle := List.length_filter_le (fun p : α × List α => decide (p.1 ∉ ready data)) data
  refine Nat.lt_of_le_of_ne hle fun he => ?_
  have := (List.length_filter_eq_length_iff.1 he) p hpd
  simp at this; exact this hx

/-- utils.py 687-695, the `while` loop: the layers yielded, and the exception that ends the generator
if any (`assert not data`). -/
def peelLoop (data : AList α (List α)) : List (List α) × Option Exc :=
  if _h : ready data = [] then
    ([], if data.isEmpty then none else some .assertionError)
  else
    let r := peelLoop (peel (ready data) data)
    (ready data :: r.1, r.2)
termination_by data.length
decreasing_by exact peel_lt data _h

/-- utils.py 677-695 `topological_sort(data)`: the yielded layers and the final exception. An empty
`data` yields nothing (681-682). -/
def topologicalSort (data : AList α (List α)) : List (List α) × Option Exc :=
  if data.isEmpty then ([], none) else peelLoop (addExtra (discardSelf data))

/-- types/object.py 40-44: for every layer, yield the keys of the layer still to be ordered.
`ord` is the arbitrary iteration order of Python sets. Returns the yielded keys and the rest. -/
def levels (ord : List α → List α) : List (List α) → List α → List α × List α
  | [], unordered => ([], unordered)
  | level :: ls, unordered =>
    let inLevel := unordered.filter (fun k => k ∈ level)
    let r := levels ord ls (unordered.filter (fun k => k ∉ level))
    (ord inLevel ++ r.1, r.2)

/-- types/object.py 30-46 `_call_order(self, value, dependencies)`: the keys yielded and the exception
that ends the generator, if any. `required` is `self._required` in its iteration order, `keys` the
keys of the value. -/
def callOrder (ord : List α → List α) (required keys : List α) (deps : AList α (List α)) :
    List α × Option Exc :=
  let unordered := keys.filter (fun k => k ∉ required)
  if unordered.isEmpty then (required, none)
  else
    let t := topologicalSort deps
    let r := levels ord t.1 unordered
    match t.2 with
    | some e => (required ++ r.1, some e)
    | none => (required ++ r.1 ++ ord r.2, none)

end Verif.Topo
