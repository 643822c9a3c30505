import Verif.Spec.Array
import Verif.Model.Mixins
/-
What is expected of the methods inherited from `collections.abc`: those of a Python list of converted items, and those
of a Python dictionary.
-/
namespace Verif.Mixins.Spec
open Verif.Arr Verif.Arr.Spec

/-- The array was made from some data and went through some history of reads, insertions, deletions and (if it is not
loaded lazily) assignments of values of the item type; a Python list under the same history is `raw`. -/
def Reached (cfg : Cfg) (c : Val → Res Val) (raw : List Val) (s : Arr) : Prop :=
  ∃ data s0 ops, create cfg data = .ok s0 ∧ (cfg.lazy = false ∨ ∀ i v, Op.set i v ∉ ops) ∧ GoodSets c ops ∧
    raw = Arr.Spec.run data ops ∧ s = Arr.run cfg ops s0

/-- `vs` are the conversions of `raw`, one by one. -/
def Converted (c : Val → Res Val) (raw vs : List Val) : Prop := raw.map c = vs.map .ok

/-- Every item reads as the conversion of the item of `raw` at the same place. -/
def ReadsAs (cfg : Cfg) (c : Val → Res Val) (raw : List Val) (s : Arr) : Prop :=
  s.data.length = raw.length ∧ ∀ i, (getitem cfg i s).1 = read c raw i

open Verif.Obj (Obj Cls)

/-- A class without computed properties, aliases, translated names, dependencies or lazy loading. -/
structure Plain (c : Cls) : Prop where
  deps : c.deps = []
  getter : ∀ k, c.getter k = none
  reads : ∀ v, c.reads v = []
  aliases : c.aliases = []
  negated : c.negated = []
  translation : c.translation = []
  lazy : c.lazy = false

/-- The object holds the entries `m`, all converted. -/
structure Holds (c : Cls) (m : AList Str Val) (s : Obj) : Prop where
  wf : m.WF
  known : ∀ k, k ∈ m.keys → k ∈ c.props ∨ c.additional = true
  values : s.validated = m
  keys : ∀ k, k ∈ s.data.keys ↔ k ∈ m.keys
  nones : ∀ k, m.get? k = some .none → s.data.get? k = some .none
  inputs : ∀ k, (s.inputs.get? k).getD [] = []

/-- The inputs of every item are recorded, which is so after creation. -/
def Recorded (s : Obj) : Prop := ∀ k, k ∈ s.validated.keys → k ∈ s.inputs.keys

/-- What the values of an item that is given become: `g k v` for a value `v`, which is not None when `v` is not. -/
structure Converts (c : Cls) (g : Str → Val → Val) (data : AList Str Val) : Prop where
  conv : ∀ k v ρ, data.get? k = some v → v ≠ .none → c.conv k v ρ = .ok (g k v) ∧ g k v ≠ .none
  nones : ∀ k, g k .none = .none
  known : ∀ k, k ∈ data.keys → k ∈ c.props ∨ c.additional = true

end Verif.Mixins.Spec
