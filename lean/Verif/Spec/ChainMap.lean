import Verif.Model.ChainMap
/-
C01-C05: chained mappings and contexts.
-/
set_option linter.unusedSectionVars false

namespace Verif.ChainMap
variable {κ υ : Type} [DecidableEq κ]

/-! ### Specification -/

/-- `k` is a key of some plain dictionary inside the chain. -/
inductive HasKey : Chain κ υ → κ → Prop
  | dict {d k v} (h : (k, v) ∈ d) : HasKey (.dict d) k
  | chain {ms m k} (hm : m ∈ ms) (h : HasKey m k) : HasKey (.chain ms) k

/-- `k` is bound to `v`: the first map (left to right, recursively) that has `k` gives it `v`. -/
inductive Binds : Chain κ υ → κ → υ → Prop
  | dict {d k v} (h : (k, v) ∈ d) : Binds (.dict d) k v
  | chain {pre m post k v} (habs : ∀ m' ∈ pre, ¬ HasKey m' k) (h : Binds m k v) :
      Binds (.chain (pre ++ m :: post)) k v

/-- All dictionaries in the chain are dictionaries: no key twice. -/
inductive Chain.WF : Chain κ υ → Prop
  | dict {d : AList κ υ} (h : d.keys.Nodup) : Chain.WF (.dict d)
  | chain {ms : List (Chain κ υ)} (h : ∀ m ∈ ms, Chain.WF m) : Chain.WF (.chain ms)

end Verif.ChainMap
