import Verif.Model.Topo
/-
Specification for C12-C14.
-/
namespace Verif.Topo
variable {α : Type}

/-- `x` depends on `y` according to the dictionary (self-dependencies are ignored). -/
def Dep (data : AList α (List α)) (x y : α) : Prop := ∃ ds, (x, ds) ∈ data ∧ y ∈ ds ∧ y ≠ x

/-- An item: a key of the dictionary or something a key depends on. -/
def Item (data : AList α (List α)) (x : α) : Prop := (∃ ds, (x, ds) ∈ data) ∨ ∃ z, Dep data z x

/-- Some item depends on itself through a chain of other items. -/
def Cyclic (data : AList α (List α)) : Prop := ∃ x, Relation.TransGen (Dep data) x x

/-- `x` is in the `i`-th layer. -/
def InLayer (ls : List (List α)) (i : Nat) (x : α) : Prop := ∃ l, ls[i]? = some l ∧ x ∈ l

end Verif.Topo
