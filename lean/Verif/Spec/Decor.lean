import Verif.Model.Decor
/-
Specification for C31, C32, C85-C87.
-/
namespace Verif.Decor

/-- Results of `f` on each call, when all succeed. -/
def Results {α ρ : Type} (f : List (Arg α) → Res ρ) (calls : List (List (Arg α))) (rs : List ρ) : Prop :=
  calls.map f = rs.map Except.ok

/-- How many times the getter has to run over a history: once per run of reads not separated by a
reset (`fresh` tells whether a value is held at the start). -/
def runsOfReads {σ : Type} : Bool → List (MemoOp σ) → Nat
  | _, [] => 0
  | true, .read :: ops => runsOfReads true ops
  | false, .read :: ops => 1 + runsOfReads true ops
  | _, .reset :: ops => runsOfReads false ops
  | b, .change _ :: ops => runsOfReads b ops

/-- No reset in a history. -/
def NoReset {σ : Type} (ops : List (MemoOp σ)) : Prop := ∀ op ∈ ops, op ≠ .reset

/-- Where the declared argument is found among the positional arguments: `self` is not passed to a
bound method's wrapper. -/
def position (bound : Bool) (i : Nat) : Nat := if bound then i - 1 else i

end Verif.Decor
