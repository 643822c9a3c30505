import Verif.Model.Counter
/-
Specification for C23.
-/
namespace Verif.Counter

/-- The `n` consecutive integers from `a`. -/
def consecutive (a : Int) (n : Nat) : List Int := (List.range n).map (fun (i : Nat) => a + i)

/-- No thread is inside a call. -/
def Quiet (s : State) : Prop := ∀ pc ∈ s.threads, pc = .idle

end Verif.Counter
