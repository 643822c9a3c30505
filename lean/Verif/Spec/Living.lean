import Verif.Model.Living
/-
What the numbers of sessions should be good for.
-/
namespace Verif.Living.Spec

/-- The session with the number is collected at some time. -/
def Collected {σ : Type} (n : Nat) (l : List (Step σ)) : Prop := ∃ e ∈ l, e = .collect n

end Verif.Living.Spec
