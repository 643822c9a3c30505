import Verif.Model.Mro
/-
Specification for C09-C11.
-/
namespace Verif.Mro
variable {α : Type}

/-- `L` is a consistent linearisation: no class twice, every base's own linearisation and the list
of bases itself occur in `L` in the same relative order (`<+` is "is a subsequence of"). -/
def Consistent (lin : α → List α) (bases L : List α) : Prop :=
  L.Nodup ∧ (∀ b ∈ bases, (lin b).Sublist L) ∧ bases.Sublist L

end Verif.Mro
