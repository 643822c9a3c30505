import Verif.Model.ClassProps
/-
What C329 and C330 say of class properties.
-/
namespace Verif.ClassProps.Spec

/-- A class has a class property under a name: a class of its order does, and those before have nothing under it. -/
def Declared {σ : Type} (p : Prog σ) (s : St σ) (c : Cls) (name : Str) (i : Nat) : Prop :=
  ∃ before d after, p.mro c = before ++ d :: after ∧ AList.get? (s.attrs d) name = some (.prop i)
    ∧ ∀ b ∈ before, AList.get? (s.attrs b) name = none

end Verif.ClassProps.Spec
