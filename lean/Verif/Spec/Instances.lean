import Verif.Model.Instances
/-
What evaluating instances should do.
-/
namespace Verif.Instances.Spec

/-- Converting and evaluating items gives instances of the class. -/
def Makes {α : Type} (c : Cls α) : Prop :=
  (∀ v w, c.convert v = .ok w → c.isInst w = true) ∧ ∀ b v w, c.isInst v = true → c.items b v = .ok w → c.isInst w = true

/-- The same default is declared in the schema and set on the class, or none is declared and the class has an empty one. -/
def Agree {δ : Type} (truthy : δ → Bool) (own : δ) (declared : Option δ) : Prop :=
  declared = some own ∨ declared = none ∧ truthy own = false

end Verif.Instances.Spec
