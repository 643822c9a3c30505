import Verif.Model.Setters
/-
What C318-C320 say about setters and deleters.
-/
namespace Verif.Setters.Spec
variable {ε ι : Type}

/-- The values that a setter should be told: every value that is assigned, as it is converted. -/
def due (conv : Val → Res Val) : List (Op ε) → List Val
  | [] => []
  | .assign v :: ops => match conv v with
    | .ok w => w :: due conv ops
    | .error _ => due conv ops
  | _ :: ops => due conv ops

/-- What the property depends on stays as it is. -/
def Fixed (ops : List (Op ε)) : Prop := ∀ o ∈ ops, ∀ e, o ≠ .change e

/-- Nothing is to be evaluated: there is a value, or none was given, made from the present inputs. -/
def Settled (p : Prp ε ι) (e : ε) (s : Slot ι) : Prop :=
  (s.validated = .none → s.data = .none) ∧ s.recorded = p.inputs e s.data

/-- Converting does not change the inputs, unless by replacing a template, and a template does not stand for None. -/
structure Regular (p : Prp ε ι) : Prop where
  inputs : ∀ e v w, p.conv e v = .ok w → (p.prim && p.tpl v) = false → p.inputs e w = p.inputs e v
  value : ∀ e v w, p.conv e v = .ok w → (p.prim && p.tpl v) = true → w ≠ .none

end Verif.Setters.Spec
