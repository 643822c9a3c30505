import Verif.Model.Storing
/-
What C219-C229 say, without the functions of the model.
-/
namespace Verif.Storing.Spec

/-- The results of a function on all members of a list, if none fails. -/
inductive AllSaved (ser : Val → Res Val) : List Val → List (List Val) → Prop
  | nil : AllSaved ser [] []
  | cons (v : Val) (l : List Val) (vs : List Val) (ls : List (List Val)) (h : ser v = .ok (.list l))
      (hs : AllSaved ser vs ls) : AllSaved ser (v :: vs) (l :: ls)

/-- The data name a class by a text that is not empty. -/
def Names (d : AList Str Val) (s : Str) : Prop := AList.get? d "$schema".toList = some (.str s) ∧ s ≠ []

end Verif.Storing.Spec
