import Verif.Model.Belonging
/-
The session that objects and arrays should belong to: the one they are given, else the one of the collection they are in.
-/
namespace Verif.Belonging.Spec

/-- The sessions of all objects after an operation. -/
def step (ss : List (Option Nat)) : Op → List (Option Nat)
  | .make _ none session => ss ++ [session]
  | .make _ (some p) session => match ss[p]? with
    | none => ss
    | some t => ss ++ [session <|> t]
  | .insert a o => match ss[a]? with
    | none => ss
    | some t => ss.set o t

def sessions (ops : List Op) : List (Option Nat) := ops.foldl step []

/-- No array is given a session, and no session without entries is given. -/
def Plain (truth : Nat → Bool) : Op → Prop
  | .make arr _ (some s) => arr = false ∧ truth s = true
  | _ => True

end Verif.Belonging.Spec
