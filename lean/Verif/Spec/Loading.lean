import Verif.Val
/-
What C205-C213 say, without the model.
-/
namespace Verif.Loading.Spec

/-- The elements of a list, each where it first occurs. -/
def firsts : List Str → List Str
  | [] => []
  | x :: l => x :: (firsts l).filter (· ≠ x)

/-- The last value that a list gives for a key. -/
def lastFor (k : Str) : List (Str × Val) → Option Val
  | [] => none
  | (k', v) :: l => match lastFor k l with
    | some w => some w
    | none => if k' = k then some v else none

/-- `t` tenths are nearest to `num / den`. -/
def Nearest (t num den : Nat) : Prop := 20 * num ≤ 2 * t * den + den ∧ 2 * t * den ≤ 20 * num + den

/-- A text without the `#` at its end. -/
def Bare (i u : Str) : Prop := (∃ n, i = u ++ List.replicate n '#') ∧ u.getLast? ≠ some '#'

end Verif.Loading.Spec
