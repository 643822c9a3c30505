import Verif.Model.Show
/-
How a call is written in Python. Of the model only the types of arguments are used.
-/
namespace Verif.Show.Spec

/-- Texts in a row. -/
def row : List Str → Str
  | [] => []
  | [t] => t
  | t :: u :: ts => t ++ ", ".toList ++ row (u :: ts)

mutual
/-- How an argument is written. -/
inductive Reads : Arg → Str → Prop
  | plain (t) : Reads (.plain (.ok t)) t
  | one {a t} : Reads a t → Reads (.tuple [a]) ("(".toList ++ t ++ ",)".toList)
  | tuple {l ts} : l.length ≠ 1 → ReadAll l ts → Reads (.tuple l) ("(".toList ++ row ts ++ ")".toList)
inductive ReadAll : List Arg → List Str → Prop
  | nil : ReadAll [] []
  | cons {a t l ts} : Reads a t → ReadAll l ts → ReadAll (a :: l) (t :: ts)
end

/-- How arguments given by name are written. -/
inductive Keyed : List (Str × Arg) → List Str → Prop
  | nil : Keyed [] []
  | cons {k a t l ts} : Reads a t → Keyed l ts → Keyed ((k, a) :: l) ((k ++ "=".toList ++ t) :: ts)

/-- How a call is written. -/
inductive Written (name : Str) (args : List Arg) (kwargs : List (Str × Arg)) : Str → Prop
  | mk {ts ks} : ReadAll args ts → Keyed kwargs ks → Written name args kwargs (name ++ "(".toList ++ row (ts ++ ks) ++ ")".toList)

end Verif.Show.Spec
