import Verif.Model.Labels
/-
When names and texts ought to be up to date (C342).
-/
namespace Verif.Labels

/-- A name in a canonical name. -/
def word : Option Str → Str
  | none => "None".toList
  | some s => s

/-- The canonical name by the present names: the outermost name first, with dots; the name itself, if there is one, of
an instance with none above. -/
def present (w : World) (i : Nat) : Option Str :=
  match (w.drop i).map Inst.name with
  | [] => none
  | [n] => n
  | ns => some (joinWith ['.'] (ns.reverse.map word))

/-- The text with this canonical name and these texts of the required properties. -/
def written (q : Str) (c : Option Str) (parts : List Str) : Str :=
  "<".toList ++ q ++ " ".toList ++
    joinWith " ".toList (if c = none ∨ c = some [] then parts else word c :: parts) ++ ">".toList

/-- A new instance: nothing is remembered. -/
def New (x : Inst) : Prop := x.str = none ∧ x.data = none ∧ x.validated = none ∧ x.input = none

/-- The operation does not rename an instance above `i`. -/
def KeepsAbove (i : Nat) : Op → Prop
  | .rename j _ => j ≤ i
  | _ => True

/-- The operation is on another instance than `i`. -/
def Elsewhere (i : Nat) : Op → Prop
  | .rename j _ => j ≠ i
  | .read j => j ≠ i
  | .text j => j ≠ i

end Verif.Labels
