import Verif.Model.Blocks
/-
Specification for C24, C25.
-/
namespace Verif.Blocks

/-- The program changes directory only through `working_directory`, and removes none. -/
def Tidy : Prog → Prop
  | .chdir _ => False
  | .rmdir _ => False
  | .seq a b => Tidy a ∧ Tidy b
  | .attempt a b => Tidy a ∧ Tidy b
  | .withDir _ b => Tidy b
  | .withCast _ b => Tidy b
  | _ => True

end Verif.Blocks
