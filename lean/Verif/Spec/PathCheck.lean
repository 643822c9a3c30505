import Verif.Model.PathCheck
/-
What schemas with checks of paths mean, as JSON Schema defines the combinations.
-/
namespace Verif.PathCheck.Spec

/-- What is at a path meets a keyword. -/
inductive Is : Chk → Kind → Prop
  | dir : Is .isPathDir .dir
  | file : Is .isPathFile .file
  | existsFile : Is .isPathExisting .file
  | existsDir : Is .isPathExisting .dir
  | existsSpecial : Is .isPathExisting .special

mutual
/-- The path meets the schema. -/
def Meets (k : Kind) : S → Prop
  | .const b => b = true
  | .check c p => Is c k ↔ p = true
  | .both s t => Meets k s ∧ Meets k t
  | .allOf l => All k l
  | .anyOf l => Any k l
  | .oneOf l => One k l
  | .not_ s => ¬ Meets k s
  | .cond c t e => (Meets k c → Meets k t) ∧ (¬ Meets k c → Meets k e)
def All (k : Kind) : List S → Prop
  | [] => True
  | s :: l => Meets k s ∧ All k l
def Any (k : Kind) : List S → Prop
  | [] => False
  | s :: l => Meets k s ∨ Any k l
def One (k : Kind) : List S → Prop
  | [] => False
  | s :: l => (Meets k s ∧ ¬ Any k l) ∨ (¬ Meets k s ∧ One k l)
end

/-- Checks of paths are used in conjunctions only: not in `anyOf`, `oneOf`, `not` or `if`. -/
inductive Conj : S → Prop
  | const (b : Bool) : Conj (.const b)
  | check (c : Chk) (p : Bool) : Conj (.check c p)
  | both (s t : S) (hs : Conj s) (ht : Conj t) : Conj (.both s t)
  | allOf (l : List S) (h : ∀ s, s ∈ l → Conj s) : Conj (.allOf l)

mutual
/-- No keyword on paths is used. -/
def Plain : S → Prop
  | .const _ => True
  | .check _ _ => False
  | .both s t => Plain s ∧ Plain t
  | .allOf l => Plains l
  | .anyOf l => Plains l
  | .oneOf l => Plains l
  | .not_ s => Plain s
  | .cond c t e => Plain c ∧ Plain t ∧ Plain e
def Plains : List S → Prop
  | [] => True
  | s :: l => Plain s ∧ Plains l
end

end Verif.PathCheck.Spec
