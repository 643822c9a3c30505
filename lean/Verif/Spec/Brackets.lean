import Verif.Model.Brackets
/-
Specification for C16, C17, C83.
-/
namespace Verif.Brackets

/-- The four bracket kinds. -/
def Kind (o c : Char) : Prop :=
  (o = '(' ∧ c = ')') ∨ (o = '[' ∧ c = ']') ∨ (o = '{' ∧ c = '}') ∨ (o = '<' ∧ c = '>')

/-- Balanced texts: sequences of other characters and of bracketed balanced texts. -/
inductive Balanced (o c : Char) : List Char → Prop
  | nil : Balanced o c []
  | other {x s} (ho : x ≠ o) (hc : x ≠ c) (h : Balanced o c s) : Balanced o c (x :: s)
  | wrap {s t} (hs : Balanced o c s) (ht : Balanced o c t) : Balanced o c (o :: s ++ c :: t)

/-- The text strictly between positions `a` and `b`. -/
def between (text : List Char) (a b : Nat) : List Char := (text.take b).drop (a + 1)

/-- The positions of a character in a text, in increasing order. -/
def positions (x : Char) (text : List Char) : List Nat :=
  (List.range text.length).filter (fun i => text[i]? = some x)

/-- More closing than opening brackets. -/
def Overclosed (o c : Char) (s : List Char) : Prop := s.count o < s.count c

end Verif.Brackets
