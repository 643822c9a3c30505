import Verif.Spec.Temporal
/-
How dates and times are written with digits.
-/
namespace Verif.Temporal.Spec

/-- A decimal digit of a number. -/
def place (n p : Nat) : Char := Char.ofNat (48 + n / 10 ^ p % 10)

def two (n : Nat) : Str := [place n 1, place n 0]
def four (n : Nat) : Str := [place n 3, place n 2, place n 1, place n 0]

/-- The signs between the parts of a date. -/
def Sign (c : Char) : Prop := c = '-' ∨ c = '/' ∨ c = '.'

/-- The ways to write a date: from the year to the day, from the day to the year; and, for the first of a month, without
the day. -/
inductive Writes : Str → Date → Prop
  | ymd (y m d c) : Sign c → Writes (four y ++ [c] ++ two m ++ [c] ++ two d) ⟨y, m, d⟩
  | dmy (y m d c) : Sign c → Writes (two d ++ [c] ++ two m ++ [c] ++ four y) ⟨y, m, d⟩
  | ym (y m c) : Sign c → Writes (four y ++ [c] ++ two m) ⟨y, m, 1⟩
  | my (y m c) : Sign c → Writes (two m ++ [c] ++ four y) ⟨y, m, 1⟩

/-- Hours, minutes and seconds. -/
def clockText (h m s : Nat) : Str := two h ++ ":".toList ++ two m ++ ":".toList ++ two s

end Verif.Temporal.Spec
