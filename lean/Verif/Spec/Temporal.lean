import Verif.Model.Temporal
/-
What the properties C167-C172 say, without the functions of the model.
-/
namespace Verif.Temporal.Spec

/-- Written, then read, the value is the same. -/
def Survives (ser conv : TVal → Res TVal) (v : TVal) : Prop := ∃ w, ser v = .ok w ∧ conv w = .ok v

/-- Texts without a backtick and without braces are not evaluated. -/
def Plain (conv : Str → Str) : Prop := ∀ s : Str, (∀ c ∈ s, c ≠ '`' ∧ c ≠ '{') → conv s = s

/-- The offset of a zone is less than a day. -/
def Zone (z : Int) : Prop := -1440 < z ∧ z < 1440

/-- A text that names a date or a time must have a digit. -/
def NoDigit (s : Str) : Prop := ∀ c ∈ s, c.isDigit = false

/-- The words for the present. -/
def Present (s : Str) : Prop := s = "now".toList ∨ s = "today".toList

/-- A day of the calendar. -/
def Calendar (d : Date) : Prop :=
  1 ≤ d.y ∧ d.y ≤ 9999 ∧ 1 ≤ d.m ∧ d.m ≤ 12 ∧ 1 ≤ d.d
    ∧ (d.d ≤ 28 ∨ (d.d = 29 ∧ (d.m ≠ 2 ∨ (4 ∣ d.y ∧ (¬ 100 ∣ d.y ∨ 400 ∣ d.y)))) ∨ (d.d = 30 ∧ d.m ≠ 2)
      ∨ (d.d = 31 ∧ d.m ∈ [1, 3, 5, 7, 8, 10, 12]))

/-- A time of the day. -/
def OfDay (c : Clock) : Prop := c.h < 24 ∧ c.mi < 60 ∧ c.s < 60 ∧ c.us < 1000000

end Verif.Temporal.Spec
