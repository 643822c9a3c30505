import Verif.Model.Strings
/-
Specification for C26-C30.
-/
namespace Verif.Strings

/-- `old` occurs somewhere in `s`. -/
def Occurs (old s : Str) : Prop := ∃ a b, s = a ++ old ++ b

/-- `s` is cut at the last occurrence of `old`: nothing later starts an occurrence. -/
def LastCut (old s a b : Str) : Prop := s = a ++ old ++ b ∧ ¬ Occurs old (old.tail ++ b)

/-- Pieces and delimiters put back together. -/
def interleave : List Str → List Char → Str
  | [], _ => []
  | [w], _ => w
  | w :: ws, [] => w ++ interleave ws []
  | w :: ws, d :: ds => w ++ d :: interleave ws ds

/-- Simultaneous replacement: from left to right, at each position the first key of the table that
occurs there is replaced, or else the character is kept; replaced text is not looked at again. -/
inductive Replaced (table : AList Str Str) : Str → Str → Prop
  | nil : Replaced table [] []
  | keep {c s t} (h : ∀ kv ∈ table, ¬ kv.1 <+: c :: s) (r : Replaced table s t) :
      Replaced table (c :: s) (c :: t)
  | hit {before k v after s t} (e : table = before ++ (k, v) :: after)
      (h : ∀ kv ∈ before, ¬ kv.1 <+: k ++ s) (r : Replaced table s t) :
      Replaced table (k ++ s) (v ++ t)

end Verif.Strings
