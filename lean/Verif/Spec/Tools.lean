import Verif.Model.Tools
import Verif.Spec.Strings
import Verif.Spec.ChainMap
/-
Specification for C258-C265.
-/
namespace Verif.Tools

/-- A hash reads a stream: in how many pieces it is given does not matter. -/
structure Hash.Stream {σ β : Type} (h : Hash σ β) : Prop where
  nil : ∀ s, h.update s [] = s
  append : ∀ s a b, h.update (h.update s a) b = h.update s (a ++ b)

/-- The first element of a list with a property. -/
def FirstOf {α : Type} (p : α → Prop) (l : List α) (x : α) : Prop :=
  ∃ pre post, l = pre ++ x :: post ∧ p x ∧ ∀ y ∈ pre, ¬ p y

/-- A strict total order. -/
structure StrictTotal (lt : Str → Str → Bool) : Prop where
  irrefl : ∀ a, lt a a = false
  trans : ∀ a b c, lt a b = true → lt b c = true → lt a c = true
  total : ∀ a b, a ≠ b → lt a b = true ∨ lt b a = true

/-- The attribute `k` as seen along some classes: that of the first one having it. -/
inductive Attr (w : World) (k : Str) : List Nat → Option Nat → Prop
  | nil : Attr w k [] none
  | here {c cs v} (h : AList.get? (w.dict c) k = some v) : Attr w k (c :: cs) (some v)
  | there {c cs r} (h : AList.get? (w.dict c) k = none) (t : Attr w k cs r) : Attr w k (c :: cs) r

/-- `s` is cut at the first occurrence of `sep`: nothing earlier starts an occurrence. -/
def FirstCut (sep s a b : Str) : Prop := s = a ++ sep ++ b ∧ ¬ Strings.Occurs sep (a ++ sep.dropLast)

/-- The pieces after at most `n` cuts from the left. -/
inductive FromLeft (sep : Str) : Nat → Str → List Str → Prop
  | done {s} : FromLeft sep 0 s [s]
  | absent {n s} (h : ¬ Strings.Occurs sep s) : FromLeft sep (n + 1) s [s]
  | cut {n s a b ps} (h : FirstCut sep s a b) (t : FromLeft sep n b ps) : FromLeft sep (n + 1) s (a :: ps)

/-- The pieces after at most `n` cuts from the right. -/
inductive FromRight (sep : Str) : Nat → Str → List Str → Prop
  | done {s} : FromRight sep 0 s [s]
  | absent {n s} (h : ¬ Strings.Occurs sep s) : FromRight sep (n + 1) s [s]
  | cut {n s a b ps} (h : Strings.LastCut sep s a b) (t : FromRight sep n a ps) : FromRight sep (n + 1) s (ps ++ [b])

end Verif.Tools
