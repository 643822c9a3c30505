import Verif.Model.Qualnames
/-
The names of definitions (C343).
-/
namespace Verif.Qualnames

/-- The path of the definition at a line in a tree, as Python's `__qualname__` has it; `coros` says whether coroutines
(`async def`) count. -/
inductive At (coros : Bool) : Ast → List Str → Nat → Prop
  | func {n l b} : At coros (.func n l b) [n] l
  | inFunc {n l b a p l'} : a ∈ b → At coros a p l' → At coros (.func n l b) (n :: "<locals>".toList :: p) l'
  | cls {n l b} : At coros (.cls n l b) [n] l
  | inCls {n l b a p l'} : a ∈ b → At coros a p l' → At coros (.cls n l b) (n :: p) l'
  | coro {n l b} : coros = true → At coros (.coro n l b) [n] l
  | inCoro {n l b a p l'} : coros = true → a ∈ b → At coros a p l' →
      At coros (.coro n l b) (n :: "<locals>".toList :: p) l'
  | pastCoro {n l b a p l'} : coros = false → a ∈ b → At coros a p l' → At coros (.coro n l b) p l'
  | inOther {b a p l'} : a ∈ b → At coros a p l' → At coros (.other b) p l'

/-- The path as a text. -/
def dotted (p : List Str) : Str := joinWith ".".toList p

/-- Line `i` of the source, counted from 1, has a given text. -/
def LineIs (lines : List Str) (i : Nat) (s : Str) : Prop := lines[i - 1]? = some s

/-- The text of a decorator line: an `@` after blanks. -/
def Decorates (s : Str) : Prop := ∃ b r, s = b ++ '@' :: r ∧ ∀ c ∈ b, isSpace c = true

/-- Line `m` is line `i` or follows it after decorator lines only. -/
def Covers (lines : List Str) (i m : Nat) : Prop :=
  i ≤ m ∧ ∀ x, i ≤ x → x < m → ∃ s, LineIs lines x s ∧ Decorates s

/-- The decorator lines from `i` on come to an end. -/
def Ends (lines : List Str) (i : Nat) : Prop := ∃ m s, Covers lines i m ∧ LineIs lines m s ∧ ¬ Decorates s

end Verif.Qualnames
