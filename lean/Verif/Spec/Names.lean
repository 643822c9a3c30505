import Verif.Spec.ChainMap
import Verif.Model.Names
/-
Specification for C33, C34, C38-C42, C88-C93.
-/
namespace Verif.Names
open ChainMap (Chain Binds)

/-- ASCII letters and digits, `_` and `.`. -/
def IdentChar (c : Char) : Prop :=
  ('a' ≤ c ∧ c ≤ 'z') ∨ ('A' ≤ c ∧ c ≤ 'Z') ∨ ('0' ≤ c ∧ c ≤ '9') ∨ c = '_' ∨ c = '.'

/-- A name that needs no cleaning: identifier characters, no dot, not empty. -/
def CleanName (s : Str) : Prop := s ≠ [] ∧ ∀ c ∈ s, IdentChar c ∧ c ≠ '.'

/-- `c` is `name` or `name` continues `c` after a dot. -/
def DottedPrefix (c name : Str) : Prop := name = c ∨ ∃ rest, name = c ++ '.' :: rest

/-- Text of a fragment from its segments: each segment after a slash. -/
def fragmentText (segments : List Str) : Str := segments.flatMap (fun s => '/' :: s)

/-- Alternating keyword and name segments. -/
def alternate (pairs : List (Str × Str)) : List Str := pairs.flatMap (fun p => [p.1, p.2])

/-- The URI and the explicit name of each `register_ns` call, in order. -/
abbrev Calls := List (Str × Option Str)

/-- The name a call registers: the explicit name when given and not empty, otherwise the name derived
from the URI without its fragment. -/
def callName (cnameOf : Str → Str) (call : Str × Option Str) : Str :=
  match call.2 with
  | none => cnameOf (call.1.takeWhile (· ≠ '#'))
  | some c => if c = [] then cnameOf (call.1.takeWhile (· ≠ '#')) else c

end Verif.Names
