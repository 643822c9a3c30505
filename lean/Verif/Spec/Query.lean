import Verif.Spec.Doc
import Verif.Model.Query
/-
Specification for C43-C55, C99, C100.
-/
namespace Verif.Query
open Doc (Key Follow)

/-- The elements of a list at the marked positions. -/
def pick {α : Type} : List Bool → List α → List α
  | m :: ms, x :: xs => if m then x :: pick ms xs else pick ms xs
  | _, _ => []

/-- The object has an attribute at the path, with a value other than None. -/
def Has (obj : Val) (path : List Str) (v : Val) : Prop := Follow obj (path.map Key.name) v ∧ v ≠ .none

/-- The names of operators: comparison, membership, and tests of texts. -/
def operatorNames : List Str :=
  ["eq".toList, "ne".toList, "neq".toList, "lt".toList, "le".toList, "gt".toList, "ge".toList, "not".toList,
   "in".toList, "contains".toList, "intersects".toList, "size".toList,
   "ieq".toList, "icontains".toList, "startswith".toList, "istartswith".toList, "endswith".toList, "iendswith".toList,
   "regex".toList]

/-- What a criterion asks of an object: the attribute exists and the operators, one after the other
(`eq` when there is none), give a true value; with `not`, a false value. -/
def Satisfies (rx : Rx) (obj : Val) (c : Crit) : Prop :=
  ∃ v, Has obj c.path v ∧ ∃ r, foldOps rx (if c.ops = [] then ["eq".toList] else c.ops) v c.value = .ok r ∧
    r.truthy = !c.neg

/-- No value on the way to the attribute is empty, zero or False: the path can be followed. -/
def Solid (obj : Val) (path : List Str) : Prop :=
  ∀ pre suf w, path = pre ++ suf → pre ≠ [] → suf ≠ [] → Follow obj (pre.map Key.name) w →
    w.truthy = false → w = .none

/-- The criterion addresses a value that is not a mapping (or has no operator). -/
def Flat (obj : Val) (c : Crit) : Prop := c.ops = [] ∨ ∀ d, ¬ Follow obj (c.path.map Key.name) (.dict d)

/-- Criteria and attributes that the filter evaluates on the object as documented. -/
def Plain (f : Filter) (obj : Val) : Prop :=
  (∀ c ∈ f.crits, c.path ≠ [] ∧ Solid obj c.path ∧ Flat obj c) ∧
  (∀ ks ∈ f.attrs, ks ≠ [] ∧ Solid obj ks)

/-- All criteria are satisfied and all attributes exist. -/
def MatchesAll (rx : Rx) (f : Filter) (obj : Val) : Prop :=
  (∀ c ∈ f.crits, Satisfies rx obj c) ∧ (∀ ks ∈ f.attrs, ∃ v, Has obj ks v)

/-- Some criterion is satisfied or some attribute exists. -/
def MatchesAny (rx : Rx) (f : Filter) (obj : Val) : Prop :=
  (∃ c ∈ f.crits, Satisfies rx obj c) ∨ (∃ ks ∈ f.attrs, ∃ v, Has obj ks v)

/-- A query that has been read and whose result is the list `l`. -/
def HasResult (w : World) (i : Nat) (l : List Val) : Prop :=
  ∃ q r, w.qs[i]? = some q ∧ q.cache = some (.lst r) ∧ w.lists[r]? = some l

/-- Characters without a special meaning in a regular expression. -/
def Literal (s : Str) : Prop := ∀ c ∈ s, c ∉ ".^$*+?{}[]\\|()\n".toList

/-- What is assumed of `re` with IGNORECASE on patterns without special characters, where `fold` is the
case folding of characters: `^b$` and `b$` anchored at the start match the whole text (up to a final
newline), `^b` its beginning, and a search finds `b` anywhere. -/
structure RxLiteral (rx : Rx) (fold : Char → Char) : Prop where
  whole : ∀ b a, Literal b → rx.run true true (['^'] ++ b ++ ['$']) a =
    .ok (decide (a.map fold = b.map fold ∨ a.map fold = b.map fold ++ ['\n']))
  start : ∀ b a, Literal b → rx.run true true (['^'] ++ b) a = .ok (decide (b.map fold <+: a.map fold))
  tail : ∀ b a, Literal b → rx.run true true (b ++ ['$']) a =
    .ok (decide (a.map fold = b.map fold ∨ a.map fold = b.map fold ++ ['\n']))
  search : ∀ b a, Literal b → rx.run false true b a = .ok (decide (b.map fold <:+: a.map fold))

/-- The same object for a set: equal. -/
def same (x y : Val) : Bool := x == y || pyEq x y

/-- The first occurrence of each object, in order. -/
def firsts : List Val → List Val
  | [] => []
  | x :: l => x :: (firsts l).filter (fun y => !same y x)

/-- The query exists and its results are not ordered, nor read backwards. -/
def Unordered (w : World) (i : Nat) : Prop := ∃ q, w.qs[i]? = some q ∧ q.orderBy = false ∧ q.reverse = false

/-- Filters applied one after the other to a stream of objects; a `distinct` stays in force. -/
def composeAll (rx : Rx) : Bool → Stream → List (Filter × Bool) → Stream
  | _, s, [] => s
  | d, s, (f, b) :: fs => composeAll rx (b || d) (filterOrExclude rx (b || d) f s) fs

/-- The query obtained from `i` by refining it again and again, in the world where that was done. -/
def chain : World → Nat → List (Filter × Bool) → Option (Nat × World)
  | w, i, [] => some (i, w)
  | w, i, (f, b) :: fs => match w.refine i f b with
    | none => none
    | some (k, w) => chain w k fs

end Verif.Query
