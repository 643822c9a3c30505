import Verif.Model.Relations
/-
Specification for C253-C257.
-/
namespace Verif.Relations

/-- A text occurs in another. -/
def Occurs (a s : Str) : Prop := ∃ x y, s = x ++ a ++ y

/-- The text up to the first occurrence. -/
def UpTo (a s own : Str) : Prop := (∃ y, s = own ++ a ++ y) ∧ ∀ x y, s = x ++ a ++ y → own.length ≤ x.length

/-- Whether a relationship with this cardinality leads to many objects, for the two values the schema of relationships
allows. -/
inductive ToMany : Str → Bool → Prop
  | one : ToMany "one2one".toList false
  | many : ToMany "one2many".toList true

/-- Building several relationships one after the other, whatever comes of each. -/
def runs (load : Str → Res Cls) (rep : Str × Str → Str) : List (Str × Schema) → State → State
  | [], st => st
  | (id, s) :: bs, st => runs load rep bs (build load rep id s st).1

/-- Every entry leads to a class that is a stand-in. -/
def Proxies (load : Str → Res Cls) (id : Str) (bps : List (Str × Str)) : Prop :=
  ∀ bp ∈ bps, load (Uri.scope bp.2 id) = .ok .proxy

end Verif.Relations
