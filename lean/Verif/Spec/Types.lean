import Verif.Model.Types
/-
Specification for C56-C65, C102.
-/
namespace Verif.Types
open Query (pyEq)

/-- What reads as a Boolean. -/
inductive ReadsAs (lower : Str → Str) (trues falses : List Str) : Val → Bool → Prop where
  | bool (b : Bool) : ReadsAs lower trues falses (.bool b) b
  | yes (s : Str) : lower s ∈ trues → ReadsAs lower trues falses (.str s) true
  | no (s : Str) : lower s ∈ falses → lower s ∉ trues → ReadsAs lower trues falses (.str s) false
  | one : ReadsAs lower trues falses (.int 1) true
  | zero : ReadsAs lower trues falses (.int 0) false

/-- A member of an enumeration, up to Python equality. -/
def Member (v : Val) (enum : List Val) : Prop := ∃ m ∈ enum, v = m ∨ pyEq v m = true

/-- The item of a collection at a key. -/
inductive Item : Val → Key → Val → Prop where
  | prop {d : List (Str × Val)} {k : Str} {v : Val} : AList.get? d k = some v → Item (.dict d) (.name k) v
  | elem {l : List Val} {i : Nat} {v : Val} : l[i]? = some v → Item (.list l) (.idx i) v

/-- Keys of the right kind for a value. -/
def Fits : Val → Key → Prop
  | .none, _ | .dict _, .name _ | .list _, .idx _ => True
  | _, _ => False

/-- The keys an object declaration knows without additional properties. -/
def Known (o : ObjDecl) (k : Str) : Prop := k ∈ o.props.map Prod.fst ∨ o.pattern k = true ∨ o.additional = true

/-- Reordering without loss, as iterating over a set does. -/
def Reorders (ord : List Str → List Str) : Prop := ∀ l, List.Perm (ord l) l

/-- What the options say of a property that is not required: not excluded (`ex` is the list of excluded names;
read-only properties are excluded too when asked), selected if there is a selection, and not None when
defaults are left out. -/
structure Wanted (ex : List Str) (o : ObjDecl) (p : PrintOpts) (value : List (Str × Val)) (k : Str) : Prop where
  notExcluded : k ∉ ex
  writable : p.noReadOnly = true → k ∉ o.readOnly
  selected : p.only ≠ [] → k ∈ p.only
  notNone : p.noDefaults = true → AList.get? value k ≠ some .none

/-- The property is declared with a (truthy) default, and the value has that default there; under a name of `ns`, an
alias for the opposite, the value has the opposite of the default. -/
def HasItsDefault (o : ObjDecl) (ns : List Str) (value : List (Str × Val)) (k : Str) : Prop :=
  ∃ d v, AList.get? o.props k = some d ∧ d.truthy = true ∧ AList.get? value k = some v ∧
    if k ∈ ns then ∃ n : Int, (v = .int n ∨ (v = .bool true ∧ n = 1) ∨ (v = .bool false ∧ n = 0)) ∧
      pyEq (.int (-n)) d = true
    else pyEq v d = true

/-- Under the names of `ns` that have a default there are numbers. -/
def Opposable (o : ObjDecl) (ns : List Str) (value : List (Str × Val)) : Prop :=
  ∀ k v, AList.get? value k = some v → k ∈ ns → (AList.get? o.props k).all (fun d => !d.truthy) = false →
    (∃ n, v = .int n) ∨ ∃ b, v = .bool b

/-- A history of print orders; the state is the content of the shared default list. -/
def printAll (ord : List Str → List Str) : List Str → List (ObjDecl × PrintOpts × List (Str × Val)) → List Str
  | dflt, [] => dflt
  | dflt, (o, p, v) :: h => printAll ord (printOrder ord dflt o p v).2 h

end Verif.Types
