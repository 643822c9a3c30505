import Verif.Model.Equality
import Verif.Spec.Compare
/-
Specification for C134-C139: what it means that two instances have the same content, and that identities are used
consistently.
-/
namespace Verif.Equality

/-- Plain values that are neither lists nor dictionaries. -/
def Scalar : Val → Prop
  | .list _ | .dict _ => False
  | _ => True

/-- The same content: equal plain values, arrays of one class with the same items, objects of one class with the same
properties. -/
inductive Same : Node → Node → Prop
  | atom {v w : Val} : Query.Equal v w → Same (.atom v) (.atom w)
  | arr {i j c : Nat} {l m : List Node} : l.length = m.length →
      (∀ (k : Nat) (x y : Node), l[k]? = some x → m[k]? = some y → Same x y) → Same (.arr i c l) (.arr j c m)
  | obj {i j c : Nat} {p q : Bool} {l m : List (Str × Node)} : l.map Prod.fst = m.map Prod.fst →
      (∀ (k : Nat) (x y : Str × Node), l[k]? = some x → m[k]? = some y → Same x.2 y.2) → Same (.obj i c p l) (.obj j c q m)

/-- Identities: `at_ i` is the instance with identity `i`; plain values are scalars. -/
inductive Sound (at_ : Nat → Node) : Node → Prop
  | atom {v : Val} : Scalar v → Sound at_ (.atom v)
  | arr {i c : Nat} {l : List Node} : at_ i = .arr i c l → (∀ x ∈ l, Sound at_ x) → Sound at_ (.arr i c l)
  | obj {i c : Nat} {p : Bool} {l : List (Str × Node)} : at_ i = .obj i c p l → (∀ x ∈ l, Sound at_ x.2) → Sound at_ (.obj i c p l)

/-- No objects inside: arrays of arrays of plain values. -/
inductive NoObject : Node → Prop
  | atom {v : Val} : NoObject (.atom v)
  | arr {i c : Nat} {l : List Node} : (∀ x ∈ l, NoObject x) → NoObject (.arr i c l)

/-- Derivation of classes: a partial order. -/
structure Order (sub : Nat → Nat → Bool) : Prop where
  refl : ∀ c, sub c c = true
  antisymm : ∀ c d, sub c d = true → sub d c = true → c = d
  trans : ∀ c d e, sub c d = true → sub d e = true → sub c e = true

end Verif.Equality
