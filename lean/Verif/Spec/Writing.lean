import Verif.Model.Nested
/-
The values of types of collections that are written and read without loss. Over the declarations of types, and the
validation of values.
-/
namespace Verif.Writing.Spec
open Nested

/-- The names of the mapping are those required, then the others in the order of sets. -/
def Ordered (ord : List Str → List Str) (o : Obj) (d : List (Str × Val)) : Prop :=
  d.map Prod.fst = o.required ++ ord ((d.map Prod.fst).filter fun k => k ∉ o.required) ∧ (d.map Prod.fst).Nodup

/-- A leaf converts its value to itself, and back from what it writes. -/
def Back (ser : Leaf → Val → Res Val) (l : Leaf) (v : Val) : Prop :=
  v ≠ .none ∧ l.conv v = .ok v ∧ ∃ s, ser l v = .ok s ∧ s ≠ .none ∧ l.conv s = .ok v

/-- Every array has one type for all its items. -/
def Single : Ty → Prop
  | .leaf _ => True
  | .arr _ n item => n = none ∧ ∀ i, Single (item i)
  | .obj _ field => ∀ k, Single (field k)

/-- A default that is not written when it is left to the types: none for leaves, arrays never. -/
def NoDefault : Ty → Prop
  | .leaf l => l.dflt.truthy = false
  | .arr .. => False
  | .obj o _ => o.dflt = []

/-- Inside arrays: values kept by conversion. Without defaults, a None of an object is written only if it is required. -/
def Kept (ord : List Str → List Str) (ser : Leaf → Val → Res Val) (nd : Bool) : Ty → Val → Prop
  | .leaf l, v => (v = .none ∧ ser l .none = .ok .none) ∨ Back ser l v
  | .arr _ _ item, v => ∃ vs, v = .list vs ∧ ∀ i x, vs[i]? = some x → (nd = true ∧ x = .none) ∨ Kept ord ser nd (item i) x
  | .obj o field, v => ∃ d, v = .dict d ∧ Ordered ord o d
      ∧ ∀ k x, AList.get? d k = some x → o.known k = true ∧ (nd = true → NoDefault (field k))
        ∧ ((nd = true ∧ x = .none ∧ k ∈ o.required) ∨ (¬ (nd = true ∧ x = .none) ∧ Kept ord ser nd (field k) x))

/-- Values that reading gives: valid, in order, with every declared property; None only where there is no default. -/
def Settled (ord : List Str → List Str) (ser : Leaf → Val → Res Val) (nd : Bool) : Ty → Val → Prop
  | .leaf l, v => (v = .none ∧ l.dflt = .none ∧ ser l .none = .ok .none) ∨ (Back ser l v ∧ l.valid [] v = true)
  | .arr a n item, v => ∃ vs, v = .list vs ∧ (vs = [] → a.dflt = []) ∧ a.minItems ≤ vs.length
      ∧ (∀ i x, vs[i]? = some x → (nd = true ∧ x = .none) ∨ Kept ord ser nd (item i) x)
      ∧ Nested.validate (.arr a n item) [] v = .ok ()
  | .obj o field, v => ∃ d, v = .dict d ∧ o.dflt = [] ∧ Ordered ord o d
      ∧ (o.defaults.map Prod.fst).Nodup ∧ o.props.Nodup
      ∧ (∀ k, k ∈ o.props ∨ k ∈ o.defaults.map Prod.fst → k ∈ d.map Prod.fst)
      ∧ (∀ k x, AList.get? d k = some x → o.known k = true ∧ (nd = true → NoDefault (field k))
        ∧ Settled ord ser nd (field k) x
        ∧ (nd = true → x = .none → k ∉ o.required → k ∈ o.props ∧ AList.get? o.defaults k = none))
      ∧ Nested.validate (.obj o field) [] v = .ok ()

end Verif.Writing.Spec
