import Verif.Model.Nested
/-
What it means that every value inside nested collections is converted, and valid. Over the declarations of types only.
-/
namespace Verif.Nested.Spec

/-- The iteration order of sets: every element, depending on the content only. -/
def SetOrder (ord : List Str → List Str) : Prop :=
  (∀ l, (ord l).Perm l) ∧ ∀ l l', l.Perm l' → ord l = ord l'

/-- A type is declared for the index. -/
def Typed (n : Option Nat) (i : Nat) : Prop := ∀ m, n = some m → i < m

/-- The value is a list wherever an array is declared, a mapping wherever an object is, and has declared names only. -/
def Shaped : Ty → Val → Prop
  | .leaf _, _ => True
  | .arr _ _ item, v => ∃ l, v = .list l ∧ ∀ i x, l[i]? = some x → x = .none ∨ Shaped (item i) x
  | .obj o field, v => ∃ d, v = .dict d ∧ (d.map Prod.fst).Nodup ∧ (∀ k ∈ d.map Prod.fst, o.known k = true)
      ∧ ∀ k x, AList.get? d k = some x → x = .none ∨ Shaped (field k) x

/-- `r` is `v` with every value converted by its own type. -/
def Converted : Ty → Val → Val → Prop
  | .leaf l, v, r => l.conv v = .ok r
  | .arr _ n item, v, r => ∃ l l', v = .list l ∧ r = .list l' ∧ l'.length = l.length
      ∧ ∀ i x y, l[i]? = some x → l'[i]? = some y → (x = .none → y = .none)
        ∧ (x ≠ .none → Typed n i → Converted (item i) x y)
  | .obj o field, v, r => ∃ d d', v = .dict d ∧ r = .dict d'
      ∧ (∀ k x, AList.get? d k = some x → ∃ y, AList.get? d' k = some y ∧ (x = .none → y = .none)
        ∧ (x ≠ .none → Converted (field k) x y))
      ∧ ∀ k y, AList.get? d' k = some y → (∃ x, AList.get? d k = some x) ∨ (k ∈ o.required ∧ y = .none)

/-- The keywords of arrays, and of objects, that are checked by the types of collections themselves. -/
def arrayWords : List Str := ["minItems", "maxItems", "uniqueItems", "items"].map String.toList
def objectWords : List Str := ["required", "properties", "propertiesAdditional", "additionalProperties"].map String.toList

/-- Every value inside is valid. -/
def Valid : Ty → Val → Prop
  | .leaf l, v => v = .none ∨ l.valid [] v = true
  | .arr a _ item, v => ∃ l, v = .list l ∧ a.own arrayWords l = true ∧ ∀ i x, l[i]? = some x → Valid (item i) x
  | .obj o field, v => ∃ d, v = .dict d ∧ o.own objectWords d = true
      ∧ (∀ k ∈ o.required, ∃ x, AList.get? d k = some x)
      ∧ ∀ k x, AList.get? d k = some x → o.known k = true ∧ Valid (field k) x

/-- Every value for which a type is declared, None apart, is valid for a leaf. -/
def Sound : Ty → Val → Prop
  | .leaf l, v => l.valid [] v = true
  | .arr _ n item, v => ∀ l, v = .list l → ∀ i x, l[i]? = some x → Typed n i → x ≠ .none → Sound (item i) x
  | .obj _ field, v => ∀ d, v = .dict d → ∀ k x, AList.get? d k = some x → x ≠ .none → Sound (field k) x

/-- What holds of all leaves and all objects of a type. -/
def All (P : Leaf → Prop) (Q : Obj → Prop) : Ty → Prop
  | .leaf l => P l
  | .arr _ _ item => ∀ i, All P Q (item i)
  | .obj o field => Q o ∧ ∀ k, All P Q (field k)

/-- Converting twice is converting once. -/
def Idem (l : Leaf) : Prop := ∀ v r, l.conv v = .ok r → l.conv r = .ok r

/-- A type is declared for every required name. -/
def RequiredKnown (o : Obj) : Prop := ∀ k ∈ o.required, o.known k = true

/-- What a name stands for when a mapping is read: what is given, else the default, else None for a declared property. -/
inductive Stands (o : Obj) (d : List (Str × Val)) (k : Str) : Val → Prop
  | given {x} : AList.get? d k = some x → Stands o d k x
  | default {x} : AList.get? d k = none → AList.get? o.defaults k = some x → Stands o d k x
  | missing : AList.get? d k = none → AList.get? o.defaults k = none → k ∈ o.props → Stands o d k .none

end Verif.Nested.Spec
