import Verif.Model.Classes
/-
Specification for C118-C123: what a class inherits, told from what the user wrote.
-/
namespace Verif.Classes

/-- The class definitions in order, of those that succeeded. -/
def World.items (w : World) : List Item := w.classes.map Prod.fst

/-- Class `i` is class `j` or derived from it, through `bases` or `extends`. -/
inductive Inherits (items : List Item) : Nat → Nat → Prop
  | refl {i : Nat} : i < items.length → Inherits items i i
  | step {i p j : Nat} {it : Item} : items[i]? = some it → p ∈ it.parents → Inherits items p j → Inherits items i j

/-- The definition names the property in the keyword, or in the class attribute when there is no keyword. -/
def Names (d : Decl) (q : Kind) (k : Str) : Prop :=
  (∃ ks, d.sets q = some ks ∧ k ∈ ks) ∨ (d.sets q = none ∧ ∃ ks, d.attrSets q = some ks ∧ k ∈ ks)

/-- Class `j` comes from the schema definition `d`. -/
def IsBuilt (items : List Item) (j : Nat) (d : Decl) : Prop := items[j]? = some (Item.built d)

/-- Class `i` is derived from a class built from a schema, or is one. -/
def IsProtocol (items : List Item) (i : Nat) : Prop := ∃ j d, Inherits items i j ∧ IsBuilt items j d

/-- Ordinary classes have at most one base that is derived from a class built from a schema. -/
def SinglePlain (items : List Item) : Prop :=
  ∀ (i : Nat) (bases : List Nat) (methods : AList Str Nat), items[i]? = some (Item.plain bases methods) →
    ∀ a ∈ bases, ∀ b ∈ bases, IsProtocol items a → IsProtocol items b → a = b

end Verif.Classes
