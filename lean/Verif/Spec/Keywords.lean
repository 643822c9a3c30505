import Verif.Spec.Classes
/-
Keywords of a schema and primary keys (for C293, C294).
-/
namespace Verif.Classes

/-- The keywords that say how instances are made and written. -/
def Definition (k : Str) : Prop :=
  (∃ s ∈ ["properties", "patternProperties", "additionalProperties", "items", "$defs"], k = s.toList) ∨
  (∃ s ∈ ["type", "extends", "default", "dependencies", "required", "readOnly", "primaryKeys"], k = s.toList) ∨
  (∃ s ∈ ["aliases", "negatedAliases", "notSerialized", "notValidated", "convert", "validate", "serialize"], k = s.toList)

/-- Keywords that tell about a class, not about its instances. -/
def About (k : Str) : Prop :=
  ∃ s ∈ ["$id", "$schema", "abstract", "title", "description", "relationships", "$comment", "examples"], k = s.toList

/-- What the definition says about primary keys: the class attribute, else the keyword. -/
def Declares (d : Decl) (ks : List Str) : Prop :=
  ks ≠ [] ∧ (d.attrPrimaryKeys = some ks ∨ (d.attrPrimaryKeys = none ∧ d.primaryKeys = some ks))

end Verif.Classes
