import Verif.Model.Meta
/-
What C315 says about schemas, without the meta-schema.
-/
namespace Verif.Meta.Spec

/-- The schemas that pass the check: only the keyword `complexTypes` is looked at, also in the definitions. -/
inductive Accepted : Val → Prop
  | other (v : Val) (h : ∀ d, v ≠ .dict d) : Accepted v
  | dict (d : List (Str × Val))
    (hc : ∀ x, AList.get? d "complexTypes".toList = some x → ∃ s ∈ ["importable", "path", "uri", "date", "time",
      "datetime", "foreignKey", "canonicalName"], x = .str s.toList)
    (hd : ∀ e, AList.get? d "definitions".toList = some (.dict e) → ∀ k x, (k, x) ∈ e → Accepted x) : Accepted (.dict d)

/-- Some of the ways in which a value is no JSON Schema. -/
inductive Invalid : Val → Prop
  | scalar (v : Val) (h : ∀ d, v ≠ .dict d) (hb : ∀ b, v ≠ .bool b) : Invalid v
  | type (d : List (Str × Val)) (x : Val) (h : AList.get? d "type".toList = some x) (hs : ∀ s, x ≠ .str s)
    (hl : ∀ l, x ≠ .list l) : Invalid (.dict d)
  | count (d : List (Str × Val)) (k : String)
    (hk : k ∈ ["minLength", "maxLength", "minItems", "maxItems", "minProperties", "maxProperties"]) (x : Val)
    (h : AList.get? d k.toList = some x) (hn : ∀ n : Nat, x ≠ .int n) : Invalid (.dict d)
  | names (d : List (Str × Val)) (x : Val) (h : AList.get? d "required".toList = some x) (hl : ∀ l, x ≠ .list l) :
    Invalid (.dict d)
  | property (d e : List (Str × Val)) (h : AList.get? d "properties".toList = some (.dict e)) (k : Str) (x : Val)
    (hk : AList.get? e k = some x) (hx : Invalid x) : Invalid (.dict d)

end Verif.Meta.Spec
