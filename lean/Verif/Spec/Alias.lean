import Verif.Model.Alias
/-
Specification for C126-C133: what a document says about a property, told from its entries and the declared names.
-/
namespace Verif.Alias

/-- `k` is another name of the property `p`: its clean name, unless a property has that name, or an alias. -/
inductive Other (c : Names) : Str → Str → Prop
  | clean {k p : Str} : k ∉ c.props → (k, p) ∈ c.translation → Other c k p
  | alias {k p : Str} : (k, p) ∈ c.aliases → Other c k p

/-- The document says that the property `p` has the value `v`. -/
inductive Says (c : Names) (d : AList Str Val) : Str → Val → Prop
  | name {p : Str} {v : Val} : (p, v) ∈ d → Says c d p v
  | other {k p : Str} {v : Val} : Other c k p → (k, v) ∈ d → Says c d p v
  | negated {k p : Str} {i : Int} : (k, p) ∈ c.negated → (k, .int i) ∈ d → Says c d p (.int (-i))

/-- `k` is a name under which a document gives the property `p`. -/
def NameOf (c : Names) (k p : Str) : Prop := k = p ∨ Other c k p ∨ (k, p) ∈ c.negated

/-- The document gives no property twice. -/
def Once (c : Names) (d : AList Str Val) : Prop :=
  ∀ p ∈ c.props, ∀ k k', NameOf c k p → NameOf c k' p → k ∈ d.map Prod.fst → k' ∈ d.map Prod.fst → k = k'

/-- The declared names can be told apart, and stand for properties. -/
structure Unambiguous (c : Names) : Prop where
  alias_new : ∀ k p, (k, p) ∈ c.aliases → p ∈ c.props ∧ k ∉ c.props ∧ (∀ q, (k, q) ∉ c.translation) ∧ ∀ q, (k, q) ∉ c.negated
  negated_new : ∀ k p, (k, p) ∈ c.negated → p ∈ c.props ∧ k ∉ c.props ∧ (∀ q, (k, q) ∉ c.translation)
  clean_prop : ∀ k p, (k, p) ∈ c.translation → p ∈ c.props
  clean_inj : ∀ k k' p, (k, p) ∈ c.translation → (k', p) ∈ c.translation → k = k'
  wf_translation : (c.translation.map Prod.fst).Nodup
  wf_aliases : (c.aliases.map Prod.fst).Nodup
  wf_negated : (c.negated.map Prod.fst).Nodup

/-- What is given under a negated alias is a whole number. -/
def NumbersNegated (c : Names) (d : AList Str Val) : Prop :=
  ∀ k p v, (k, p) ∈ c.negated → (k, v) ∈ d → ∃ i : Int, v = .int i

end Verif.Alias
