import Verif.Model.Access
/-
What it means that a name says nothing to a class, and that nothing is taken away from an object.
-/
namespace Verif.Access

/-- The class declares nothing under this name: no property, no other spelling of one, no alias, no attribute. -/
structure Unknown (c : Cls) (name : Str) : Prop where
  prop : name ∉ c.base.props
  clean : name ∉ c.base.translation.map Prod.fst
  spelt : name ∉ c.base.translation.map Prod.snd
  alias : name ∉ c.base.aliases.map Prod.fst
  alias' : name ∉ c.base.aliases.map Prod.snd
  neg : name ∉ c.base.negated.map Prod.fst
  neg' : name ∉ c.base.negated.map Prod.snd

/-- It does not begin with an underscore. -/
def Public (name : Str) : Prop := name.head? ≠ some '_'

instance (name : Str) : Decidable (Public name) := inferInstanceAs (Decidable (_ ≠ _))

/-- It begins with two underscores. -/
def Special (name : Str) : Prop := ['_', '_'] <+: name

/-- Every item of `o` is one of `o'`, whatever its value. -/
structure Kept (o o' : Obj.Obj) : Prop where
  data : ∀ k, (o.data.get? k).isSome → (o'.data.get? k).isSome
  validated : ∀ k, (o.validated.get? k).isSome → (o'.validated.get? k).isSome
  inputs : ∀ k, (o.inputs.get? k).isSome → (o'.inputs.get? k).isSome

/-- The item is complete: it has raw data, a place for its value, and a record of its inputs. -/
def Complete (o : Obj.Obj) (k : Str) : Prop :=
  (o.data.get? k).isSome ∧ (o.validated.get? k).isSome ∧ (o.inputs.get? k).isSome

end Verif.Access
