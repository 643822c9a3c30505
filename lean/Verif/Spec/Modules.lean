import Verif.Model.Modules
/-
Which loader is meant by a name.
-/
namespace Verif.Modules.Spec

/-- The loader `i` is `l`, and no later one has folders of the same name. -/
def Latest (w : World) (i : Nat) (l : Loader) : Prop :=
  w.loaders[i]? = some l ∧ ∀ j k, w.loaders[j]? = some k → i < j → k.sub ≠ l.sub

end Verif.Modules.Spec
