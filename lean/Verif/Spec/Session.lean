import Verif.Model.Session
/-
Specification for C74, C75, C103, C104.
-/
namespace Verif.Session

/-- The documented defaults of the factory. -/
def documentedDefault (k : Str) : Option Arg :=
  if k = "bind".toList then some (.val .none)
  else if k = "autoflush".toList then some (.val (.bool true))
  else if k = "autocommit".toList then some (.val (.bool false))
  else if k = "expire_on_commit".toList then some (.val (.bool true))
  else none

/-- The value last given for an option in a history of `configure` calls. -/
def lastGiven (configs : List (AList Str Arg)) (k : Str) : Option Arg :=
  configs.reverse.findSome? (fun c => AList.get? c k)

/-- The value configured for an option: the last one given, else the one given at construction, else the
documented default. A constructor argument `info=None` counts as not given. -/
def configured (given : AList Str Arg) (configs : List (AList Str Arg)) (k : Str) : Option Arg :=
  ((lastGiven configs k).or
    (if k = "info".toList ∧ AList.get? given k = some (.val .none) then none else AList.get? given k)).or
    (documentedDefault k)

/-- The scope of a call, if the operation is one. -/
def Op.isRemove {σ : Type} (sc : σ) : Op σ → Prop
  | .remove sc' => sc' = sc
  | _ => False

end Verif.Session
