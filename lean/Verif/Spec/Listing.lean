import Verif.Spec.Names
import Verif.Model.Listing
/-
Specification for C309-C311.
-/
namespace Verif.Listing.Spec
open ChainMap (Chain Binds)
open Names (Env Mgr)

/-- `u` is the last of the documents called `k`. -/
def LastNamed (docs : List Str) (cnameOf : Str → Str) (k u : Str) : Prop :=
  ∃ pre post, docs = pre ++ u :: post ∧ cnameOf u = k ∧ ∀ v ∈ post, cnameOf v ≠ k

/-- What the name `k` stands for in a listing: the URI it is registered with, or else that of the last document of the
name. -/
def Stands (env : Env) (m : Mgr) (k u : Str) : Prop :=
  Binds m.reg k u ∨ ((∀ v, ¬ Binds m.reg k v) ∧ LastNamed env.docs env.cnameOf k u)

/-- The definitions of a document under one keyword. -/
def Defines (doc : AList Str Val) (tag k : Str) : Prop :=
  ∃ ds v, AList.get? doc tag = some (.dict ds) ∧ (k, v) ∈ ds

end Verif.Listing.Spec
