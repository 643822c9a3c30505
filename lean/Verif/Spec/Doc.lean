import Verif.Model.Doc
/-
Specification for C15, C18-C22, C84.
-/
namespace Verif.Doc

/-- Following keys one by one: `Follow obj keys v` when they lead to `v`. -/
inductive Follow : Val → List Key → Val → Prop
  | here (v) : Follow v [] v
  | dict {d k v ks w} (h : AList.get? d k = some v) (t : Follow v ks w) :
      Follow (.dict d) (.name k :: ks) w
  | list {l i v ks w} (h : pyIndex l i = some v) (t : Follow v ks w) :
      Follow (.list l) (.index i :: ks) w
  | char {s i c ks w} (h : pyIndex s i = some c) (t : Follow (.str [c]) ks w) :
      Follow (.str s) (.index i :: ks) w

/-- The leaves of a nested dictionary: `Leaf d path v` when `path` leads to the non-dictionary `v`. -/
inductive Leaf : List (Str × Val) → List Str → Val → Prop
  | here {d k v} (h : (k, v) ∈ d) (hv : ∀ d', v ≠ .dict d') : Leaf d [k] v
  | deeper {d k d' ks v} (h : (k, .dict d') ∈ d) (t : Leaf d' ks v) : Leaf d (k :: ks) v

mutual
/-- The leaves below one item, depth first. -/
def leavesItem (k : Str) : Val → List (List Str × Val)
  | .dict d => (leaves d).map fun (p, v) => (k :: p, v)
  | v => [([k], v)]
/-- The leaves of a nested dictionary with their paths, depth first, left to right. -/
def leaves : List (Str × Val) → List (List Str × Val)
  | [] => []
  | (k, v) :: rest => leavesItem k v ++ leaves rest
end

/-- Every dictionary inside a document has distinct keys. -/
inductive Proper : Val → Prop
  | none : Proper .none
  | bool (b) : Proper (.bool b)
  | int (i) : Proper (.int i)
  | str (s) : Proper (.str s)
  | list {l} (h : ∀ v ∈ l, Proper v) : Proper (.list l)
  | dict {d} (hk : (d.map Prod.fst).Nodup) (h : ∀ kv ∈ d, Proper kv.2) : Proper (.dict d)

end Verif.Doc
