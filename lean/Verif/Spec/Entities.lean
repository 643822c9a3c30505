import Verif.Model.Entities
/-
What is meant by the outermost object, by the object something was built in, and by the places in a tree of objects and
in what is written of it.
-/
namespace Verif.Entities

/-- `r` is the outermost object above `o`. -/
inductive Top (par : Nat → Option Nat) : Nat → Nat → Prop where
  | top {o : Nat} (h : par o = none) : Top par o o
  | up {o p r : Nat} (h : par o = some p) (t : Top par p r) : Top par o r

/-- `a` is above `o`. -/
inductive Above (par : Nat → Option Nat) : Nat → Nat → Prop where
  | here {o a : Nat} (h : par o = some a) : Above par o a
  | up {o p a : Nat} (h : par o = some p) (t : Above par p a) : Above par o a

/-- For each object of a history, in the order of their making, the object it was built in. -/
def builtIn : List Op → List (Option Nat) → List (Option Nat)
  | [], l => l
  | .make _ _ :: ops, l => builtIn ops (l ++ [none])
  | .build p _ _ :: ops, l => builtIn ops (if p < l.length then l ++ [some p] else l)
  | _ :: ops, l => builtIn ops l

/-- Nothing is inserted into a lazily loaded array. -/
def NoInsert (ops : List Op) : Prop := ∀ op ∈ ops, ∀ p o, op ≠ .insert p o

/-- A step down a tree: to a named property, or to an item. -/
inductive Step where
  | name (k : Str)
  | item (i : Nat)
  deriving DecidableEq, Repr

/-- What is one step down in what was written. -/
def Out.step : Out → Step → Option Out
  | .dict fs, .name k => AList.get? fs k
  | .list l, .item i => l[i]?
  | _, _ => none

/-- What is at a place in what was written. -/
def Out.at? : Out → List Step → Option Out
  | x, [] => some x
  | x, s :: p => match x.step s with
    | none => none
    | some y => y.at? p

/-- The place `p` below a value leads to `m`, going through no name that is hidden: neither by `excludes`, nor by the
class of an object on the way, including those further up (`ex`). If references are written (`refs`), it goes through no
entity but a root (`root`: entities that are met are roots). The last two arguments tell which names are hidden at `m`,
and whether `m` would be a root. -/
inductive Way (refs : Bool) : List Str → Bool → Node → List Step → List Str → Bool → Node → Prop where
  | here {ex : List Str} {root : Bool} {n : Node} : Way refs ex root n [] ex root n
  | name {ex ex' : List Str} {root root' : Bool} {c : Cls} {fs : List (Str × Node)} {k : Str} {n m : Node}
      {p : List Step} (hk : AList.get? fs k = some n) (hn : n ≠ .prim .none) (hc : k ∉ c.notSer) (he : k ∉ ex)
      (hr : refs = false ∨ c.entity = false ∨ root = true)
      (w : Way refs (c.notSer ++ ex) (if c.entity then false else root) n p ex' root' m) :
      Way refs ex root (.obj c fs) (.name k :: p) ex' root' m
  | item {ex ex' : List Str} {root root' : Bool} {l : List Node} {i : Nat} {n m : Node} {p : List Step}
      (hi : l[i]? = some n) (w : Way refs ex root n p ex' root' m) : Way refs ex root (.arr l) (.item i :: p) ex' root' m

/-- A value that is written as it is. -/
inductive AsIs : Node → Out → Prop where
  | prim (v : Val) : AsIs (.prim v) (.val v)
  | obj (c : Cls) (fs : List (Str × Node)) : AsIs (.obj c fs) (.raw (.obj c fs))
  | arr (l : List Node) : AsIs (.arr l) (.raw (.arr l))

/-- No property is given twice, all the way down. -/
inductive Node.Distinct : Node → Prop where
  | prim (v : Val) : Distinct (.prim v)
  | obj (c : Cls) (fs : List (Str × Node)) (wf : AList.WF fs) (h : ∀ q ∈ fs, Distinct q.2) : Distinct (.obj c fs)
  | arr (l : List Node) (h : ∀ n ∈ l, Distinct n) : Distinct (.arr l)

end Verif.Entities
