import Verif.Model.Walk
/-
Specification for C247-C252.
-/
namespace Verif.Walk

/-- A value that is neither a list nor a dictionary. -/
def Atom (v : Val) : Prop := (∀ l, v ≠ .list l) ∧ (∀ m, v ≠ .dict m)

/-- `At v p x`: the keys `p` lead from `v` to `x`. -/
inductive At : Val → List Key → Val → Prop
  | here (v) : At v [] v
  | list {l i v p x} (h : l[i]? = some v) (t : At v p x) : At (.list l) (.pos i :: p) x
  | dict {m k v p x} (h : AList.get? m k = some v) (t : At v p x) : At (.dict m) (.name k :: p) x

/-- All dictionaries in `v` have distinct keys. -/
def Sound (v : Val) : Prop := ∀ p m, At v p (.dict m) → (m.map Prod.fst).Nodup

/-- `Through h v w`: `w` is `v`, where each item has been replaced by `h` before its own items are. -/
inductive Through (h : Key → Val → Res Val) : Val → Val → Prop
  | atom {v} (a : Atom v) : Through h v v
  | list {l w : List Val} (len : w.length = l.length)
      (new : Nat → Val)
      (set : ∀ i a, l[i]? = some a → h (.pos i) a = .ok (new i))
      (each : ∀ i b, w[i]? = some b → Through h (new i) b) : Through h (.list l) (.list w)
  | dict {m w : AList Str Val} (nodup : (m.map Prod.fst).Nodup) (keys : w.map Prod.fst = m.map Prod.fst)
      (new : Str → Val)
      (set : ∀ k a, AList.get? m k = some a → h (.name k) a = .ok (new k))
      (each : ∀ k b, AList.get? w k = some b → Through h (new k) b) : Through h (.dict m) (.dict w)

/-- With calls and rounds enough, `run` gives `r`. -/
def Gives {α : Type} (run : Nat → Res α) (r : α) : Prop := ∃ N, ∀ n, N ≤ n → run n = .ok r

/-- The call made for the position `p` of `v`: the collection that holds it, its key there, the depth. -/
def CallFor (v : Val) (p : List Key) (c : Call) : Prop :=
  ∃ q k, p = q ++ [k] ∧ At v q c.1 ∧ c.2.1 = k ∧ c.2.2 = q.length

/-- The keys of a collection, in its order. -/
def keysOf : Val → List Key
  | .list l => (List.range l.length).map .pos
  | .dict m => m.map fun p => .name p.1
  | _ => []

/-- The positions `ps` that are just below `q`. -/
def below (q : List Key) (ps : List (List Key)) : List (List Key) :=
  ps.filter fun p => p ≠ [] ∧ p.dropLast = q

/-- The same positions, with lists of the same lengths and dictionaries of the same keys in the same order. -/
structure SameShape (v w : Val) : Prop where
  list : ∀ p l, At v p (.list l) → ∃ l', At w p (.list l') ∧ l'.length = l.length
  dict : ∀ p m, At v p (.dict m) → ∃ m', At w p (.dict m') ∧ m'.map Prod.fst = m.map Prod.fst

/-- Leaves are replaced by `g`, collections are not. -/
def leafwise (g : Key → Val → Val) : Key → Val → Res Val
  | _, .list l => .ok (.list l)
  | _, .dict m => .ok (.dict m)
  | k, v => .ok (g k v)

/-- What reducing leaves of a list of atoms: the item after a deleted one is not looked at. -/
def skipping : List Val → List Val
  | [] => []
  | [x] => if x.truthy then [x] else []
  | x :: y :: r => if x.truthy then x :: skipping (y :: r) else y :: skipping r

/-- A leaf or a list of leaves. -/
def Flat (v : Val) : Prop := Atom v ∨ ∃ l, v = .list l ∧ ∀ x ∈ l, Atom x

/-- What an entry with a leaf or with a list of leaves becomes, if it stays. -/
def staying : Val → Option Val
  | .list [] => none
  | .list [x] => if x.truthy then some x else none
  | .list l => some (.list (skipping l))
  | v => if v.truthy then some v else none

/-- A collection of mappings in mappings, in which no mapping below the first has entries that are all false. -/
def Filled (v : Val) : Prop :=
  (∀ p l, ¬ At v p (.list l)) ∧ ∀ p d, p ≠ [] → At v p (.dict d) → d ≠ [] → ∃ e ∈ d, e.2.truthy = true

/-- `w` has the true leaves of `v`, where they were, and its mappings have the true entries only, in their order. -/
def TruePart (v w : Val) : Prop :=
  (∀ p x, Atom x → (p = [] ∨ x.truthy = true) → At v p x → At w p x) ∧
  ∀ p d, At v p (.dict d) → p = [] ∨ d ≠ [] →
    ∃ d', At w p (.dict d') ∧ d'.map Prod.fst = (d.filter fun e => e.2.truthy).map Prod.fst

/-- `p` is the place of a `$ref` in a dictionary that is an item of a dictionary. -/
def RefPlace (p : List Key) : Prop := ∃ q k, p = q ++ [.name k, .name refKey]

/-- A value `scope` takes: a text, or a collection in which there is no `#`. -/
def Scopable (r : Val) : Prop :=
  (∃ s, r = .str s) ∨ (∃ l, r = .list l ∧ .str ['#'] ∉ l) ∨ (∃ m, r = .dict m ∧ ['#'] ∉ m.map Prod.fst)

/-- `j` is a proper ancestor of `i`. -/
inductive Ancestor (ext : Str → List Str) : Str → Str → Prop
  | parent {i j} (h : j ∈ ext i) : Ancestor ext i j
  | up {i j k} (h : j ∈ ext i) (t : Ancestor ext j k) : Ancestor ext i k

end Verif.Walk
