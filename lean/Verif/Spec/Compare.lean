import Verif.Model.Query
/-
Specification for C296-C297: when two documents are equal, and when one comes before the other.
-/
namespace Verif.Query

/-- No key appears twice in a dictionary, at any depth. -/
inductive WellFormed : Val → Prop
  | none : WellFormed .none
  | bool {b : Bool} : WellFormed (.bool b)
  | int {i : Int} : WellFormed (.int i)
  | str {s : Str} : WellFormed (.str s)
  | list {l : List Val} : (∀ x ∈ l, WellFormed x) → WellFormed (.list l)
  | dict {d : List (Str × Val)} : (d.map Prod.fst).Nodup → (∀ x ∈ d, WellFormed x.2) → WellFormed (.dict d)

/-- The number a document is: True is 1 and False is 0. -/
inductive NumOf : Val → Int → Prop
  | int {i : Int} : NumOf (.int i) i
  | true : NumOf (.bool true) 1
  | false : NumOf (.bool false) 0

/-- The same number or text, lists with equal items in the same order, dictionaries with equal values under the same keys,
in any order. -/
inductive Equal : Val → Val → Prop
  | none : Equal .none .none
  | num {v w : Val} {n : Int} : NumOf v n → NumOf w n → Equal v w
  | str {s : Str} : Equal (.str s) (.str s)
  | list {l m : List Val} : l.length = m.length →
      (∀ (k : Nat) (x y : Val), l[k]? = some x → m[k]? = some y → Equal x y) → Equal (.list l) (.list m)
  | dict {d e : List (Str × Val)} : (∀ k, k ∈ d.map Prod.fst ↔ k ∈ e.map Prod.fst) →
      (∀ (k : Str) (x y : Val), AList.get? d k = some x → AList.get? e k = some y → Equal x y) → Equal (.dict d) (.dict e)

/-- A smaller number; texts and lists in the order of a dictionary, where a beginning comes first. -/
inductive Before : Val → Val → Prop
  | num {v w : Val} {n m : Int} : NumOf v n → NumOf w m → n < m → Before v w
  | char {p s t : Str} {c d : Char} : c.toNat < d.toNat → Before (.str (p ++ c :: s)) (.str (p ++ d :: t))
  | text {p s : Str} {c : Char} : Before (.str p) (.str (p ++ c :: s))
  | item {p q l m : List Val} {x y : Val} : Equal (.list p) (.list q) → Before x y → Before (.list (p ++ x :: l)) (.list (q ++ y :: m))
  | list {p q l : List Val} {x : Val} : Equal (.list p) (.list q) → Before (.list p) (.list (q ++ x :: l))

/-- Two numbers, two texts, or two lists whose first different items can be compared. -/
inductive Comparable : Val → Val → Prop
  | num {v w : Val} {n m : Int} : NumOf v n → NumOf w m → Comparable v w
  | str {s t : Str} : Comparable (.str s) (.str t)
  | item {p q l m : List Val} {x y : Val} : Equal (.list p) (.list q) → ¬ Equal x y → Comparable x y →
      Comparable (.list (p ++ x :: l)) (.list (q ++ y :: m))
  | left {p q l : List Val} : Equal (.list p) (.list q) → Comparable (.list p) (.list (q ++ l))
  | right {p q l : List Val} : Equal (.list p) (.list q) → Comparable (.list (p ++ l)) (.list q)

end Verif.Query
