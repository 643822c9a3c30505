import Verif.Spec.Query
import Verif.Spec.Compare
import Verif.Num
/-
Specification for C331: what it means to be inside a document and at a position of it.
-/
namespace Verif.Query

/-- The second is an item of the first, a part of it, or a key of it. -/
inductive Holds : Val → Val → Prop
  | item {l : List Val} {x y : Val} : y ∈ l → Equal x y → Holds (.list l) x
  | part {a s b : Str} : Holds (.str (a ++ s ++ b)) (.str s)
  | key {d : List (Str × Val)} {k : Str} {v : Val} : (k, v) ∈ d → Holds (.dict d) (.str k)

/-- The items of a list and the characters of a text, counted from 0, or from the end: the last is -1. -/
inductive At : Val → Int → Val → Prop
  | item {a b : List Val} {x : Val} : At (.list (a ++ x :: b)) a.length x
  | itemBack {a b : List Val} {x : Val} : At (.list (a ++ x :: b)) (-(b.length + 1)) x
  | char {a b : Str} {c : Char} : At (.str (a ++ c :: b)) a.length (.str [c])
  | charBack {a b : Str} {c : Char} : At (.str (a ++ c :: b)) (-(b.length + 1)) (.str [c])

/-- The name of the operator that takes the item at a position. -/
def atName (i : Int) : Str := '@' :: showInt i

end Verif.Query
