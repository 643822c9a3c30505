import Verif.Spec.Xml
/-
Specification for C334, C335: the text that stands for a value, the declarations of prefixes.
-/
namespace Verif.Xml

mutual
/-- `Texted str v w`: `w` is `v`, where each value of an element is replaced by its text (nothing for None, `true` and
`false`, `str(n)`) and each value of an attribute that is not a text by `str(v)`. -/
inductive Texted (str : Val → Str) : Val → Val → Prop where
  | none : Texted str .none (.str [])
  | yes : Texted str (.bool true) (.str "true".toList)
  | no : Texted str (.bool false) (.str "false".toList)
  | int (n : Int) : Texted str (.int n) (.str (str (.int n)))
  | str (s : Str) : Texted str (.str s) (.str s)
  | list {l l' : List Val} (h : TextedL str l l') : Texted str (.list l) (.list l')
  | dict {d d' : Dict} (h : TextedD str d d') : Texted str (.dict d) (.dict d')
/-- Item by item; no list is an item. -/
inductive TextedL (str : Val → Str) : List Val → List Val → Prop where
  | nil : TextedL str [] []
  | cons {v v' : Val} {l l' : List Val} (hv : ∀ x, v ≠ .list x) (h : Texted str v v') (t : TextedL str l l') :
      TextedL str (v :: l) (v' :: l')
/-- Entry by entry: children, attributes, texts. -/
inductive TextedD (str : Val → Str) : Dict → Dict → Prop where
  | nil : TextedD str [] []
  | child {k : Str} {v v' : Val} {d d' : Dict} (hk : GoodName k) (h : Texted str v v') (t : TextedD str d d') :
      TextedD str ((k, v) :: d) ((k, v') :: d')
  | attr {k : Str} {v : Val} {d d' : Dict} (h1 : ∀ s, v ≠ .str s) (h2 : ∀ e, v ≠ .dict e) (t : TextedD str d d') :
      TextedD str (('@' :: k, v) :: d) (('@' :: k, .str (str v)) :: d')
  | same {k s : Str} {d d' : Dict} (t : TextedD str d d') : TextedD str ((k, .str s) :: d) ((k, .str s) :: d')
end

/-- The name of the attribute that declares a prefix; `''` is the prefix of the default namespace. -/
def declares (p : Str) : Str :=
  if p = [] then ['x', 'm', 'l', 'n', 's'] else ['x', 'm', 'l', 'n', 's', ':'] ++ p

end Verif.Xml
