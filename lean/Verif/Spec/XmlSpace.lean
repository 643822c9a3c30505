import Verif.Spec.XmlNs
import Verif.Model.XmlOptions
/-
Documents that differ in white space only.
-/
namespace Verif.XmlSpace
open XmlNs

/-- The texts directly inside an element, in order. -/
def texts : List Node → List Str
  | [] => []
  | .text s :: ns => s :: texts ns
  | _ :: ns => texts ns

/-- The first text is `t` apart from white space around it (or there is none and `t` is empty); the others are white space. -/
def OneText (t : Str) : List Str → Prop
  | [] => t = []
  | s :: r => strip isSpace s = t ∧ ∀ x ∈ r, strip isSpace x = []

mutual
/-- The same element or comment, but for white space: elements have the same name, the same attributes, the same text and
contents that are the same. -/
inductive Alike : Node → Node → Prop where
  | comment (s : Str) : Alike (.comment s) (.comment s)
  | elem (name : Str) (attrs : AList Str Str) (t : Str) (c c' : List Node) (h1 : OneText t (texts c)) (h2 : OneText t (texts c'))
      (h : AlikeL c c') : Alike (.elem name attrs c) (.elem name attrs c')
/-- The same elements and comments, whatever texts stand between them. -/
inductive AlikeL : List Node → List Node → Prop where
  | nil : AlikeL [] []
  | left (s : Str) (c c' : List Node) (h : AlikeL c c') : AlikeL (.text s :: c) c'
  | right (s : Str) (c c' : List Node) (h : AlikeL c c') : AlikeL c (.text s :: c')
  | cons (n n' : Node) (c c' : List Node) (h1 : Alike n n') (h : AlikeL c c') : AlikeL (n :: c) (n' :: c')
end

mutual
/-- No element has a `#tail`. -/
def Tailless : Val → Prop
  | .list l => TaillessL l
  | .dict d => TaillessD d
  | _ => True
def TaillessL : List Val → Prop
  | [] => True
  | .list _ :: l => TaillessL l
  | v :: l => Tailless v ∧ TaillessL l
def TaillessD : List (Str × Val) → Prop
  | [] => True
  | (k, v) :: d => k ≠ "#tail".toList ∧ (k = "#text".toList ∨ k.head? = some '@' ∨ Tailless v) ∧ TaillessD d
end

mutual
/-- A document with its texts and comments stripped. A text of nothing but white space is an empty text, which no parser reports:
it stands for the place where a text was. -/
def trim : List Node → List Node
  | [] => []
  | n :: ns => trimmed n :: trim ns
def trimmed : Node → Node
  | .text s => .text (strip isSpace s)
  | .comment s => .comment (strip isSpace s)
  | .elem name attrs content => .elem name attrs (trim content)
end

end Verif.XmlSpace
