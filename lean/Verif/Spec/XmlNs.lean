import Verif.Model.XmlNs
/-
Names in namespaces, elements with their declarations, and documents with comments.
-/
namespace Verif.XmlNs
open Xml

/-- A name in a namespace: the namespace, the separator, and the name in it. -/
def qualified (space : Str) (sep : Char) (name : Str) : Str := space ++ [sep] ++ name

/-- Reading gives the namespace `space` a name, and writing gives that name the namespace. -/
def Inverse (read write : AList Str Str) : Prop :=
  ∀ space short, read.get? space = some short → write.get? short = some space

/-- Neither at the beginning nor at the end. -/
def Inside (c : Char) (s : Str) : Prop := s.head? ≠ some c ∧ s.getLast? ≠ some c

instance (c : Char) (s : Str) : Decidable (Inside c s) := inferInstanceAs (Decidable (_ ∧ _))

/-- What the elements of a document declare themselves. -/
def declared (els : List (List (Str × Str) × AList Str Str)) : List (Option (AList Str Str)) :=
  els.map (fun e => if e.1 = [] then none else some e.1)

/-! ### Documents -/

/-- A part of a document. -/
inductive Node where
  | text (s : Str)
  | comment (s : Str)
  | elem (name : Str) (attrs : AList Str Str) (content : List Node)

mutual
/-- The events of a part. -/
def Node.events : Node → List Ev
  | .text s => [.ev (.chars s)]
  | .comment s => [.comment s]
  | .elem name attrs content => .ev (.start name attrs) :: eventsL content ++ [.ev (.stop name)]
def eventsL : List Node → List Ev
  | [] => []
  | n :: ns => n.events ++ eventsL ns
end

mutual
/-- The value without what stands under `#comment`, at any depth. -/
def uncomment : Val → Val
  | .dict d => .dict (uncommentD d)
  | .list l => .list (uncommentL l)
  | v => v
def uncommentD : List (Str × Val) → List (Str × Val)
  | [] => []
  | (k, v) :: d => if k = kComment then uncommentD d else (k, uncomment v) :: uncommentD d
def uncommentL : List Val → List Val
  | [] => []
  | v :: l => uncomment v :: uncommentL l
end

/-- Nothing but spaces. -/
def Spaces (s : Str) : Prop := ∀ c ∈ s, isSpace c = true

instance (s : Str) : Decidable (Spaces s) := inferInstanceAs (Decidable (∀ c ∈ s, _))

def Node.isComment : Node → Bool | .comment _ => true | _ => false
def Node.isElem : Node → Bool | .elem .. => true | _ => false
/-- Text that is not only spaces. -/
def Node.isWord : Node → Bool | .text s => !s.all isSpace | _ => false

/-- An element of these attributes and content is like a record: it has attributes or elements, and no words. -/
def Record (attrs : AList Str Str) (content : List Node) : Prop :=
  (attrs ≠ [] ∨ content.any Node.isElem = true) ∧ content.any Node.isWord = false

mutual
/-- Comments stand in records only, and no name is that of comments. -/
def Node.Tidy : Node → Prop
  | .elem name attrs content => name ≠ kComment ∧
      (content.any Node.isComment = true → Record attrs content) ∧ TidyL content
  | _ => True
def TidyL : List Node → Prop
  | [] => True
  | n :: ns => n.Tidy ∧ TidyL ns
end

/-- The name a namespace is read with. -/
def readAs (read : AList Str Str) (space : Str) : Str := (read.get? space).getD space

end Verif.XmlNs
