import Verif.Model.Xml
/-
Specification for C79-C81, C107-C110: XML trees, the dictionary a tree stands for, canonical documents.
-/
namespace Verif.Xml

/-- An XML tree: an element with its attributes and content, or a text. -/
inductive Node where
  | elem (name : Str) (attrs : AList Str Str) (content : List Node)
  | text (s : Str)

mutual
/-- The document order of tags and texts. -/
def Node.events : Node → List Event
  | .elem name attrs content => .start name attrs :: (eventsL content ++ [.stop name])
  | .text s => [.chars s]
def eventsL : List Node → List Event
  | [] => []
  | n :: ns => n.events ++ eventsL ns
end

/-- Names of elements: as in XML they do not begin with `@` or `#`. -/
def GoodName (k : Str) : Prop := k.head? ≠ some '@' ∧ k.head? ≠ some '#'

mutual
/-- Well-formed: good names, no attribute given twice. -/
def Node.Good : Node → Prop
  | .elem name attrs content => GoodName name ∧ (AList.keys attrs).Nodup ∧ GoodL content
  | .text _ => True
def GoodL : List Node → Prop
  | [] => True
  | n :: ns => n.Good ∧ GoodL ns
end

/-- The texts between the tags directly inside an element, in order; `buf`: text already read. -/
def textRuns (buf : Str) : List Node → List Str
  | [] => if buf = [] then [] else [buf]
  | .text s :: ns => textRuns (buf ++ s) ns
  | .elem _ _ _ :: ns => (if buf = [] then [] else [buf]) ++ textRuns [] ns

/-- What a tag with these children holds: the child, or the list of all of them in order. -/
def collect (forced : Bool) : List Val → Val
  | [v] => if forced then .list [v] else v
  | vs => .list vs

/-- Children by tag, in the order of first appearance. -/
def grouped (fl : Str → Bool) (cs : List (Str × Val)) : Dict :=
  (cs.map Prod.fst).eraseDups.map (fun k => (k, collect (fl k) ((cs.filter (fun p => p.1 = k)).map Prod.snd)))

/-- An entry for a text, if there is one. -/
def entry (key : Str) : Option Str → Dict
  | some (c :: t) => [(key, .str (c :: t))]
  | _ => []

mutual
/-- What an element stands for: its text if it has neither attributes nor children, else the dictionary of
attributes, children, first text and second text. -/
def Node.value (fl : Str → Bool) : Node → Val
  | .elem _ attrs content =>
    let runs := (textRuns [] content).map (strip isSpace)
    let kids := kidsOf fl content
    if attrs = [] ∧ kids = [] then .str runs.flatten
    else .dict (attrs.map (fun p => ('@' :: p.1, Val.str p.2)) ++ grouped fl kids ++ entry kText runs[0]? ++ entry kTail runs[1]?)
  | .text s => .str s
/-- The child elements with their tags. -/
def kidsOf (fl : Str → Bool) : List Node → List (Str × Val)
  | [] => []
  | .text _ :: ns => kidsOf fl ns
  | .elem name attrs content :: ns => (name, Node.value fl (.elem name attrs content)) :: kidsOf fl ns
end

/-- No white space at the ends. -/
def Stripped (s : Str) : Prop := strip isSpace s = s

mutual
/-- Canonical documents: a stripped text; or attributes, then children (stripped non-empty text last), with at
least one attribute or child. -/
inductive Canon (fl : Str → Bool) : Val → Prop where
  | text (s : Str) (h : Stripped s) : Canon fl (.str s)
  | node (attrs : AList Str Str) (children : Dict) (text : Option Str)
      (h0 : attrs ≠ [] ∨ children ≠ [])
      (h1 : (AList.keys attrs).Nodup) (h2 : (AList.keys children).Nodup)
      (h3 : ∀ p ∈ children, GoodName p.1) (h4 : ∀ p ∈ children, CanonChild fl (fl p.1) p.2)
      (h5 : ∀ t, text = some t → Stripped t ∧ t ≠ []) :
      Canon fl (.dict (attrs.map (fun p => ('@' :: p.1, Val.str p.2)) ++ children ++ entry kText text))
/-- Under one tag: one canonical document, or a list of at least two; a list also for one if the tag is forced. -/
inductive CanonChild (fl : Str → Bool) : Bool → Val → Prop where
  | one (v : Val) (h : Canon fl v) : CanonChild fl false v
  | many (forced : Bool) (l : List Val) (hl : if forced then 1 ≤ l.length else 2 ≤ l.length)
      (h : ∀ v ∈ l, Canon fl v) : CanonChild fl forced (.list l)
end

end Verif.Xml
