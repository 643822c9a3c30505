import Verif.Model.XmlNs
/-
Reading XML with the options of `parse`: /repo/ngoschema/utils/xmltodict.py 30-66, 84-196 (`_DictSAXHandler`).

Simplifications: `item_depth=0` (see `Verif.XmlStream`), no namespaces (see `Verif.XmlNs`). A document is the sequence of
calls expat makes of the handler: a text is one call unless tags or comments stand inside. A postprocessor and a callable
`force_list` are functions of their arguments that do not raise; a postprocessor leaves the value it is given as it is.
-/
namespace Verif.XmlOptions
open Xml XmlNs

/-- `self.path`: names and attributes of the open elements, outermost first. -/
abbrev Path := List (Str × AList Str Str)

/-- What a postprocessor returns: None, another name with the same object, another name and value. -/
inductive Post where
  | drop
  | same (key : Str)
  | other (key : Str) (v : Val)

/-- The option `force_list`: None or False; True; names in a collection; a text; a function of path, name and value. -/
inductive Force where
  | never
  | always
  | names (ks : List Str)
  | text (s : Str)
  | call (f : Path → Str → Val → Bool)

/-- xmltodict.py 31-48. -/
structure O where
  attribs : Bool := true
  attrPrefix : Str := "@".toList
  textKey : Str := "#text".toList
  tailKey : Str := "#tail".toList
  commentKey : Str := "#comment".toList
  forceCdata : Bool := false
  separator : Str := []
  strip : Bool := true
  post : Option (Path → Str → Val → Post) := none
  force : Force := .never

/-- xmltodict.py 49-66; `names` and the attributes of the path are given at each call. -/
structure S where
  path : Path
  item : Option Dict
  data : List Str
  stack : List (Option Dict × List Str)
  deriving DecidableEq

/-- `key in text`: as a part of it. -/
def within (key : Str) : Str → Bool
  | [] => key.isEmpty
  | c :: s => key.isPrefixOf (c :: s) || within key s

/-- xmltodict.py 188-196 `_should_force_list`; what is empty is as None. -/
def forced (o : O) (path : Path) (key : Str) (v : Val) : Bool :=
  match o.force with
  | .never => false
  | .always => true
  | .names ks => ks.contains key
  | .text s => !s.isEmpty && within key s
  | .call f => f path.dropLast key v

/-- xmltodict.py 173-186; `seen`: the value at the time of the call, to which a tail may be added later. -/
def put (o : O) (path : Path) (item : Option Dict) (key : Str) (v seen : Val) : Dict :=
  let d := item.getD []
  match AList.get? d key with
  | some (.list l) => AList.set d key (.list (l ++ [v]))
  | some w => AList.set d key (.list [w, v])
  | none => AList.set d key (if forced o path key seen then .list [v] else v)

/-- xmltodict.py 167-186 `push_data`. -/
def pushData (o : O) (path : Path) (item : Option Dict) (key : Str) (v seen : Val) : Option Dict :=
  match o.post with
  | none => some (put o path item key v seen)
  | some p => match p path key seen with
    | .drop => item
    | .same k => some (put o path item k v seen)
    | .other k w => some (put o path item k w w)

/-- xmltodict.py 103-109: the entry of an attribute. -/
def attr (o : O) (path : Path) (a : Str × Str) : Option (Str × Val) :=
  let key := o.attrPrefix ++ a.1
  match o.post with
  | none => some (key, .str a.2)
  | some p => match p path key (.str a.2) with
    | .drop => none
    | .same k => some (k, .str a.2)
    | .other k w => some (k, w)

/-- xmltodict.py 101-114. -/
def attrItem (o : O) (path : Path) (attrs : AList Str Str) : Option Dict :=
  if o.attribs then
    match attrs.filterMap (attr o path) with
    | [] => none
    | e :: es => some (AList.update [] (e :: es))
  else none

/-- xmltodict.py 92-115 `startElement`. -/
def startElement (o : O) (s : S) (name : Str) (attrs : AList Str Str) : S :=
  let path := s.path ++ [(name, attrs)]
  { path := path, item := attrItem o path attrs, data := [], stack := (s.item, s.data) :: s.stack }

/-- xmltodict.py 137-139, 144-146: a text is added unless it is missing or empty. -/
def pushText (o : O) (path : Path) (item : Dict) (key : Str) : Option Str → Dict
  | some (c :: t) => (pushData o path (some item) key (.str (c :: t)) (.str (c :: t))).getD item
  | _ => item

/-- xmltodict.py 133-138: the item of an element with texts. -/
def opened (o : O) (item : Option Dict) (data : List Str) : Option Dict :=
  if (data[0]?.getD [] ≠ [] ∨ data[1]?.getD [] ≠ []) ∧ o.forceCdata = true ∧ item = none then some [] else item

/-- xmltodict.py 131-149: what an element of the given item and texts does to the item around it; `path` ends with it. -/
def close (o : O) (path : Path) (name : Str) (item : Option Dict) (data : List Str) (parent : Option Dict) : Option Dict :=
  let data := if o.strip then data.map (Verif.strip isSpace) else data
  match opened o item data with
  | some it =>
    let it := pushText o path it o.textKey data[0]?
    pushData o path parent name (.dict (pushText o path it o.tailKey data[1]?)) (.dict it)
  | none =>
    let t := .str (joinWith o.separator data)
    pushData o path parent name t t

/-- xmltodict.py 117-155 `endElement`. -/
def endElement (o : O) (s : S) (name : Str) : S :=
  match s.stack with
  | [] => ⟨s.path.dropLast, none, [], []⟩
  | (parent, pdata) :: stack => ⟨s.path.dropLast, close o s.path name s.item s.data parent, pdata, stack⟩

/-- xmltodict.py 162-165 `comments`. -/
def comments (o : O) (s : S) (t : Str) : S :=
  let t := .str (if o.strip then Verif.strip isSpace t else t)
  { s with item := pushData o s.path s.item o.commentKey t t }

/-- The handler on one call; 157-161 `characters`. -/
def handle (o : O) (s : S) : Ev → S
  | .ev (.start name attrs) => startElement o s name attrs
  | .ev (.chars t) => { s with data := s.data ++ [t] }
  | .ev (.stop name) => endElement o s name
  | .comment t => comments o s t

/-- xmltodict.py 199-334 `parse`: `handler.item` at the end. -/
def parse (o : O) (evs : List Ev) : Option Dict := (evs.foldl (handle o) ⟨[], none, [], []⟩).item

end Verif.XmlOptions
