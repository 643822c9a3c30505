import Verif.Num
/-
Model of the XML reader and writer: /repo/ngoschema/utils/xmltodict.py, and of the XML (de)serialiser
/repo/ngoschema/serializers/xml_serializer.py.

XML text itself is not modelled: `XMLGenerator` and expat are third party. The writer produces, and the reader
consumes, a sequence of events. What expat does to these events between the two is modelled: with
`buffer_text` adjacent texts arrive as one event, and empty ones do not arrive (texts are assumed shorter than
the buffer; the handler fed with a text in several pieces is covered by C107).
Options left at their defaults: `item_depth=0`, `xml_attribs=True`, `attr_prefix='@'`, `cdata_key='#text'`,
`cdata_tail_key='#tail'`, `force_cdata=False`, `cdata_separator=''`, `strip_whitespace=True`, no pre- or
postprocessor, no namespaces, no comments, `expand_iter=None`.
-/
namespace Verif.Xml

abbrev Dict := AList Str Val

def kText : Str := "#text".toList
def kTail : Str := "#tail".toList
def kXmlns : Str := "@xmlns".toList

inductive Event where
  | start (name : Str) (attrs : AList Str Str)
  | chars (s : Str)
  | stop (name : Str)
  deriving DecidableEq, Repr

/-! ### Reading -/

/-- The state of `_DictSAXHandler` (xmltodict.py 52-57). -/
structure H where
  item : Option Dict
  data : List Str
  stack : List (Option Dict × List Str)
  deriving DecidableEq

/-- xmltodict.py 167-186 `push_data` and 188-196 `_should_force_list`; `fl`: the tags of `force_list`. -/
def pushData (fl : Str → Bool) (item : Option Dict) (key : Str) (v : Val) : Dict :=
  let d := item.getD []
  match AList.get? d key with
  | some (.list l) => AList.set d key (.list (l ++ [v]))
  | some w => AList.set d key (.list [w, v])
  | none => AList.set d key (if fl key then .list [v] else v)

/-- xmltodict.py 92-115 `startElement`. -/
def startElement (h : H) (attrs : AList Str Str) : H :=
  { item := if attrs = [] then none
      else some (AList.update [] (attrs.map (fun p => ('@' :: p.1, Val.str p.2))))
    data := []
    stack := (h.item, h.data) :: h.stack }

/-- xmltodict.py 137-139 and 144-146: a text is added unless there is none or it is empty. -/
def pushText (fl : Str → Bool) (item : Dict) (key : Str) : Option Str → Dict
  | some (c :: t) => pushData fl (some item) key (.str (c :: t))
  | _ => item

/-- xmltodict.py 120-155 `endElement`. The item is complete before it is pushed here; in the code the tail is
added to it after, through the reference. -/
def endElement (fl : Str → Bool) (h : H) (name : Str) : H :=
  match h.stack with
  | [] => { item := none, data := [], stack := [] }
  | (parent, pdata) :: stack =>
    let data := h.data.map (strip isSpace)
    match h.item with
    | some item =>
      let item := pushText fl (pushText fl item kText data[0]?) kTail data[1]?
      { item := some (pushData fl parent name (.dict item)), data := pdata, stack := stack }
    | none =>
      { item := some (pushData fl parent name (.str data.flatten)), data := pdata, stack := stack }

/-- xmltodict.py 157-161 `characters`. -/
def characters (h : H) (s : Str) : H := { h with data := h.data ++ [s] }

/-- The handler on one event. -/
def handle (fl : Str → Bool) (h : H) : Event → H
  | .start _ attrs => startElement h attrs
  | .chars s => characters h s
  | .stop name => endElement fl h name

/-- expat with `buffer_text` (xmltodict.py 314): pending text is delivered before the next tag. -/
def flush (buf : Str) (h : H) : H := if buf = [] then h else characters h buf

def feed (fl : Str → Bool) (s : Str × H) : Event → Str × H
  | .start name attrs => ([], handle fl (flush s.1 s.2) (.start name attrs))
  | .chars t => (s.1 ++ t, s.2)
  | .stop name => ([], handle fl (flush s.1 s.2) (.stop name))

/-- xmltodict.py 199-334 `parse`, on events. -/
def parse (fl : Str → Bool) (evs : List Event) : Option Dict := (evs.foldl (feed fl) ([], ⟨none, [], []⟩)).2.item

/-! ### Writing -/

/-- `pretty`: the indentation and the end of line. -/
structure Cfg where
  pretty : Bool
  newl : Str
  indent : Str
  str : Val → Str     -- `str(v)`

def isChildKey (k : Str) : Bool := !(k = kText) && !(k = kTail) && !(k.head? = some '@')

/-- xmltodict.py 423-431: one attribute (a dictionary of `@xmlns` holds the prefixes). -/
def setAttr (str : Val → Str) (acc : AList Str Str) (name : Str) : Val → AList Str Str
  | .str s => AList.set acc name s
  | .dict e =>
    if '@' :: name = kXmlns then
      e.foldl (fun acc p => AList.set acc (if p.1 = [] then "xmlns".toList else "xmlns:".toList ++ p.1) (str p.2)) acc
    else AList.set acc name (str (.dict e))
  | v => AList.set acc name (str v)

/-- xmltodict.py 413-432: the attributes of an element. -/
def attrsOf (str : Val → Str) : Dict → AList Str Str → AList Str Str
  | [], acc => acc
  | ('@' :: name, v) :: d, acc => attrsOf str d (setAttr str acc name v)
  | _ :: d, acc => attrsOf str d acc

/-- `content_handler.characters(text)` when `text is not None` (`XMLGenerator.characters`: false values are
skipped, others must be strings). -/
def charsOf : Option Val → Res (List Event)
  | none => .ok []
  | some .none => .ok []
  | some v =>
    if v.truthy then
      match v with
      | .str s => .ok [.chars s]
      | _ => .error .typeError
    else .ok []

def ws (c : Cfg) (s : Str) : List Event := if c.pretty then [.chars s] else []

/-- `depth * indent`. -/
def times : Nat → Str → Str
  | 0, _ => []
  | n + 1, s => s ++ times n s

/-- xmltodict.py 433-452, given the events of the children. -/
def wrap (c : Cfg) (depth : Nat) (key : Str) (d : Dict) (children : Res (List Event)) : Res (List Event) := do
  let hasChildren := d.any (fun p => isChildKey p.1)
  let text ← charsOf (AList.get? d kText)
  let kids ← children
  let tail ← charsOf (AList.get? d kTail)
  return ws c (times depth c.indent) ++ [.start key (attrsOf c.str d [])] ++ (if hasChildren then ws c c.newl else [])
    ++ text ++ kids ++ (if hasChildren then ws c (times depth c.indent) else []) ++ tail ++ [.stop key]
    ++ (if depth = 0 then [] else ws c c.newl)

/-- xmltodict.py 395-408: what stands for a value that is no dictionary. -/
def leafDict (c : Cfg) : Val → Dict
  | .none => []
  | .bool true => [(kText, .str "true".toList)]
  | .bool false => [(kText, .str "false".toList)]
  | .str s => [(kText, .str s)]
  | v => [(kText, .str (c.str v))]

mutual
/-- xmltodict.py 369-452 `_emit`. -/
def emit (c : Cfg) (full : Bool) (depth : Nat) (key : Str) : Val → Res (List Event)
  | .list l => emitItems c full depth key 0 l
  | .dict d => wrap c depth key d (emitChildren c (depth + 1) d)
  | v => wrap c depth key (leafDict c v) (.ok [])
/-- xmltodict.py 392-452, the loop. -/
def emitItems (c : Cfg) (full : Bool) (depth : Nat) (key : Str) (index : Nat) : List Val → Res (List Event)
  | [] => .ok []
  | .dict d :: rest => do
    if full ∧ depth = 0 ∧ index > 0 then .error .valueError
    else
      let a ← wrap c depth key d (emitChildren c (depth + 1) d)
      let b ← emitItems c full depth key (index + 1) rest
      return a ++ b
  | v :: rest => do
    if full ∧ depth = 0 ∧ index > 0 then .error .valueError
    else
      let a ← wrap c depth key (leafDict c v) (.ok [])
      let b ← emitItems c full depth key (index + 1) rest
      return a ++ b
/-- xmltodict.py 440-445: the children of an element. -/
def emitChildren (c : Cfg) (depth : Nat) : List (Str × Val) → Res (List Event)
  | [] => .ok []
  | (k, v) :: rest =>
    if isChildKey k then do
      let a ← emit c true depth k v
      let b ← emitChildren c depth rest
      return a ++ b
    else emitChildren c depth rest
end

/-- xmltodict.py 468-485, the loop of `unparse` over the roots. -/
def emitRoots (c : Cfg) (full : Bool) : Dict → Res (List Event)
  | [] => .ok []
  | (k, v) :: rest => do
    let a ← emit c full 0 k v
    let b ← emitRoots c full rest
    return a ++ b

/-- xmltodict.py 455-491 `unparse`. -/
def unparse (c : Cfg) (full : Bool) (d : Dict) : Res (List Event) :=
  if full ∧ d.length ≠ 1 then .error .valueError else emitRoots c full d

/-! ### The serialiser -/

/-- The keyword parameters of `_emit` (xmltodict.py 369-382). -/
def emitParams : List Str :=
  ["attr_prefix", "cdata_key", "cdata_tail_key", "depth", "preprocessor", "pretty", "newl", "indent",
   "namespace_separator", "namespaces", "full_document", "expand_iter"].map (·.toList)

/-- xmltodict.py 455-491 `unparse` called with further keyword arguments, which it hands to `_emit`. A keyword
that `_emit` does not have is a TypeError. -/
def unparseKw (c : Cfg) (full : Bool) (kwargs : List Str) (d : Dict) : Res (List Event) :=
  if full ∧ d.length ≠ 1 then .error .valueError
  else if d ≠ [] ∧ kwargs.any (· ∉ emitParams) then .error .typeError
  else emitRoots c full d

/-- xml_serializer.py 102-121 `_serialize_xml`, after the value has been serialised; `opts`: the names of the
options of the call (each is passed on too). -/
def serializeXml (c : Cfg) (opts : List Str) (tag : Str) (v : Val) : Res (List Event) :=
  unparseKw c true (["attr_prefix", "cdata_key", "force_list", "pretty", "indent", "newl"].map (·.toList) ++ opts) [(tag, v)]

/-- The handler fed with texts as they come, without buffering (what it gets when a text is longer than the
buffer). -/
def parseRaw (fl : Str → Bool) (evs : List Event) : Option Dict := (evs.foldl (handle fl) ⟨none, [], []⟩).item

/-- xml_serializer.py 36-57 `_deserialize_xml` on a document; `tag`: the attribute `_tag`, kept from call to
call. `Serializer._deserialize`, applied to the dictionary in between, is taken to leave it as it is. -/
def deserializeXml (fl : Str → Bool) (tag : Option Str) (evs : List Event) : Option Str × Res Val :=
  match parse fl evs with
  | none => (tag, .error .attributeError)
  | some value =>
    let tag' : Res (Option Str) := match tag with
      | some (c :: t) => .ok (some (c :: t))
      | _ => match AList.keys value with
        | [k] => .ok (some k)
        | _ => .error .typeError
    match tag' with
    | .error e => (tag, .error e)
    | .ok t => match t.bind (AList.get? value) with
      | some v => (t, .ok v)
      | none => (t, .error .keyError)

end Verif.Xml
