import Verif.Model.Xml
/-
Writing XML with other keys for attributes and texts: /repo/ngoschema/utils/xmltodict.py 369-491, the options `attr_prefix`,
`cdata_key` and `cdata_tail_key`.

Simplifications: as in `Verif.Xml` for the other options.
-/
namespace Verif.XmlKeys
open Xml

/-- xmltodict.py 370-372. -/
structure K where
  pre : Str
  text : Str
  tail : Str

/-- xmltodict.py 418-437: what is neither text, tail nor attribute is a child. -/
def isChild (q : K) (k : Str) : Bool := !(k = q.text) && !(k = q.tail) && !(q.pre.isPrefixOf k)

/-- xmltodict.py 424-436, one attribute: the key of the declarations is `@xmlns`, whatever the prefix is. -/
def setAttr (q : K) (str : Val → Str) (acc : AList Str Str) (key : Str) : Val → AList Str Str
  | .str s => AList.set acc (key.drop q.pre.length) s
  | .dict e =>
    if key = kXmlns then
      e.foldl (fun acc p => AList.set acc (if p.1 = [] then "xmlns".toList else "xmlns:".toList ++ p.1) (str p.2)) acc
    else AList.set acc (key.drop q.pre.length) (str (.dict e))
  | v => AList.set acc (key.drop q.pre.length) (str v)

/-- xmltodict.py 413-437: the attributes of an element. -/
def attrsOf (q : K) (str : Val → Str) : Dict → AList Str Str → AList Str Str
  | [], acc => acc
  | (k, v) :: d, acc =>
    if k = q.text ∨ k = q.tail then attrsOf q str d acc
    else if q.pre.isPrefixOf k then attrsOf q str d (setAttr q str acc k v)
    else attrsOf q str d acc

/-- xmltodict.py 413-452, given the events of the children. -/
def wrap (q : K) (c : Cfg) (depth : Nat) (key : Str) (d : Dict) (children : Res (List Event)) : Res (List Event) := do
  let hasChildren := d.any (fun p => isChild q p.1)
  let text ← charsOf (AList.get? d q.text)
  let kids ← children
  let tail ← charsOf (if q.tail = q.text then none else AList.get? d q.tail)
  return ws c (times depth c.indent) ++ [.start key (attrsOf q c.str d [])] ++ (if hasChildren then ws c c.newl else [])
    ++ text ++ kids ++ (if hasChildren then ws c (times depth c.indent) else []) ++ tail ++ [.stop key]
    ++ (if depth = 0 then [] else ws c c.newl)

/-- xmltodict.py 395-412: what stands for a value that is no dictionary. -/
def leafDict (q : K) (c : Cfg) : Val → Dict
  | .none => []
  | .bool true => [(q.text, .str "true".toList)]
  | .bool false => [(q.text, .str "false".toList)]
  | .str s => [(q.text, .str s)]
  | v => [(q.text, .str (c.str v))]

mutual
/-- xmltodict.py 369-452 `_emit`. -/
def emit (q : K) (c : Cfg) (full : Bool) (depth : Nat) (key : Str) : Val → Res (List Event)
  | .list l => emitItems q c full depth key 0 l
  | .dict d => wrap q c depth key d (emitChildren q c (depth + 1) d)
  | v => wrap q c depth key (leafDict q c v) (.ok [])
/-- xmltodict.py 392-452, the loop. -/
def emitItems (q : K) (c : Cfg) (full : Bool) (depth : Nat) (key : Str) (index : Nat) : List Val → Res (List Event)
  | [] => .ok []
  | .dict d :: rest => do
    if full ∧ depth = 0 ∧ index > 0 then .error .valueError
    else
      let a ← wrap q c depth key d (emitChildren q c (depth + 1) d)
      let b ← emitItems q c full depth key (index + 1) rest
      return a ++ b
  | v :: rest => do
    if full ∧ depth = 0 ∧ index > 0 then .error .valueError
    else
      let a ← wrap q c depth key (leafDict q c v) (.ok [])
      let b ← emitItems q c full depth key (index + 1) rest
      return a ++ b
/-- xmltodict.py 440-445: the children of an element. -/
def emitChildren (q : K) (c : Cfg) (depth : Nat) : List (Str × Val) → Res (List Event)
  | [] => .ok []
  | (k, v) :: rest =>
    if isChild q k then do
      let a ← emit q c true depth k v
      let b ← emitChildren q c depth rest
      return a ++ b
    else emitChildren q c depth rest
end

/-- xmltodict.py 478-480. -/
def emitRoots (q : K) (c : Cfg) (full : Bool) : Dict → Res (List Event)
  | [] => .ok []
  | (k, v) :: rest => do
    let a ← emit q c full 0 k v
    let b ← emitRoots q c full rest
    return a ++ b

/-- xmltodict.py 455-491 `unparse`. -/
def unparse (q : K) (c : Cfg) (full : Bool) (d : Dict) : Res (List Event) :=
  if full ∧ d.length ≠ 1 then .error .valueError else emitRoots q c full d

/-- expat with `buffer_text` (xmltodict.py 314) as in `Verif.Xml.feed`: the calls of the handler for what was written. A text is
one call, an empty one none. -/
def merge : Str → List Event → List Event
  | _, [] => []
  | buf, .chars t :: es => merge (buf ++ t) es
  | buf, .start name attrs :: es => (if buf = [] then [] else [.chars buf]) ++ .start name attrs :: merge [] es
  | buf, .stop name :: es => (if buf = [] then [] else [.chars buf]) ++ .stop name :: merge [] es

end Verif.XmlKeys
