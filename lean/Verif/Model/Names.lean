import Verif.Num
import Verif.Model.ChainMap
import Verif.Model.Decor
/-
Model of /repo/ngoschema/managers/namespace_manager.py: cleaned names, canonical names of fragments and
URIs, namespaces, and the translation between canonical names and identifiers.

Simplifications: strings are lists of code points; `str.isdigit/isupper/islower` are the ASCII tests;
the result of `urllib.parse.urlparse` is the input of `uriToCname`; what `dpath.util.search` finds in a
loaded document is a parameter (`Env.search`).
-/
namespace Verif.Names
open ChainMap (Chain)
open Decor (Lru)

/-- The last piece of `s.split(sep)`. -/
def lastPart (sep : Char) (s : Str) : Str := (splitOn sep s).getLast?.getD []

/-- Complement of the character class of namespace_manager.py 15, `[^a-zA-z0-9\.\-_]`: the characters
that are not removed. The range written `A-z` is modelled as written. -/
def isKept (c : Char) : Bool :=
  ('a' ≤ c && c ≤ 'z') || ('A' ≤ c && c ≤ 'z') || ('0' ≤ c && c ≤ '9') || c == '.' || c == '-' || c == '_'

/-- `s.replace(a, b)` for two characters. -/
def replaceChar (a b : Char) (s : Str) : Str := s.map (fun c => if c = a then b else c)

/-- namespace_manager.py 19-20 `clean_js_name(name)`. -/
def cleanJsName (name : Str) : Str := replaceChar '-' '_' ((lastPart ':' name).filter isKept)

/-- namespace_manager.py 27-28 `clean_for_uri(name)`. -/
def cleanForUri (name : Str) : Str := replaceChar '_' '-' (lastPart ':' name)

/-- namespace_manager.py 160-163 `_fragment_to_cname(uri_fragment)`. -/
def fragmentToCname (frag : Str) : Str :=
  let fragments := splitOn '/' (lstrip (· == '/') frag)
  joinWith ['.'] ((fragments.zipIdx.filter
    (fun si => (si.2 + 1) % 2 == 0 || si.2 == fragments.length - 1)).map (fun si => cleanJsName si.1))

/-- The parts of `urlparse(uri)` that are used. -/
structure Url where
  netloc : Str
  path : Str
  fragment : Str
  deriving DecidableEq, Repr

/-- `cn[-1] += w`. -/
def addToLast (w : Str) : List Str → List Str
  | [] => []
  | [x] => [x ++ w]
  | x :: xs => x :: addToLast w xs

/-- Body of the loop of namespace_manager.py 172-177. -/
def pathStep (cn : List Str) (p : Str) : List Str :=
  match p with
  | [] => cn
  | c :: _ =>
    if c.isDigit && !cn.isEmpty then addToLast ('_' :: replaceChar '-' '_' p) cn
    else if !c.isDigit then cn ++ [replaceChar '-' '_' p]
    else cn

/-- namespace_manager.py 165-179 `_uri_to_cname(uri)`, on the parsed URI (the memo of line 166 is
transparent: the function is pure). -/
def uriToCname (msNetloc : Str) (u : Url) : Str :=
  let cn0 := if u.netloc ≠ msNetloc then [replaceChar '-' '_' ((splitOn '.' u.netloc).head?.getD [])]
    else []
  let name := joinWith ['.'] ((splitOn '/' u.path).foldl pathStep cn0)
  if u.fragment.isEmpty then name else name ++ fragmentToCname u.fragment

/-- `a <= b` for Python strings (lexicographic, by code point). -/
def strLe : Str → Str → Bool
  | [], _ => true
  | _ :: _, [] => false
  | a :: as, b :: bs => if a = b then strLe as bs else a.toNat ≤ b.toNat

/-- `sorted(l)[-1]` = `sorted(l, reverse=True)[0]`: the greatest element; `none` for the empty list. -/
def greatest : List Str → Option Str
  | [] => none
  | a :: l => match greatest l with
    | none => some a
    | some b => if strLe a b then some b else some a

/-- `mapping.items()`. -/
def items (c : Chain Str Str) : List (Str × Str) :=
  c.iter.filterMap (fun k => match c.getItem k with | .ok v => some (k, v) | .error _ => none)

/-- `cname.startswith(c + '.') or c == cname`. -/
def covers (c cname : Str) : Bool := (c ++ ['.']).isPrefixOf cname || c == cname

/-- What surrounds the manager: the keys of the document store in order, the canonical name of a
document URI, and the first match of `dpath.util.search` in a document (lines 145-148). -/
structure Env where
  docs : List Str
  cnameOf : Str → Str
  search : Str → List Str → Option Str

/-- namespace_manager.py 63-73 `_find_ns_by_cname`; `reg` is the chain of line 64, `none` stands for
`(None, None)`. -/
def findByCname (reg : Chain Str Str) (env : Env) (cname : Str) : Option (Str × Str) :=
  match greatest (((items reg).filter (fun cu => covers cu.1 cname)).map Prod.fst) with
  | some cn => match reg.getItem cn with
    | .ok u => some (cn, u)
    | .error _ => none
  | none => (env.docs.find? (fun u => covers (env.cnameOf u) cname)).map (fun u => (env.cnameOf u, u))

/-- `uri.split('#')[0]`. -/
def beforeHash (uri : Str) : Str := (splitOn '#' uri).head?.getD []

/-- namespace_manager.py 75-84 `_find_ns_by_uri`. -/
def findByUri (reg : Chain Str Str) (env : Env) (uri : Str) : Option (Str × Str) :=
  match greatest (((items reg).filter (fun cu => cu.2.isPrefixOf uri)).map Prod.fst) with
  | some cn => match reg.getItem cn with
    | .ok u => some (cn, u)
    | .error _ => none
  | none => if beforeHash uri ∈ env.docs then some (env.cnameOf (beforeHash uri), beforeHash uri) else none

/-- namespace_manager.py 104-115 `_get_id_cname_cached(ref, current_ns)` (its second argument is not
used by the result). `none` stands for `None`. -/
def idCname (reg : Chain Str Str) (env : Env) (ref : Str) : Option Str :=
  match findByUri reg env ref with
  | some (cn, u) =>
    let frag := if !u.isEmpty && u.isPrefixOf ref then ref.drop u.length else ref
    if !frag.isEmpty then
      let f := fragmentToCname (strip (· == '#') frag)
      some (if !cn.isEmpty then cn ++ ['.'] ++ f else f)
    else some cn
  | none => if !ref.isEmpty then some (fragmentToCname (strip (· == '#') ref)) else none

/-- namespace_manager.py 152-154, the last two segments of a computed path: `properties` for a
lower-case name under an upper-case one, at depth more than two; an empty name raises IndexError. -/
def lastKeyword (cns : List Str) : Res Str :=
  if cns.length > 2 then
    match cns.reverse with
    | (l :: _) :: (u :: _) :: _ => .ok (if u.isUpper && l.isLower then "properties".toList else "$defs".toList)
    | [] :: (u :: _) :: _ => if u.isUpper then .error .indexError else .ok "$defs".toList
    | _ => .error .indexError
  else .ok "$defs".toList

/-- namespace_manager.py 133-158 `_get_cname_id_cached(cname, current_ns)`. -/
def cnameId (reg : Chain Str Str) (env : Env) (cname currentNs : Str) : Res Str :=
  let ns := findByCname reg env cname
  let fragment := match ns with
    | some (n, _) => cname.drop n.length
    | none => cname
  let cns := match splitOn '.' fragment with
    | [] :: rest => rest
    | l => l
  let uri? := match ns with
    | some (_, u) => some u
    | none => none
  let finish (parts : List Str) : Res Str :=
    let u? := match uri? with
      | some [] | none => (findByCname reg env currentNs).map Prod.snd
      | some u => some u
    match u? with
    | none => .error .typeError
    | some u => .ok (joinWith ['/'] ((u ++ (if '#' ∈ u then [] else ['#'])) :: parts))
  let compute : Res Str :=
    match lastKeyword cns with
    | .error e => .error e
    | .ok kw => finish ((cns.dropLast.flatMap (fun c => ["$defs".toList, c])) ++ [kw, cns.getLast?.getD []])
  if fragment.isEmpty then finish []
  else match uri? with
    | some u =>
      if u ∈ env.docs then
        match env.search u cns with
        | some x => .ok (u ++ (if '#' ∈ u then ['/'] else ['#', '/']) ++ x)
        | none => compute
      else compute
    | none => compute

/-- A `NamespaceManager`: `_local`, the parents, the namespaces of the type builder (shared by all
managers), the current namespace and its URI, and the two caches of lines 37-38. -/
structure Mgr where
  loc : AList Str Str
  parents : List (Chain Str Str)
  builder : AList Str Str
  cur : Str
  curUri : Str
  idCache : Lru (Str × Str) (Option Str)
  cnCache : Lru (Str × Str) Str

/-- namespace_manager.py 36-41 `NamespaceManager(*parents, **local)`. -/
def Mgr.init (parents : List (Chain Str Str)) (loc builder : AList Str Str) : Mgr :=
  { loc := if AList.contains loc [] then loc else AList.set loc [] ['#'],
    parents, builder, cur := [], curUri := ['#'],
    idCache := ⟨some 1024, []⟩, cnCache := ⟨some 1024, []⟩ }

/-- `self._registry`, line 41. -/
def Mgr.registry (m : Mgr) : Chain Str Str := .chain (.dict m.loc :: m.parents)

/-- `ChainMap(self._registry, self._builder_ns)`, lines 64 and 76. -/
def Mgr.reg (m : Mgr) : Chain Str Str := .chain [m.registry, .dict m.builder]

/-- namespace_manager.py 43-46 `add(uri, name)`; `name = none` derives the name (`cnameOf`). -/
def Mgr.add (env : Env) (m : Mgr) (uri : Str) (name : Option Str) : Res Mgr :=
  let uri? : Res Str :=
    if (beforeHash uri).isEmpty then
      match m.registry.getItem [] with
      | .ok d => .ok (beforeHash d ++ uri)
      | .error e => .error e
    else .ok uri
  match uri? with
  | .error e => .error e
  | .ok uri => .ok { m with loc := AList.set m.loc (match name with | some n => n | none => env.cnameOf uri) uri }

/-- namespace_manager.py 48-53 `set_current(name)`. -/
def Mgr.setCurrent (m : Mgr) (name : Str) : Res Mgr :=
  match greatest (m.registry.iter.filter (fun k => k.isPrefixOf name)) with
  | none => .error .assertionError
  | some cname => match m.registry.getItem cname with
    | .error e => .error e
    | .ok u => .ok { m with cur := cname, curUri := u, loc := AList.set m.loc [] u }

/-- namespace_manager.py 181-186 `register_ns(uri, cname)`, on the shared table. -/
def registerNs (env : Env) (builder : AList Str Str) (uri : Str) (cname : Option Str) : AList Str Str :=
  let nsUri := beforeHash uri
  let name := match cname with
    | some (c :: cs) => c :: cs
    | _ => env.cnameOf nsUri
  if AList.contains builder name then builder else AList.set builder name nsUri

/-- namespace_manager.py 93-102, what is done with the name when `relative` is asked. -/
def relativeName (rcn cname : Str) : Str :=
  if !rcn.isEmpty && rcn.isPrefixOf cname then
    match splitOn '.' (cname.drop rcn.length) with
    | [] :: rest => joinWith ['.'] rest
    | _ => rcn
  else cname

/-- namespace_manager.py 93-102 `get_id_cname(ref, relative)`. -/
def Mgr.getIdCname (env : Env) (m : Mgr) (ref : Str) (relative : Bool) : Res (Option Str) × Mgr :=
  match m.idCache.call (fun k => .ok (idCname m.reg env k.1)) (ref, m.cur) with
  | (.error e, _, c) => (.error e, { m with idCache := c })
  | (.ok none, _, c) =>
    -- `cname.startswith` on None
    (if relative && !m.cur.isEmpty then .error .attributeError else .ok none, { m with idCache := c })
  | (.ok (some cname), _, c) =>
    (.ok (some (if relative then relativeName m.cur cname else cname)), { m with idCache := c })

/-- The loop of namespace_manager.py 121-123: each further dot drops the last name. `rcn` is reversed. -/
def climb : List Str → Str → Res (List Str × Str)
  | _, [] => .error .indexError
  | rcn, c :: cs =>
    if c = '.' then
      match rcn with
      | [] => .error .indexError
      | _ :: rcn => climb rcn cs
    else .ok (rcn, c :: cs)

/-- namespace_manager.py 118-124: a name starting with a dot is relative to the current namespace. -/
def resolveDots (cur cname : Str) : Res Str :=
  match cname with
  | '.' :: rest => match climb (splitOn '.' cur).reverse rest with
    | .error e => .error e
    | .ok (rcn, name) => .ok (joinWith ['.'] (rcn.reverse ++ [name]))
  | _ => .ok cname

/-- namespace_manager.py 126-128: an identifier in the current document is given relative to it. -/
def relativeId (curUri id : Str) : Str :=
  let u := beforeHash curUri ++ ['#']
  if u.isPrefixOf id then id.drop (strip (· == '#') u).length else id

/-- namespace_manager.py 117-129 `get_cname_id(cname)`. -/
def Mgr.getCnameId (env : Env) (m : Mgr) (cname : Str) : Res Str × Mgr :=
  match resolveDots m.cur cname with
  | .error e => (.error e, m)
  | .ok cname =>
    match m.cnCache.call (fun k => cnameId m.reg env k.1 k.2) (cname, m.cur) with
    | (.error e, _, c) => (.error e, { m with cnCache := c })
    | (.ok id, _, c) => (.ok (relativeId m.curUri id), { m with cnCache := c })

/-- Operations of a program using one manager. -/
inductive NsOp where
  | add (uri : Str) (name : Option Str)
  | setCurrent (name : Str)
  | registerNs (uri : Str) (cname : Option Str)
  | askCname (ref : Str) (relative : Bool)
  | askId (cname : Str)

/-- One operation; a failing one leaves the manager as it was (the caches do not keep failures). -/
def Mgr.step (env : Env) (m : Mgr) : NsOp → Mgr
  | .add uri name => match m.add env uri name with | .ok m' => m' | .error _ => m
  | .setCurrent name => match m.setCurrent name with | .ok m' => m' | .error _ => m
  | .registerNs uri cname => { m with builder := registerNs env m.builder uri cname }
  | .askCname ref relative => (m.getIdCname env ref relative).2
  | .askId cname => (m.getCnameId env cname).2

/-- A history of operations. -/
def Mgr.run (env : Env) (m : Mgr) (ops : List NsOp) : Mgr := ops.foldl (Mgr.step env) m

end Verif.Names
