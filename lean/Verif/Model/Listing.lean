import Verif.Model.Names
import Verif.Model.Uri
import Verif.Model.Refs
import Verif.Model.Query
/-
Model of what /repo/ngoschema/managers/namespace_manager.py lists: `__contains__`, `available_namespaces`, `namespaces`
and `get_cname_definitions`.

Simplifications: those of Model/Names and Model/Uri. `_uri_to_cname` is the parameter `Env.cnameOf`. What is asked
of `in` is a text or a module; a module is its attributes, texts.
-/
namespace Verif.Listing
open ChainMap (Chain)
open Names (Env Mgr findByCname)

/-- namespace_manager.py 195-198 `available_namespaces()`: a later document takes the place of an earlier one of the same
name. -/
def available (env : Env) : AList Str Str := env.docs.foldl (fun d u => AList.set d (env.cnameOf u) u) []

/-- namespace_manager.py 205, the chain. -/
def known (env : Env) (m : Mgr) : Chain Str Str := .chain [m.registry, .dict m.builder, .dict (available env)]

/-- namespace_manager.py 204-209 `namespaces(contains)`; `contains=None` is the empty text (line 207 tests its truth). -/
def namespaces (env : Env) (m : Mgr) (sub : Str) : List (Str × Str) :=
  let ns := known env m
  let nsk := if sub.isEmpty then ns.iter else ns.iter.filter (fun n => Query.isInfix sub n)
  (Refs.sortNames nsk).filterMap (fun k => match ns.getItem k with | .ok u => some (k, u) | .error _ => none)

/-- What can be asked of `in`. -/
inductive Item where
  | text (s : Str)
  | module (attrs : AList Str Str)
  deriving DecidableEq, Repr

/-- namespace_manager.py 90-91. -/
def isInText (env : Env) (m : Mgr) (s : Str) : Bool :=
  match findByCname m.reg env s with
  | some (n, u) => !n.isEmpty && !u.isEmpty
  | none => false

/-- namespace_manager.py 86-91 `item in manager`. -/
def isIn (env : Env) (m : Mgr) : Item → Res Bool
  | .module attrs => match AList.get? attrs "__module__".toList with
    | none => .error .attributeError
    | some s => .ok (isInText env m s)
  | .text s => .ok (isInText env m s)

/-- namespace_manager.py 214-216 for one keyword: `doc.get(tag, {}).items()`. -/
def defsOf (cname uri : Str) (doc : AList Str Val) (tag : Str) (acc : AList Str Str) : Res (AList Str Str) :=
  match AList.get? doc tag with
  | none => .ok acc
  | some (.dict ds) =>
    .ok (ds.foldl (fun acc kv => AList.set acc (cname ++ ['.'] ++ kv.1) (uri ++ ['/'] ++ tag ++ ['/'] ++ kv.1)) acc)
  | some _ => .error .attributeError

/-- namespace_manager.py 211-217 `get_cname_definitions(cname)`. The store of documents of the resolver is `s`. Line 212
asks `get_id_cname`, which goes from an identifier to a name; with nothing found `resolve_uri(None)` is a
TypeError. -/
def cnameDefinitions (norm unq : Str → Str) (env : Env) (m : Mgr) (s : Uri.Store Val) (cname : Str) : Res (AList Str Str) :=
  match (m.getIdCname env cname false).1 with
  | .error e => .error e
  | .ok none => .error .typeError
  | .ok (some uri) => match (Uri.resolveUri norm unq s uri).1 with
    | .error e => .error e
    | .ok (.dict doc) => match defsOf cname uri doc "$defs".toList [] with
      | .error e => .error e
      | .ok acc => defsOf cname uri doc "definitions".toList acc
    | .ok _ => .error .attributeError

end Verif.Listing
