import Verif.Model.Builder
/-
Model of `SchemaMetaclass.__new__` (/repo/ngoschema/protocols/type_protocol.py 167-181): how a class statement becomes
a request to the type builder.
Simplifications: the schemas are mappings from keywords to values; the registered nodes are a mapping from their URI to
the node (`resolve_uri` gives the node itself, not a copy, resolvers/uri_resolver.py 72-79), so a node written through
one URI is not seen under the URI of a node around it; how `build` reads the keywords is the parameter `read`; the
Python bases matter here by their `_id` only (`build` hands them to the protocols, `Model/Classes.lean`).
-/
namespace Verif.Defining
open Verif.Builder (Id Cls Req St Cfg Schema run)

/-- A schema: keywords and their values. -/
abbrev Kw := AList Str Val

/-- A class statement: the name, the `_id` of each base that has one, and `_schema` and `_id` of the body. -/
structure Stmt where
  name : Str
  bases : List (Option Str)
  own : Option Kw
  id : Option Str

/-- Line 171, `not schema`. -/
def empty : Option Kw → Bool
  | none => true
  | some d => d.isEmpty

/-- Line 175: `schema.setdefault('type', 'object')`. -/
def typed (d : Kw) : Kw :=
  if AList.contains d "type".toList then d else AList.set d "type".toList (.str "object".toList)

/-- Line 174. -/
def extended (bs : List (Option Str)) (d : Kw) : Kw :=
  AList.set d "extends".toList (.list ((bs.filterMap fun b => b).map fun i => .str i))

/-- Line 176: `id or clsname`. -/
def ident (c : Stmt) : Id :=
  match c.id with
  | some (ch :: i) => ch :: i
  | _ => c.name

/-- Line 171, `id` counts: there is one and it is not empty. -/
def named (c : Stmt) : Bool :=
  match c.id with
  | some (_ :: _) => true
  | _ => false

/-- Lines 169-175: the schema handed to `build`; the registered nodes and the `_schema` of the body afterwards. -/
def prepare (docs : AList Id Val) (c : Stmt) : Res Kw × AList Id Val × Option Kw :=
  if empty c.own && named c then
    match AList.get? docs (ident c) with
    | none => (.error .exception, docs, c.own)
    | some (.dict d) => (.ok (typed d), AList.set docs (ident c) (.dict (typed d)), c.own)
    | some _ => (.error .attributeError, docs, c.own)
  else
    let d := c.own.getD []
    let d1 := typed (if c.bases.isEmpty then d else extended c.bases d)
    (.ok d1, docs, c.own.map fun _ => d1)

/-- Lines 178-179. -/
def forget (i : Id) (s : St) : St :=
  if AList.contains s.registry i then { s with registry := AList.erase s.registry i } else s

/-- Lines 167-181, to a given depth of calls: the class, the registered nodes, the `_schema` of the body and the state
of the builder. -/
def define (read : Kw → Schema) (cfg : Cfg) (n : Nat) (docs : AList Id Val) (c : Stmt) (s : St) :
    Option (Res Cls × AList Id Val × Option Kw × St) :=
  match prepare docs c with
  | (.error e, docs', own) => some (.error e, docs', own, s)
  | (.ok d, docs', own) =>
    match run cfg n (.build (ident c) (some (read d))) (forget (ident c) s) with
    | none => none
    | some (out, s') => some (out, docs', own, s')

end Verif.Defining
