import Verif.Val
/-
Model of the loading of schemas and of modules: /repo/ngoschema/loaders/schemas.py, loaders/module.py, the registration of
documents in resolvers/uri_resolver.py 92-145, and the transfer of values in protocols/loader.py, protocols/transformer.py and
protocols/resolver.py; the size in words of models/files.py 92-99.

Simplifications. Documents are kept under normalised URIs (`UriDict`), the normalisation is arbitrary; the optional store of
the caller is left out (`load_module_schemas` hands on the store of documents itself). Files are the results of reading and
parsing them. `inflection.parameterize`, modules, paths, the file system and `ngofile` are arbitrary.
-/
namespace Verif.Loading

/-! ### Schemas -/

/-- `UriResolver._doc_store`, uri_resolver.py 93. -/
abbrev Docs := AList Str Val

/-- The document registered under a URI, `_doc_store.get(uri)`. -/
def lookup (norm : Str → Str) (d : Docs) (uri : Str) : Option Val := AList.get? d (norm uri)

/-- uri_resolver.py 106-108 `register_doc`. -/
def registerDoc (norm : Str → Str) (d : Docs) (doc : Val) (uri : Str) : Docs := AList.set d (norm uri) doc

/-- schemas.py 25-26 `_id_of`. -/
def idOf (s : List (Str × Val)) : Val :=
  match AList.get? s "$id".toList with
  | some v => v
  | none => (AList.get? s "id".toList).getD .none

/-- `s.rstrip('#')`. -/
def rstrip (s : Str) : Str := (s.reverse.dropWhile (· == '#')).reverse

/-- schemas.py 42-43: the title is the name of a schema with an empty one. -/
def nameOf (param : Val → Str) : Str → Option Val → Str
  | [], some t => param t
  | u, _ => u

/-- schemas.py 29-54 `load_schema`, without store of the caller. `param`: `inflection.parameterize` of the text of the title.
A schema without name is refused by SchemaError. -/
def loadSchema (norm : Str → Str) (param : Val → Str) (d : Docs) (s : List (Str × Val)) : Res (Str × Docs) :=
  match idOf s with
  | .str i =>
    let uri := nameOf param (rstrip i) (AList.get? s "title".toList)
    if uri = [] then .error .exception else .ok (uri, registerDoc norm d (.dict s) uri)
  | _ => .error .attributeError

/-- A file: its name without suffix, and what reading and parsing it gives. -/
structure File where
  stem : Str
  content : Res Val

/-- schemas.py 57-76 `load_schema_file`. -/
def loadFile (norm : Str → Str) (param : Val → Str) (d : Docs) (f : File) : Res (Str × Docs) :=
  match f.content with
  | .error e => .error e
  | .ok (.dict s) =>
    loadSchema norm param d (if AList.contains s "$id".toList then s else s ++ [("$id".toList, .str f.stem)])
  | .ok _ => .error .attributeError

/-- module.py 110-115, the loop of `load_module_schemas` over the files that `list_files` gives. -/
def loadAll (norm : Str → Str) (param : Val → Str) (d : Docs) : List File → Docs
  | [] => d
  | f :: fs => match loadFile norm param d f with
    | .ok (_, d') => loadAll norm param d' fs
    | .error _ => loadAll norm param d fs

/-- uri_resolver.py 143-144. -/
def given (res : Str → Res Val) (uri : Str) : Option Val → Res Val
  | some s => .ok s
  | none => res uri

/-- uri_resolver.py 110-145 `UriResolver.create`: the registered documents afterwards, and those of the resolver. `res`:
`resolve_uri`. The copy is a plain dictionary. -/
def create (norm : Str → Str) (res : Str → Res Val) (d : Docs) (uri : Str) (schema : Option Val) : Res (Docs × Docs) :=
  let doc := uri.takeWhile (· != '#')
  match lookup norm d doc with
  | some v => let d' := registerDoc norm d v doc; .ok (d', d')
  | none => match given res uri schema with
    | .error e => .error e
    | .ok s => if d.isEmpty then let d' := registerDoc norm d s uri; .ok (d', d') else .ok (d, AList.set d uri s)

/-! ### Modules -/

/-- Modules, paths and files. `parent m`: the directory of the module, or the error of importing it. -/
structure Fs where
  parent : Str → Res Str
  join : Str → Str → Str
  exist : Str → Bool

/-- The registry of a loader: the folders of each module. -/
abbrev Folders := AList Str (List Str)

/-- module.py 26-38 `register`, of a module and the name of its folder. -/
def register (fs : Fs) (r : Folders) (m sub : Str) : Res (Str × Folders) :=
  match fs.parent m with
  | .error e => .error e
  | .ok dir =>
    let folder := fs.join dir sub
    if fs.exist folder then
      let l := (AList.get? r m).getD []
      .ok (folder, AList.set r m (if folder ∈ l then l else l ++ [folder]))
    else .ok (folder, r)

/-- A sequence of registrations; those that fail change nothing. -/
def registerAll (fs : Fs) (r : Folders) : List (Str × Str) → Folders
  | [] => r
  | (m, sub) :: l => match register fs r m sub with
    | .ok (_, r') => registerAll fs r' l
    | .error _ => registerAll fs r l

/-- module.py 55-68 `find_one`; `pick`: `PathList(*folders).pick_first(path)`. -/
def findOne {α : Type} (pick : List Str → Str → α) (r : Folders) (name : Str) : α :=
  let name := name.map fun c => if c = '\\' then '/' else c
  let all := (r.map Prod.snd).flatten
  if '/' ∈ name then
    match AList.get? r (name.takeWhile (· != '/')) with
    | some l => pick l ((name.dropWhile (· != '/')).drop 1)
    | none => pick all name
  else pick all name

/-! ### Transfer of values -/

/-- transformer.py 23-31 `_transform`; `mk` is the class made. -/
def transform_ (conv mk : Val → Res Val) (convert : Bool) (v : Val) : Res Val :=
  match (if convert then conv v else .ok v) with
  | .error e => .error e
  | .ok w => mk w

/-- transformer.py 36-39 `transform`. -/
def transform (conv mk : Val → Res Val) (convert : Bool) (v : Val) : Res Val :=
  match (if convert then conv v else .ok v) with
  | .error e => .error e
  | .ok w => transform_ conv mk convert w

/-- A loop over values. -/
def each (f : Val → Res Val) : List Val → Res (List Val)
  | [] => .ok []
  | v :: vs => match f v with
    | .error e => .error e
    | .ok w => match each f vs with
      | .error e => .error e
      | .ok ws => .ok (w :: ws)

/-- loader.py 28-29 `Loader._load` of one value; `mk`: the class of instances, if any. -/
def load (deser : Val → Res Val) (mk : Option (Val → Res Val)) (v : Val) : Res Val :=
  match deser v with
  | .error e => .error e
  | .ok w => match mk with
    | none => .ok w
    | some f => f w

/-- loader.py 22-26 `Loader._load` of many values; `split`: what the array type makes of what is no list. -/
def loadMany (split : Val → Res (List Val)) (deser : Val → Res Val) (mk : Option (Val → Res Val)) (v : Val) :
    Res (List Val) :=
  match split v with
  | .error e => .error e
  | .ok l => match each deser l with
    | .error e => .error e
    | .ok l' => match mk with
      | none => .ok l'
      | some f => each f l'

/-- `raise x`, of what is no exception. -/
def raised {α : Type} : Res α → Exc
  | .error e => e
  | .ok _ => .typeError

/-- loader.py 31-33 and 58-60, resolver.py 20-22 `__call__`, which raises what `_load`, `_save` or `_resolve` gives. -/
def call {α : Type} (f : Val → Res α) (v : Val) : Res α := .error (raised (f v))

/-! ### Sizes in words -/

/-- What `get_contentSizeHuman` gives: tenths and unit, or a plain number (`num` over `den`). -/
inductive Size where
  | text (tenths : Nat) (unit : Nat)
  | number (num den : Nat)
  deriving DecidableEq

/-- `%.1f`: the nearest number of tenths, the even one of two. -/
def tenths (num den : Nat) : Nat :=
  let q := 10 * num / den
  let r := 10 * num % den
  if 2 * r < den then q else if den < 2 * r then q + 1 else if q % 2 = 0 then q else q + 1

/-- files.py 94-99: `left` units are left, beginning with unit `u`. -/
def humanFrom : Nat → Nat → Nat → Nat → Size
  | 0, _, num, den => .number num den
  | left + 1, u, num, den => if num < 1024 * den then .text (tenths num den) u else humanFrom left (u + 1) num (den * 1024)

/-- files.py 93-99 `get_contentSizeHuman`, of sizes that are exact as floats (below 2^53). -/
def human (n : Nat) : Size := humanFrom 5 0 n 1

end Verif.Loading
