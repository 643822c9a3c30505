import Verif.Model.Uri
/-
Relationships, /repo/ngoschema/managers/relationship_builder.py 33-89, and the repositories of a session,
/repo/ngoschema/session.py 50-61, /repo/ngoschema/protocols/repository.py 15-25,
/repo/ngoschema/repositories/file_repositories.py 55-57.

Simplified: the class made for a relationship (`ObjectProtocol.build(id, {}, bases, attrs)`, which does not fail here) is
the attributes given to it; `default_ns_manager.get_id_cname(id)`, which only names it, is left out; the relationship is
built without attributes of its own (`attrs` empty, as in object_protocol.py 603, 610, 617); the schema is given (57-58
resolve it otherwise); `_ordering` and `_reverse` (73-74) are left out; each entry of `backPopulates` is a mapping that has
a `foreignSchema`, its `repr` is a parameter; `type_builder.load` is a function, which builds no relationship itself.
-/
namespace Verif.Relations

/-- What `type_builder.load` gives: a stand-in of a class under construction, or a class with its primary keys. -/
inductive Cls where
  | proxy
  | built (pks : List Str)
  deriving DecidableEq, Repr

/-- The schema of a relationship. `back`: names and foreign schemas of the entries of `backPopulates`. -/
structure Schema where
  foreignSchema : Str
  foreignKeys : List Str := []
  cardinality : Option Str := none
  back : List (Str × Str) := []
  deriving DecidableEq, Repr

/-- The attributes of the class of a relationship. -/
structure Rel where
  id : Str
  foreignSchema : Str
  foreignClass : Cls
  cardinality : Str
  foreignKeys : List Str
  one2many : Bool
  deriving DecidableEq, Repr

/-- `a in s` for texts. -/
def hasSub (a : Str) : Str → Bool
  | [] => a.isEmpty
  | c :: s => a.isPrefixOf (c :: s) || hasSub a s

abbrev oneTo : Str := ['O', 'n', 'e', 'T', 'o']
abbrev oneToOne : Str := ['O', 'n', 'e', 'T', 'o', 'O', 'n', 'e']
abbrev slashRel : Str := "/relationships".toList

/-- `s.split(sep)[0]` for a non-empty separator. -/
def before (sep : Str) : Str → Str
  | [] => []
  | c :: s => if sep.isPrefixOf (c :: s) then [] else c :: before sep s

/-- relationship_builder.py 60-78: the class made. -/
def make (id fs : Str) (fc : Cls) (s : Schema) : Rel :=
  let card := s.cardinality.getD oneToOne
  { id := id, foreignSchema := fs, foreignClass := fc, cardinality := card,
    foreignKeys := match fc with
      | .proxy => s.foreignKeys
      | .built pks => if s.foreignKeys.isEmpty then pks else s.foreignKeys,
    one2many := !hasSub oneTo card }

/-- The registry, and the relationships entered in `_localRelationships` of foreign classes (class, name). -/
structure State where
  registry : AList Str Rel
  reverse : AList (Str × Str) Rel
  deriving DecidableEq, Repr

/-- relationship_builder.py 49-89 without `backPopulates`. -/
def buildPlain (load : Str → Res Cls) (id : Str) (s : Schema) (st : State) : State × Res Rel :=
  match AList.get? st.registry id with
  | some r => (st, .ok r)
  | none =>
    let fs := Uri.scope s.foreignSchema id
    match load fs with
    | .error e => (st, .error e)
    | .ok fc => ({ st with registry := AList.set st.registry id (make id fs fc s) }, .ok (make id fs fc s))

/-- relationship_builder.py 79-87, the loop: an exception ends it. A mapping `bp` is no key: `_localRelationships[bp]`
raises TypeError once the relationship to be stored is built. `rep`: `f'{bp}'`. -/
def backLoop (load : Str → Res Cls) (rep : Str × Str → Str) (id fs : Str) : List (Str × Str) → State → State × Res Unit
  | [], st => (st, .ok ())
  | bp :: bps, st =>
    match load (Uri.scope bp.2 id) with
    | .error e => (st, .error e)
    | .ok .proxy => backLoop load rep id fs bps st
    | .ok (.built _) =>
      match buildPlain load (fs ++ slashRel ++ ['/'] ++ rep bp) { foreignSchema := before slashRel id } st with
      | (st, .error e) => (st, .error e)
      | (st, .ok _) => (st, .error .typeError)

/-- relationship_builder.py 49-89 `build(id, schema)`. -/
def build (load : Str → Res Cls) (rep : Str × Str → Str) (id : Str) (s : Schema) (st : State) : State × Res Rel :=
  match AList.get? st.registry id with
  | some r => (st, .ok r)
  | none =>
    let fs := Uri.scope s.foreignSchema id
    match load fs with
    | .error e => (st, .error e)
    | .ok fc =>
      match backLoop load rep id fs s.back st with
      | (st, .error e) => (st, .error e)
      | (st, .ok _) => ({ st with registry := AList.set st.registry id (make id fs fc s) }, .ok (make id fs fc s))

/-! ### Repositories of a session -/

/-- A repository: its class name, and which object it is. -/
structure Repo where
  cls : Str
  obj : Nat
  deriving DecidableEq, Repr

/-- All sessions: their repositories, by session; the default session (358); `fresh` is the next object. Simplified:
`session.repositories` is the list of the repositories appended to it. -/
structure Sessions where
  repos : Nat → List Repo
  dflt : Nat
  fresh : Nat

/-- session.py 50-52 `bind_repo(repo)`. -/
def bind (s : Sessions) (i : Nat) (r : Repo) : Sessions :=
  { s with repos := fun j => if j = i then s.repos j ++ [r] else s.repos j }

/-- Making a repository of the class `c`, file_repositories.py 55-57: the session given is kept by
`ObjectProtocol.__init__` for its context (collection_protocol.py 37, 49) and is no item of the repository, so that
`Repository.__init__(self, **self)` gets no session and binds the repository to `self._session`, the default session
(repository.py 15, 22-23). `early`, `late`: the exception a class raises before or after that, if any. -/
def makeRepo (early late : Str → Option Exc) (c : Str) (s : Sessions) : Sessions × Res Repo :=
  match early c with
  | some e => (s, .error e)
  | none =>
    let r : Repo := ⟨c, s.fresh⟩
    let s := bind { s with fresh := s.fresh + 1 } s.dflt r
    match late c with
    | some e => (s, .error e)
    | none => (s, .ok r)

/-- session.py 54-61 `get_or_create_repo(name)` of session `i`; `reg` is `repositories_registry`: names and the names of
the classes. `None(session=self)` for a name that is not registered. -/
def getOrCreate (early late : Str → Option Exc) (reg : AList Str Str) (i : Nat) (name : Str) (s : Sessions) :
    Sessions × Res Repo :=
  match (s.repos i).find? (fun r => r.cls == name) with
  | some r => (s, .ok r)
  | none => match AList.get? reg name with
    | none => (s, .error .typeError)
    | some c => makeRepo early late c s

/-- The registrations of file_repositories.py 49, 99, 125, 150. -/
def repositoriesRegistry : AList Str Str :=
  [("file".toList, "FileRepository".toList), ("json".toList, "JsonFileRepository".toList),
   ("yaml".toList, "YamlFileRepository".toList), ("xml".toList, "XmlFileRepository".toList)]

end Verif.Relations
