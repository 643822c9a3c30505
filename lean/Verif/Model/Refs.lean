import Verif.Model.Uri
import Verif.Model.Names
import Verif.Model.Builder
/-
Commands found by name, URLs relative to others, URIs resolved by the documents registered, and documents that are loaded
and unloaded:
/repo/ngoschema/cli/__init__.py 40-58, /repo/ngoschema/resolvers/uri_resolver.py 82-89, 190-205,
/repo/ngoschema/models/files.py 173-177, 197-210.

Simplifications:
* The folder of the commands is the package `<module>.commands`; a module of a package is the file of its name, without
  a dot in it (a name with a dot asks for a package in the package). `inflection.underscore` as in `Verif.Builder`, ASCII.
* A URL is its network location, the segments of its path (an absolute path: what stands between the slashes), its query
  and its fragment. `posixpath.relpath` and `abspath` work on the segments, `cwd` being those of the current directory.
* No document is loaded from the network.
* The content of a document is a dictionary; `$id` in it is a text. `Document.id` is its property `$id`.
-/
namespace Verif.Refs
open Uri (urldefrag resolveFragment)

/-! ### Commands -/

/-- `inflection.dasherize`. -/
def dasherize (s : Str) : Str := s.map fun c => if c = '_' then '-' else c

/-- cli/__init__.py 43. -/
def isCommand (file : Str) : Bool := ".py".toList.isSuffixOf file && "cmd_".toList.isPrefixOf file

/-- cli/__init__.py 44: `filename[4:-3]`. -/
def nameOf (file : Str) : Str := dasherize ((file.take (file.length - 3)).drop 4)

def insertName (x : Str) : List Str → List Str
  | [] => [x]
  | y :: l => if Names.strLe x y then x :: y :: l else y :: insertName x l

/-- cli/__init__.py 45 `rv.sort()`. -/
def sortNames (l : List Str) : List Str := l.foldr insertName []

/-- cli/__init__.py 40-46 `list_commands`. -/
def listCommands (files : List Str) : List Str := sortNames ((files.filter isCommand).map nameOf)

/-- cli/__init__.py 48-58 `get_command`: the file of the command. -/
def getCommand (files : List Str) (name : Str) : Option Str :=
  let mod := "cmd_".toList ++ Builder.underscore name
  let file := mod ++ ".py".toList
  if '.' ∉ mod ∧ file ∈ files then some file else none

/-! ### Relative URLs -/

structure Url where
  netloc : Str
  path : List Str
  query : Str
  fragment : Str
  deriving DecidableEq, Repr

/-- `posixpath.normpath` of an absolute path: `acc` are the segments so far, the last first. -/
def normSegs (acc : List Str) : List Str → List Str
  | [] => acc.reverse
  | s :: l =>
    if s = [] ∨ s = ['.'] then normSegs acc l
    else if s = ['.', '.'] then normSegs acc.tail l
    else normSegs (s :: acc) l

/-- `posixpath.commonprefix` of two lists, and what is left of them. -/
def splitCommon : List Str → List Str → List Str × List Str
  | a :: as, b :: bs => if a = b then splitCommon as bs else (a :: as, b :: bs)
  | as, bs => (as, bs)

/-- `posixpath.relpath(path, start)`, the segments. -/
def relpath (cwd path start : List Str) : List Str :=
  let r := splitCommon (normSegs [] (cwd ++ start)) (normSegs [] (cwd ++ path))
  let l := List.replicate r.1.length ['.', '.'] ++ r.2
  if l = [] then [['.']] else l

/-- uri_resolver.py 82-89 `relative_url`. -/
def relativeUrl (cwd : List Str) (target base : Url) : Res (List Str) :=
  if base.netloc ≠ target.netloc then .error .valueError else .ok (relpath cwd target.path base.path.dropLast)

/-! ### URIs of documents -/

/-- uri_resolver.py 190-205 `UriResolver._resolve(self, value)`. -/
def uriResolve (norm unq : Str → Str) (docs : AList Str Val) (value : Str) : Res Val :=
  let u := urldefrag value
  match docs.get? (norm u.1) with
  | some doc => if u.2 = [] then .ok doc else resolveFragment unq doc u.2
  | none => .ok .none

structure Document where
  id : Option Str
  content : Option (AList Str Val)
  deriving DecidableEq, Repr

/-- models/files.py 173-177 `get_doc_id`. -/
def docId (d : Document) : Option Str :=
  match d.content with
  | some c => match c.get? "$id".toList with
    | some (.str i) => some i
    | _ => none
  | none => none

/-- models/files.py 197-200 `load`. -/
def load (norm : Str → Str) (d : Document) (docs : AList Str Val) : AList Str Val :=
  match docId d with
  | some i => if i = [] then docs else docs.set (norm i) (.dict (d.content.getD []))
  | none => docs

/-- models/files.py 206-210 `unload`. -/
def unload (norm : Str → Str) (d : Document) (docs : AList Str Val) : Document × AList Str Val :=
  ({ d with content := none }, match d.id with
    | some i => if i = [] then docs else docs.erase (norm i)
    | none => docs)

end Verif.Refs
