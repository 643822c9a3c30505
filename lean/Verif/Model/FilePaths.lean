import Verif.Val
/-
Model of URIs and paths of files as values: /repo/ngoschema/types/uri.py 19-63 (`Uri`) and 118-170 (`Path`).

Simplifications. Paths are those of POSIX. A URL stands for the text `geturl()` gives. What urllib and the file system do
is arbitrary (`World`): the text of a parsed URL, quoting, resolving, expanding `~`, `str` of a parsed URL. The
evaluation of a text is arbitrary, None where an expression gives None.
-/
namespace Verif.FilePaths

/-- A `pathlib.PosixPath`: 0, 1 or 2 leading slashes, and the names. -/
structure PPath where
  root : Nat
  parts : List Str
  deriving DecidableEq

/-- The leading slashes that `pathlib` keeps: exactly two are two, more are one. -/
def slashes (s : Str) : Nat :=
  match (s.takeWhile (· == '/')).length with
  | 0 => 0
  | 2 => 2
  | _ => 1

/-- `pathlib.Path(text)`: empty names and `.` are dropped. -/
def parse (s : Str) : PPath where
  root := slashes s
  parts := (splitOn '/' s).filter fun x => x ≠ [] && x ≠ ['.']

/-- `str(path)`. -/
def render (p : PPath) : Str :=
  if p.root = 0 ∧ p.parts = [] then ['.'] else List.replicate p.root '/' ++ joinWith ['/'] p.parts

/-- A value: None, a text, a path, a parsed URL (by its text), or the parsed URL of bytes that `urlparse(None)` gives. -/
inductive V where
  | none
  | text (s : Str)
  | path (p : PPath)
  | url (s : Str)
  | bytes
  deriving DecidableEq

/-- What surrounds: the evaluation of texts, urllib and the file system. -/
structure World where
  ev : Str → Option Str
  norm : Str → Str
  quote : Str → Str
  unquote : Str → Str
  resolve : PPath → PPath
  expandUser : PPath → PPath
  strUrl : Str → Str

/-- uri.py 37-49 `Uri._convert`. A `ParseResultBytes` is no `ParseResult`: it is written as a text. -/
def uriConvert (w : World) : V → Res V
  | .none => .ok .bytes
  | .text s => match w.ev s with
    | none => .ok .bytes
    | some x => .ok (.url (w.norm x))
  | .path p => .ok (.url (w.norm ("file://".toList ++ w.quote (render (w.resolve p)))))
  | .url s => .ok (.url s)
  | .bytes => .ok (.url (w.norm "ParseResultBytes(scheme=b'', netloc=b'', path=b'', params=b'', query=b'', fragment=b'')".toList))

/-- What JSON data a serialised value is: a text, or bytes. -/
inductive Out where
  | text (s : Str)
  | bytes
  deriving DecidableEq

/-- uri.py 51-59 `Uri._serialize`. -/
def uriSerialize (w : World) (v : V) : Res Out :=
  match uriConvert w v with
  | .ok (.url s) => .ok (.text s)
  | .ok _ => .ok .bytes
  | .error e => .error e

/-- uri.py 137-153 `Path._convert`. -/
def pathConvert (w : World) (resolve expand : Bool) (v : V) : Res V :=
  let typed : Res V := match v with
    | .url s => .ok (.path (parse (w.unquote s)))
    | .none => .ok .none
    | .text [] => .ok (.text [])
    | .text s => match w.ev s with
      | none => .error .typeError
      | some x => .ok (.path (parse x))
    | .path p => match w.ev (render p) with
      | none => .error .typeError
      | some x => .ok (.path (parse x))
    | .bytes => .ok (.path (parse "ParseResultBytes(scheme=b'', netloc=b'', path=b'', params=b'', query=b'', fragment=b'')".toList))
  match typed with
  | .error e => .error e
  | .ok (.path p) =>
    let p := if expand then w.expandUser p else p
    .ok (.path (if resolve then w.resolve p else p))
  | .ok t => if expand || resolve then .error .attributeError else .ok t

/-- uri.py 155-166 `Path._serialize`. Contexts have no `find_file_repository`. -/
def pathSerialize (w : World) (relative : Bool) (v : V) : Res Str :=
  if relative then .error .attributeError
  else .ok (match v with
    | .none => "None".toList
    | .text s => s
    | .path p => render p
    | .url s => w.strUrl s
    | .bytes => "ParseResultBytes(scheme=b'', netloc=b'', path=b'', params=b'', query=b'', fragment=b'')".toList)

end Verif.FilePaths
