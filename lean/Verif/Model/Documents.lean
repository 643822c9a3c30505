import Verif.Val
/-
Documents: /repo/ngoschema/models/files.py 39-63 (`File`), 66-117 (`FileInfo`), 120-135 (`UriFile`), 138-223 (`Document`), with the properties
computed and kept by /repo/ngoschema/protocols/object_protocol.py 66-109 and the loading of files by
/repo/ngoschema/protocols/file_loader.py 39-67.

Simplifications. Contents are documents of type `Val`, None being `Val.none`; they are compared for equality as such. A
file has bytes; what text or value they give in a mode and an encoding is the parameter `load`, what the encoder makes of
it the parameter `parse`. Documents are loaded lazily (148), so the setter of `binary` (56-57) is called when `binary` is
read (object_protocol.py 83-84, 99). The getter of `contentRaw` is that of `UriFile` (126-130), where the property is
declared (ngoschema.json 472-486); that of `Document` (158-163) is not used (object_protocol.py 727-738). The dependencies
declared by decorators are known (object_protocol.py 697-701), which needs the package ngoinsp. Writing to the file system
is the parameter `put`.
-/
namespace Verif.Documents

abbrev Path := Str
abbrev Bytes := List UInt8

/-- The file system. -/
abbrev Fs := AList Path Bytes

/-- What is done with files and contents. `load binary charset bytes`: file_loader.py 63-67; `parse`: the encoder;
`put append content old`: file_loader.py 107-129, on a file that has the bytes `old` or is missing. -/
structure Env where
  load : Bool → Str → Bytes → Res Val
  parse : Val → Res Val
  put : Bool → Val → Option Bytes → Res Bytes

/-- A computed property: its value and what it depended on when it was computed. -/
structure Cache (ι : Type) where
  value : Val := .none
  inputs : Option ι := none
deriving DecidableEq

/-- A document. `binary`, `charset`: the properties; `usedBinary`, `usedCharset`: `_binary` and `_charset`. -/
structure Doc where
  path : Option Path := none
  uri : Option Str := none
  binary : Bool := false
  charset : Str := "utf-8".toList
  usedBinary : Bool := false
  usedCharset : Str := "utf-8".toList
  raw : Cache (Option Path × Option Str) := {}
  content : Cache (Option Val) := {}
deriving DecidableEq

/-- files.py 47-51, 123-124, 153-156 `__init__`: `meta_opts` has `binary` only, so the encoding of the saver is its
default (file_loader.py 27, 33). -/
def make (path : Option Path) (uri : Option Str) (binary : Bool) (charset : Str) : Doc :=
  { path, uri, binary, charset, usedBinary := binary }

/-- uri_resolver.py 191-192 on the value of a property of type `uri`, a `ParseResult`: `urldefrag` takes texts and bytes,
it calls `decode` of all else. -/
def resolveUri (_ : Str) : Res Val := .error .attributeError

/-- files.py 126-130, 59-63: the getter of `contentRaw`. -/
def getRaw (env : Env) (fs : Fs) (d : Doc) : Res Val :=
  match d.uri with
  | some u => resolveUri u
  | none => match d.path with
    | none => .ok .none
    | some p => match AList.get? fs p with
      | none => .ok .none
      | some b => env.load d.usedBinary d.usedCharset b

/-- object_protocol.py 66-89 for `contentRaw`, which depends on `filepath` and `uri`; `content`, which depends on it, is
invalidated when it is computed (collection_protocol.py 92-98, 169-178). -/
def readRaw (env : Env) (fs : Fs) (d : Doc) : Res Val × Doc :=
  if d.raw.value = .none ∨ d.raw.inputs ≠ some (d.path, d.uri) then
    match getRaw env fs d with
    | .error e => (.error e, d)
    | .ok v => (.ok v, { d with raw := ⟨v, some (d.path, d.uri)⟩, content := {} })
  else (.ok d.raw.value, d)

/-- Assigning `filepath` (collection_protocol.py 92-98, 169-178). -/
def setPath (p : Path) (d : Doc) : Doc :=
  if d.path = some p then d else { d with path := some p, raw := {}, content := {} }

/-- Assigning `binary`, which nothing is declared to depend on. -/
def setBinary (b : Bool) (d : Doc) : Doc := { d with binary := b }

/-- Reading `binary`, with its setter (files.py 56-57). -/
def readBinary (d : Doc) : Bool × Doc := (d.binary, { d with usedBinary := d.binary })

/-- files.py 179-185: the getter of `content`; `r`: what reading `contentRaw` gives or raises. -/
def getContent (env : Env) (binary : Bool) (r : Res Val) : Val :=
  if binary then .none
  else match r with
    | .error _ => .none
    | .ok x => match env.parse x with
      | .error _ => .none
      | .ok v => v

/-- What is recorded of a reading. -/
def result : Res Val → Option Val
  | .ok v => some v
  | .error _ => none

/-- object_protocol.py 66-89 for `content`, which depends on `contentRaw`; what cannot be read is left out of the inputs
(collection_protocol.py 104-108). -/
def readContent (env : Env) (fs : Fs) (d : Doc) : Res Val × Doc :=
  match readRaw env fs d with
  | (r, d) =>
    if d.content.value = .none ∨ d.content.inputs ≠ some (result r) then
      match readBinary d with
      | (b, d) => (.ok (getContent env b r), { d with content := ⟨getContent env b r, some (result r)⟩ })
    else (.ok d.content.value, d)

/-- files.py 212-219 `write`. -/
def write (env : Env) (append : Bool) (content : Val) (d : Doc) (fs : Fs) : Res Unit × Fs :=
  match d.path with
  | some p => match env.put append content (AList.get? fs p) with
    | .error e => (.error e, fs)
    | .ok b => (.ok (), AList.set fs p b)
  | none => match d.uri with
    | some _ => (.error .exception, fs)
    | none => (.ok (), fs)

/-- files.py 187-192 `del_file`. -/
def delFile (d : Doc) (fs : Fs) : Res Unit × Fs :=
  match d.path with
  | none => (.error .attributeError, fs)
  | some p => if AList.contains fs p then (.ok (), AList.erase fs p) else (.error .valueError, fs)

/-- files.py 173-177: the getter of `doc_id`. A content that is not empty has `get` if it is an object. -/
def getDocId : Val → Res Val
  | .dict d => .ok ((AList.get? d "$id".toList).getD .none)
  | v => if v.truthy then .error .attributeError else .ok .none

/-- The last part of a path. -/
def lastPart (p : Str) : Str := (splitOn '/' p).getLastD []

/-- files.py 221-223 `filename`: a `ParseResult` has no `split`, nor has None. -/
def filename (d : Doc) : Res Str :=
  match d.path with
  | some p => .ok (lastPart p)
  | none => .error .attributeError

/-- What `FileInfo` computes of a file (files.py 71-88, 99-117): with no path `stat` is asked of None, and `uri` of the
`FileInfo`. -/
def ask {α : Type} (f : Bytes → α) (fs : Fs) : Option Path → Res α
  | none => .error .attributeError
  | some p => match AList.get? fs p with
    | none => .error .osError
    | some b => .ok (f b)

/-- object_protocol.py 66-89 for a property that depends on nothing: it is computed until there is a value. -/
def readKept {α : Type} (compute : Res α) : Option α → Res α × Option α
  | some v => (.ok v, some v)
  | none => match compute with
    | .error e => (.error e, none)
    | .ok v => (.ok v, some v)

end Verif.Documents
