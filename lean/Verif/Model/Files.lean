import Verif.Val
/-
Model of the file saver: /repo/ngoschema/protocols/file_loader.py 20-165.

Paths are absolute and resolved, without symbolic links: lists of components. So
`PathFileExists.convert(p, resolve=True)` (file_loader.py 36-38) is the identity (it converts only, it does not
look at the file system). Strings are sequences of Unicode scalar values: lone surrogates are not covered.
Buffering, concurrent processes, permissions and full disks are not modelled.
-/
namespace Verif.Files

abbrev Path := List Str
abbrev Bytes := List UInt8

/-- A character encoding as Python's `codecs` offers it; `none` is UnicodeError. -/
structure Codec where
  enc : Str → Option Bytes
  dec : Bytes → Option Str

/-- What a file saver writes. -/
inductive Value where
  | text (s : Str)
  | bytes (b : Bytes)
  deriving DecidableEq, Repr

/-- The file system: contents of the files, directories, and the files opened for writing so far. -/
structure FS where
  files : AList Path Bytes
  dirs : List Path
  opened : List Path
  deriving DecidableEq, Repr

def FS.isFile (fs : FS) (p : Path) : Bool := AList.contains fs.files p
def FS.isDir (fs : FS) (p : Path) : Bool := decide (p ∈ fs.dirs)
def FS.exists (fs : FS) (p : Path) : Bool := fs.isFile p || fs.isDir p

/-- `pathlib.Path.parent`. -/
def parent (p : Path) : Path := p.dropLast

/-- `os.mkdir`. -/
def mkdir (fs : FS) (p : Path) : Res FS :=
  if fs.exists p then .error .osError
  else if !fs.isDir (parent p) then .error .osError
  else .ok { fs with dirs := fs.dirs ++ [p] }

/-- `os.makedirs`; the components are given last first. -/
def makedirsRev (fs : FS) : List Str → Res FS
  | [] => mkdir fs []
  | c :: r =>
    if fs.exists r.reverse then mkdir fs (c :: r).reverse
    else match makedirsRev fs r with
      | .error e => .error e
      | .ok fs => mkdir fs (c :: r).reverse

def makedirs (fs : FS) (p : Path) : Res FS := makedirsRev fs p.reverse

/-- `open(p, 'w')` (`trunc`) or `open(p, 'a')`. -/
def openW (fs : FS) (trunc : Bool) (p : Path) : Res FS :=
  if fs.isDir p then .error .osError
  else if !fs.isDir (parent p) then .error .osError
  else .ok { fs with
    files := AList.set fs.files p (if trunc then [] else (AList.get? fs.files p).getD [])
    opened := fs.opened ++ [p] }

/-- The attributes of a saver. `κ`: names of encodings. -/
structure Saver (κ : Type) where
  binary : Bool
  charset : κ

/-- The options of one call. -/
structure Opts (κ : Type) where
  binary : Option Bool
  charset : Option κ

variable {κ : Type}

/-- file_loader.py 39-54, 79-80 `read_file(filepath)` without options, as 115 calls it. -/
def readFile (codecs : κ → Option Codec) (sv : Saver κ) (fs : FS) (p : Path) : Res Value :=
  if fs.isDir p then .error .osError
  else match AList.get? fs.files p with
    | none => .error .osError
    | some b =>
      if sv.binary then .ok (.bytes b)
      else match codecs sv.charset with
        | none => .error .lookupError
        | some c => match c.dec b with
          | none => .error .valueError
          | some s => .ok (.text s)

/-- Adds bytes at the end of an open file. -/
def put (fs : FS) (p : Path) (b : Bytes) : FS :=
  { fs with files := AList.set fs.files p ((AList.get? fs.files p).getD [] ++ b) }

/-- `with self._open_file(self, filepath, mode=mode, **opts) as f: return f.write(value)`: file_loader.py 119-120
and 128-129 with 40-48. The caller has removed `binary` from the options, so the attribute of the saver
decides how the file is opened; the option only decides on the `b` of the mode, which `codecs.open` adds
itself. `codecs.open` opens the file, then looks the encoding up. `loc`: the encoding of a plain text file. -/
def openAndWrite (codecs : κ → Option Codec) (loc : Codec) (sv : Saver κ) (o : Opts κ) (trunc : Bool) (fs : FS)
    (p : Path) (v : Value) : FS × Res Unit :=
  match openW fs trunc p with
  | .error e => (fs, .error e)
  | .ok fs =>
    if sv.binary then
      if o.binary.getD sv.binary then
        match v with
        | .text _ => (fs, .error .typeError)
        | .bytes b => (put fs p b, .ok ())
      else match v with
        | .text s => match loc.enc s with
          | none => (fs, .error .valueError)
          | some b => (put fs p b, .ok ())
        | .bytes _ => (fs, .error .typeError)
    else match codecs (o.charset.getD sv.charset) with
      | none => (fs, .error .lookupError)
      | some c => match v with
        | .bytes _ => (fs, .error .typeError)
        | .text s => match c.enc s with
          | none => (fs, .error .valueError)
          | some b => (put fs p b, .ok ())

/-- file_loader.py 104-120 `_write_file`, called by `write_file` (150-152). -/
def writeFile (codecs : κ → Option Codec) (loc : Codec) (sv : Saver κ) (o : Opts κ) (fs : FS) (p : Path)
    (v : Value) : FS × Res Unit :=
  match (if fs.exists (parent p) then .ok fs else makedirs fs (parent p)) with
  | .error e => (fs, .error e)
  | .ok fs =>
    if fs.exists p then
      match readFile codecs sv fs p with
      | .error e => (fs, .error e)
      | .ok content =>
        if v = content then (fs, .ok ())
        else openAndWrite codecs loc sv o true fs p v
    else openAndWrite codecs loc sv o true fs p v

/-- file_loader.py 122-129 `_append_file`, called by `append_file` (155-157); `@assert_arg(2, PathFileExists)`
raises ValidationError unless the path is an existing file (managers/jsch_validators.py 99-109). -/
def appendFile (codecs : κ → Option Codec) (loc : Codec) (sv : Saver κ) (o : Opts κ) (fs : FS) (p : Path)
    (v : Value) : FS × Res Unit :=
  if !fs.isFile p then (fs, .error .validationError)
  else openAndWrite codecs loc sv o false fs p v

/-- file_loader.py 131-142 `_save_file`, called by `save_file` and `save`. `ser`: `Saver._save`;
`append`: the option, else the attribute. -/
def saveFile (codecs : κ → Option Codec) (loc : Codec) (sv : Saver κ) (o : Opts κ) (ser : Value → Res Value)
    (append : Bool) (fs : FS) (p : Path) (v : Value) : FS × Res Value :=
  match ser v with
  | .error e => (fs, .error e)
  | .ok v =>
    match (if append then appendFile codecs loc sv o fs p v else writeFile codecs loc sv o fs p v) with
    | (fs, .error e) => (fs, .error e)
    | (fs, .ok _) => (fs, .ok v)

/-! ### Encodings -/

/-- UTF-8. -/
def utf8 : Codec where
  enc s := some (s.flatMap String.utf8EncodeChar)
  dec b := b.toByteArray.utf8Decode?.map Array.toList

/-- Latin-1. -/
def latin1 : Codec where
  enc s := if s.all (fun c => c.toNat < 256) then some (s.map (fun c => UInt8.ofNat c.toNat)) else none
  dec b := some (b.map (fun x => Char.ofNat x.toNat))

/-- UTF-16 as `codecs` writes it: a byte order mark at the start of what is written by each opened file.
Restricted to characters of one code unit. -/
def utf16 : Codec where
  enc s := if s.all (fun c => c.toNat < 65536) then
      some ([0xFF, 0xFE] ++ s.flatMap (fun c => [UInt8.ofNat (c.toNat % 256), UInt8.ofNat (c.toNat / 256)]))
    else none
  dec b :=
    let rec units : Bytes → Option Str
      | [] => some []
      | [_] => none
      | x :: y :: r => (units r).map (Char.ofNat (x.toNat + 256 * y.toNat) :: ·)
    match b with
    | 0xFF :: 0xFE :: r => units r
    | b => units b

end Verif.Files
