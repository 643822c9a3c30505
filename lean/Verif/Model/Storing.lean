import Verif.Val
/-
Model of repositories and of the classes of stored objects: /repo/ngoschema/protocols/repository.py, `FileRepository` of
repositories/file_repositories.py 49-79, reading by serializers/json_serializer.py 37-45; the choice of the class of an object by
`$schema` (protocols/object_protocol.py 155-163, 213-217); inputs of collections (types/object.py 229-239, types/array.py
189-199); types that count as false (types/constants.py 25-27, types/object.py 164-167, 215-220, types/array.py 105-117).

Simplifications. Serialisation, saving, encoding and the file system are arbitrary. Classes are their identifiers; what
`type_builder.load` gives for an identifier is the class with it, or an error. Sets are lists of which the members matter.
-/
namespace Verif.Storing

/-! ### Repositories -/

/-- `Repository._content`: a list if `_many`, else any value. -/
structure Repo where
  many : Bool
  list : List Val := []
  single : Val := .none
  deriving DecidableEq

/-- What `list.extend` takes from a value. -/
def iterated : Val → Res (List Val)
  | .list l => .ok l
  | .str s => .ok (s.map fun c => .str [c])
  | .dict d => .ok (d.map fun p => .str p.1)
  | _ => .error .typeError

/-- repository.py 31-38 `Repository._commit`. -/
def commit (ser : Val → Res Val) (save : Bool) (r : Repo) (v : Val) : Res Unit × Repo :=
  match (if save then ser v else .ok v) with
  | .error e => (.error e, r)
  | .ok w => if r.many then
      match iterated w with
      | .error e => (.error e, r)
      | .ok l => (.ok (), { r with list := r.list ++ l })
    else (.ok (), { r with single := w })

/-- Commits one after the other; those that fail change nothing. -/
def commits (ser : Val → Res Val) (save : Bool) (r : Repo) : List Val → Repo
  | [] => r
  | v :: vs => commits ser save (commit ser save r v).2 vs

/-- `x in y`. -/
def isIn (x : Val) : Val → Res Bool
  | .list l => .ok (decide (x ∈ l))
  | .dict d => match x with
    | .str k => .ok (AList.contains d k)
    | .list _ => .error .typeError
    | .dict _ => .error .typeError
    | _ => .ok false
  | .str s => match x with
    | .str t => .ok (decide (t <:+: s))
    | _ => .error .typeError
  | _ => .error .typeError

/-- repository.py 53-54 `__contains__`. -/
def contains (r : Repo) (x : Val) : Res Bool := isIn x (if r.many then .list r.list else r.single)

/-- repository.py 40-42 `dump`. -/
def dump (ser : Val → Res Val) (r : Repo) : Res Val := ser (if r.many then .list r.list else r.single)

/-- The files and directories a file repository sees. -/
structure Disk where
  files : AList Str Val
  dirs : List Str
  deriving DecidableEq

/-- file_repositories.py 60-79 `FileRepository._commit`: `save` is what the saver does to the value, `enc` the encoder,
`parent` the directory of a path. `doc` and `fpath` are names that are not defined. -/
def commitFile (save enc : Val → Res Val) (parent : Str → Str) (path : Option Str) (r : Repo) (d : Disk) (v : Val) :
    Res Unit × Repo × Disk :=
  match commit save true r v with
  | (.error e, r') => (.error e, r', d)
  | (.ok _, r') => match enc (if r'.many then .list r'.list else r'.single) with
    | .error e => (.error e, r', d)
    | .ok _ => match path with
      | none => (.error .attributeError, r', d)
      | some p => (.error .nameError, r',
          if parent p ∈ d.dirs then d else { d with dirs := parent p :: d.dirs })

/-- json_serializer.py 42-45: `JSONEncoder` has no `decode`. `des`: the deserializer. -/
def readJson (des : Str → Res Str) (s : Str) : Res Val :=
  match des s with
  | .error e => .error e
  | .ok _ => .error .attributeError

/-! ### Classes named by the data -/

/-- `scope`, `Id.convert` and `type_builder.load`, which fails or gives the class of the identifier; `sub c d`: is `c` a
subclass of `d`? -/
structure Classes where
  scope : Str → Str → Str
  convert : Str → Res Str
  load : Str → Res Unit
  sub : Str → Str → Bool

/-- The class named by data, and the data without the name: object_protocol.py 158-160 (and 213-215). -/
def named (c : Classes) (cls : Str) (d : AList Str Val) : Res (Option Str) × AList Str Val :=
  match AList.get? d "$schema".toList with
  | some (.str s) => if s = [] then (.ok none, d) else
      (match c.convert (c.scope s cls) with
      | .error e => .error e
      | .ok i => .ok (some i), AList.erase d "$schema".toList)
  | some v => if Val.truthy v then (.error .attributeError, AList.erase d "$schema".toList) else (.ok none, d)
  | none => (.ok none, d)

/-- What calling a class with data gives: the class of the instance and how often it was initialised; and the dictionary of
the caller afterwards. -/
structure Made where
  result : Res (Str × Nat)
  given : AList Str Val

/-- object_protocol.py 155-163 `__new__`, and `__init__` of Python's `type.__call__`, which is called for instances of the
class that was called. `kw`: the data were given as keyword arguments, which are copied. -/
def make (c : Classes) (kw : Bool) (cls : Str) (d : AList Str Val) : Made :=
  match named c cls d with
  | (.error e, d') => ⟨.error e, if kw then d else d'⟩
  | (.ok none, d') => ⟨.ok (cls, 1), if kw then d else d'⟩
  | (.ok (some i), d') =>
    if i = cls then ⟨.ok (cls, 1), if kw then d else d'⟩
    else match c.load i with
      | .error e => ⟨.error e, if kw then d else d'⟩
      | .ok _ => ⟨.ok (i, if c.sub i cls then 2 else 1), if kw then d else d'⟩

/-! ### Inputs -/

/-- A name and an input below it: `f'{k}.{i}'`. -/
def below (k i : Str) : Str := k ++ '.' :: i

/-- object.py 229-239 `Object._inputs` with items: `ty k` are the inputs of a value by the type of the property `k`, `inc`
tells which are included. The inner loop uses the name `k` again. -/
def objectInputs (required : List Str) (ty : Str → Val → List Str) (inc : Str → Bool) (d : List (Str × Val)) : List Str :=
  required ++ (d.filter fun p => inc p.1).flatMap fun p => d.flatMap fun q => (ty p.1 q.2).map (below q.1)

/-- array.py 189-199 `Array._inputs` with items, of a list; `show i`: the index as text. -/
def arrayInputs (sh : Nat → Str) (ty : Nat → Val → List Str) (inc : Nat → Bool) (l : List Val) : List Str :=
  (l.zipIdx.filter fun p => inc p.2).flatMap fun p => (ty p.2 p.1).map (below (sh p.2))

/-! ### Types that count as false -/

/-- A declared type: a constant, or another one that accepts some values. -/
inductive Decl where
  | null
  | yes
  | no
  | type (accepts : Val → Bool)

/-- constants.py 25-27 `__bool__`; other types count as true. -/
def Decl.truth : Decl → Bool
  | .null => false
  | .no => false
  | _ => true

/-- The values of a declared type. -/
def Decl.accepts : Decl → Val → Bool
  | .null, v => decide (v = .none)
  | .yes, _ => true
  | .no, _ => false
  | .type f, v => f v

/-- object.py 164-167 and 215-220: is a property accepted that is only covered by the type of additional ones? -/
def additional (d : Decl) (v : Val) : Bool := if d.truth then d.accepts v else false

/-- array.py 105-117: the type of the items of an array made with a type, `items or _True()`. -/
def itemsOf (d : Decl) : Decl := if d.truth then d else .yes

/-- The lists an array type accepts that is made with a type of items. -/
def arrayAccepts (d : Decl) (l : List Val) : Bool := l.all (itemsOf d).accepts

end Verif.Storing
