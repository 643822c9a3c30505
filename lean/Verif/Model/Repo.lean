import Verif.Num
/-
Model of the memory repository: /repo/ngoschema/repositories/memory_repository.py (with
/repo/ngoschema/protocols/repository.py and the identity keys of /repo/ngoschema/models/instances.py).

Objects are references (numbers). Of an object only its identity keys matter: `obj.identityKeys` (instances.py
88-90) reads the primary keys of the object when they have changed since the last reading, see C68, and is
therefore modelled as a reading of the current keys; it refreshes `_identityKeys` on the way.
Dictionary keys are compared by Python equality; identity keys here are None, integers or strings.
-/
namespace Verif.Repo

/-- The value of a primary key. -/
inductive Key where
  | none
  | int (n : Int)
  | str (s : Str)
  deriving DecidableEq, Repr

/-- An object. -/
abbrev Ref := Nat

/-- The primary keys of all objects; the attributes `_content` and `_catalog` of the repository. -/
structure World where
  keys : Ref → List Key
  content : List Ref
  catalog : AList (List Key) Ref

/-- memory_repository.py 39: `[c.identityKeys[i] for c in self._content]`. -/
def column (keys : Ref → List Key) (i : Nat) : List Ref → Res (List Key)
  | [] => .ok []
  | c :: cs => match (keys c)[i]? with
    | some k => do
      let ks ← column keys i cs
      return k :: ks
    | Option.none => .error .indexError

/-- memory_repository.py 41: `max([-1] + iks) + 1`; only integers compare with -1. -/
def nextKey (m : Int) : List Key → Res Int
  | [] => .ok (m + 1)
  | .int n :: ks => nextKey (if m < n then n else m) ks
  | _ :: _ => .error .typeError

/-- memory_repository.py 42: `value._set_data(value.primaryKeys[i], k)`; reading the key then gives the conversion
of `k` by the type of the property at this position (`conv`; a failing conversion is not modelled). -/
def setKey (conv : Nat → Key → Key) (w : World) (o : Ref) (i : Nat) (k : Key) : World :=
  { w with keys := fun x => if x = o then (w.keys o).set i (conv i k) else w.keys x }

/-- memory_repository.py 38-42, the loop over the keys read before it, from position `i`. Keys set before an
exception stay set. -/
def assign (conv : Nat → Key → Key) (o : Ref) : Nat → List Key → World → World × Res Unit
  | _, [], w => (w, .ok ())
  | i, k :: ks, w =>
    match column w.keys i w.content with
    | .error e => (w, .error e)
    | .ok iks =>
      if k = .none then
        match nextKey (-1) iks with
        | .error e => (w, .error e)
        | .ok n => assign conv o (i + 1) ks (setKey conv w o i (.int n))
      else assign conv o (i + 1) ks w

/-- memory_repository.py 45-50: the first stored object with these keys is replaced, else the object is appended. -/
def store (keys : Ref → List Key) (o : Ref) : List Ref → List Ref
  | [] => [o]
  | c :: cs => if keys o = keys c then o :: cs else c :: store keys o cs

/-- memory_repository.py 31-53 `_commit` when `many`, `save=False`. -/
def commit (conv : Nat → Key → Key) (w : World) (o : Ref) : World × Res Unit :=
  match assign conv o 0 (w.keys o) w with
  | (w, .error e) => (w, .error e)
  | (w, .ok ()) =>
    ({ w with catalog := AList.set w.catalog (w.keys o) o, content := store w.keys o w.content }, .ok ())

/-- What the attribute `_content` of a repository of one object may hold: a list of objects, or a type, which can
be called to make such a list. -/
inductive Content where
  | list (l : List Ref)
  | type
  deriving DecidableEq

/-- Calling it: `Array(...)(value)` (types/array.py 119-122) makes a list, a list is not callable. -/
def Content.call : Content → List Ref → Res Content
  | .type, value => .ok (.list value)
  | .list _, _ => .error .typeError

/-- memory_repository.py 17-23 `__init__(value)` when not `many`: an array type (of at most one item) is called. -/
def createSingle (value : List Ref) : Res Content := Content.type.call value

/-- memory_repository.py 51-52 `_commit` when not `many`: `self._content = self._content(value)`. -/
def commitSingle (c : Content) (o : Ref) : Content × Res Unit :=
  match c.call [o] with
  | .ok c' => (c', .ok ())
  | .error e => (c, .error e)

/-- memory_repository.py 17-23 `__init__(value)` when `many`. -/
def create (keys : Ref → List Key) (value : List Ref) : World := ⟨keys, value, []⟩

/-- memory_repository.py 25-26 `__contains__`. -/
def contains (w : World) (ks : List Key) : Bool := AList.contains w.catalog ks

/-- memory_repository.py 28-29 `resolve_fkey`. -/
def resolve (w : World) (ks : List Key) : Res Ref :=
  match AList.get? w.catalog ks with
  | some o => .ok o
  | Option.none => .error .keyError

/-- An assignment to a primary key by the user. -/
def userSet (w : World) (o : Ref) (i : Nat) (k : Key) : World := setKey (fun _ k => k) w o i k

end Verif.Repo
