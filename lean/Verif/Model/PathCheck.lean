import Verif.Py
/-
Model of the checks of paths: /repo/ngoschema/managers/jsch_validators.py 91-108 (`isPathDir`, `isPathFile`,
`isPathExisting`), alone and combined by `allOf`, `anyOf`, `oneOf`, `not` and `if` of jsonschema, in
/repo/ngoschema/protocols/validator.py 48-74, for the types of /repo/ngoschema/types/uri.py 173-177.

Simplifications. Of a path only what is there is kept, of another value that it is none. A run of `iter_errors` is the
errors it gives, of which only whether there is an index in their path is kept, and the exception that then ends it, if
one does.
-/
namespace Verif.PathCheck

/-- What is at a path. -/
inductive Kind where
  | absent | file | dir | special
deriving DecidableEq

/-- A value: a path, or something without `is_dir`, such as a text. -/
inductive V where
  | path (k : Kind)
  | other
deriving DecidableEq

/-- The keywords on paths. -/
inductive Chk where
  | isPathDir | isPathFile | isPathExisting
deriving DecidableEq

/-- A schema: a constant, or keywords. -/
inductive S where
  | const (b : Bool)
  | check (c : Chk) (param : Bool)
  | both (s t : S)
  | allOf (l : List S)
  | anyOf (l : List S)
  | oneOf (l : List S)
  | not_ (s : S)
  | cond (c t e : S)

/-- A run of `iter_errors`. -/
structure Run where
  errors : List Bool
  exc : Option Exc
deriving DecidableEq

/-- `value.is_dir()`, `value.is_file()`, `value.exists()`. -/
def holds : Chk → Kind → Bool
  | .isPathDir, k => k = .dir
  | .isPathFile, k => k = .file
  | .isPathExisting, k => k ≠ .absent

/-- jsch_validators.py 92-108: an exception is raised, no error is given. -/
def check (c : Chk) (param : Bool) : V → Run
  | .other => ⟨[], some .attributeError⟩
  | .path k => if holds c k != param then ⟨[], some .validationError⟩ else ⟨[], none⟩

/-- One run after the other. -/
def Run.andThen (r s : Run) : Run :=
  match r.exc with
  | some _ => r
  | none => ⟨r.errors ++ s.errors, s.exc⟩

/-- jsonschema `is_valid`: is there a first error. -/
def Run.valid (r : Run) : Res Bool :=
  match r.errors, r.exc with
  | _ :: _, _ => .ok false
  | [], some e => .error e
  | [], none => .ok true

/-- The index that `allOf` adds to the paths of errors. -/
def Run.indexed (r : Run) : Run := { r with errors := r.errors.map fun _ => true }

mutual
/-- jsonschema `iter_errors`. -/
def run (v : V) : S → Run
  | .const b => ⟨if b then [] else [false], none⟩
  | .check c p => check c p v
  | .both s t => (run v s).andThen (run v t)
  | .allOf l => runAll v l
  | .anyOf l => runAny v l
  | .oneOf l => runOne v l
  | .not_ s => match (run v s).valid with
    | .error e => ⟨[], some e⟩
    | .ok b => ⟨if b then [false] else [], none⟩
  | .cond c t e => match (run v c).valid with
    | .error x => ⟨[], some x⟩
    | .ok b => if b then run v t else run v e
/-- `allOf`. -/
def runAll (v : V) : List S → Run
  | [] => ⟨[], none⟩
  | s :: l => (run v s).indexed.andThen (runAll v l)
/-- `anyOf`: `list(descend(...))` of each up to the first without errors. -/
def runAny (v : V) : List S → Run
  | [] => ⟨[false], none⟩
  | s :: l => match run v s with
    | ⟨_, some e⟩ => ⟨[], some e⟩
    | ⟨[], none⟩ => ⟨[], none⟩
    | ⟨_ :: _, none⟩ => runAny v l
/-- `oneOf`: likewise, then `is_valid` of the others. -/
def runOne (v : V) : List S → Run
  | [] => ⟨[false], none⟩
  | s :: l => match run v s with
    | ⟨_, some e⟩ => ⟨[], some e⟩
    | ⟨[], none⟩ => match moreValid v l with
      | .error e => ⟨[], some e⟩
      | .ok n => ⟨if n = 0 then [] else [false], none⟩
    | ⟨_ :: _, none⟩ => runOne v l
/-- `[s for s in subschemas if validator.is_valid(instance, s)]`. -/
def moreValid (v : V) : List S → Res Nat
  | [] => .ok 0
  | s :: l => match (run v s).valid with
    | .error e => .error e
    | .ok b => match moreValid v l with
      | .error e => .error e
      | .ok n => .ok (if b then n + 1 else n)
end

/-- validator.py 48-58 `_errors` and 67-73 `_validate`: the path of an error with an index cannot be joined to a text, which
is tried before the run goes on. -/
def settle : List Bool → Option Exc → Res Unit
  | true :: _, _ => .error .typeError
  | false :: l, e => match settle l e with
    | .ok _ => .error .invalidValue
    | r => r
  | [], some e => .error e
  | [], none => .ok ()

/-- validator.py 67-73 `_validate`. -/
def validate (s : S) (v : V) : Res Unit := settle (run v s).errors (run v s).exc

end Verif.PathCheck
