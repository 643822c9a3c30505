import Verif.Py
/-
Model of the context managers of utils.py: `working_directory` (699-707) and `casted_as` (519-528).
The code under a `with` is a program of a small language with exceptions.
-/
namespace Verif.Blocks

/-- What the two context managers change: the current directory, the directories that exist, and the
class of the instance. Directories and classes are numbers; a path is already resolved. -/
structure State where
  cwd : Nat
  dirs : List Nat
  cls : Nat
  deriving Repr, DecidableEq

/-- Programs run inside `with` blocks. -/
inductive Prog where
  | pass
  | chdir (p : Nat)
  | mkdir (p : Nat)
  | rmdir (p : Nat)
  | raise (e : Exc)
  | seq (a b : Prog)
  /-- `try: a  except Exception: b` -/
  | attempt (a b : Prog)
  /-- `with working_directory(p): body` -/
  | withDir (p : Nat) (body : Prog)
  /-- `with casted_as(instance, c): body` -/
  | withCast (c : Nat) (body : Prog)
  deriving Repr, DecidableEq

/-- `os.chdir(p)`: OSError (here `exception`) when the directory does not exist. -/
def chdir (s : State) (p : Nat) : State × Option Exc :=
  if p ∈ s.dirs then ({ s with cwd := p }, none) else (s, some .exception)

/-- The effect of a program: the state it leaves and the exception that escapes, if any. `mro c` lists
the classes of `c.__mro__`. -/
def exec (mro : Nat → List Nat) : Prog → State → State × Option Exc
  | .pass, s => (s, none)
  | .chdir p, s => chdir s p
  | .mkdir p, s => ({ s with dirs := p :: s.dirs }, none)
  | .rmdir p, s => ({ s with dirs := s.dirs.filter (· ≠ p) }, none)
  | .raise e, s => (s, some e)
  | .seq a b, s =>
    match exec mro a s with
    | (s, some e) => (s, some e)
    | (s, none) => exec mro b s
  | .attempt a b, s =>
    match exec mro a s with
    | (s, some _) => exec mro b s
    | (s, none) => (s, none)
  -- utils.py 701-707: prev_cwd = cwd(); chdir(path); try: yield; finally: chdir(prev_cwd)
  | .withDir p body, s =>
    let prev := s.cwd
    match chdir s p with
    | (s, some e) => (s, some e)
    | (s, none) =>
      match exec mro body s with
      | (s, exc) =>
        match chdir s prev with
        | (s, some e) => (s, some e)
        | (s, none) => (s, exc)
  -- utils.py 522-528: remember the class; refuse a non-ancestor; assign; yield; assign back
  | .withCast c body, s =>
    let instanceCls := s.cls
    if c ∉ mro instanceCls then (s, some .attributeError)
    else
      match exec mro body { s with cls := c } with
      | (s, some e) => (s, some e)
      | (s, none) => ({ s with cls := instanceCls }, none)

end Verif.Blocks
