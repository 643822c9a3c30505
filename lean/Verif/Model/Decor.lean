import Verif.Py
/-
Model of /repo/ngoschema/decorators.py.
-/
namespace Verif.Decor

/-- A positional argument: a scalar, or a list/set/tuple given by its elements in iteration order. -/
inductive Arg (α : Type) where
  | scalar (a : α)
  | seq (l : List (Arg α))
  deriving Repr

/-- What a lifted call returns: the function's own result, or a list of results. -/
inductive Out (ρ : Type) where
  | single (r : ρ)
  | many (rs : List ρ)
  deriving Repr, DecidableEq

/-- Calls of `f` one after the other, stopping at the first that raises; the first component records
the calls made. -/
def callAll {α ρ : Type} (f : List (Arg α) → Res ρ) :
    List (List (Arg α)) → List (List (Arg α)) × Res (List ρ)
  | [] => ([], .ok [])
  | c :: cs =>
    match f c with
    | .error e => ([c], .error e)
    | .ok r =>
      match callAll f cs with
      | (log, .error e) => (c :: log, .error e)
      | (log, .ok rs) => (c :: log, .ok (r :: rs))

/-- decorators.py 81-83: `[item for sublist in ret for item in sublist]` if asked; `iter r` lists a
result that can be iterated, `none` standing for TypeError. -/
def finish {α ρ : Type} (iter : ρ → Option (List ρ)) (flatten : Bool)
    (x : List (List (Arg α)) × Res (List ρ)) : List (List (Arg α)) × Res (Out ρ) :=
  match x with
  | (log, .error e) => (log, .error e)
  | (log, .ok rs) =>
    if flatten then
      match rs.mapM iter with
      | some ls => (log, .ok (.many ls.flatten))
      | none => (log, .error .typeError)
    else (log, .ok (.many rs))

/-- decorators.py 44-83, the wrapper of `take_arrays(narg1, narg2, flatten)` (`narg2 = none` stands for
-1), applied to the positional arguments `args`; keyword arguments are passed on unchanged and left out.
Returns the calls made to the wrapped function and the result. -/
def takeArrays {α ρ : Type} (f : List (Arg α) → Res ρ) (iter : ρ → Option (List ρ)) (narg1 : Nat)
    (narg2 : Option Nat) (flatten : Bool) (args : List (Arg α)) :
    List (List (Arg α)) × Res (Out ρ) :=
  match args[narg1]? with
  | none => ([], .error .indexError)
  | some (.scalar _) =>
    match f args with
    | .error e => ([args], .error e)
    | .ok r => ([args], .ok (.single r))
  | some (.seq l1) =>
    match narg2 with
    | none => finish iter flatten (callAll f (l1.map (fun v => args.set narg1 v)))
    | some n2 =>
      match args[n2]? with
      | none => ([], .error .indexError)
      | some (.scalar _) => finish iter flatten (callAll f (l1.map (fun v => args.set narg1 v)))
      | some (.seq l2) =>
        if l2.length = 1 then finish iter flatten (callAll f (l1.map (fun v => args.set narg1 v)))
        else if l1.length = l2.length then
          finish iter flatten
            (callAll f ((l1.zip l2).map (fun v => (args.set narg1 v.1).set n2 v.2)))
        else ([], .error .invalidValue)

/-! `memoized_property`, decorators.py 312-331 -/

/-- The instance: its `__dict__` entry for the property, the rest of its state, and the number of times
the getter ran. -/
structure Memo (σ ρ : Type) where
  cache : Option ρ
  env : σ
  calls : Nat
  deriving Repr, DecidableEq

/-- Reading the attribute. The descriptor defines no `__set__`, so an entry of the instance `__dict__`
is returned without it (Python's attribute lookup); else `__get__`, 320-324. -/
def Memo.read {σ ρ : Type} (fget : σ → Res ρ × σ) (m : Memo σ ρ) : Res ρ × Memo σ ρ :=
  match m.cache with
  | some r => (.ok r, m)
  | none =>
    match fget m.env with
    | (.ok r, env) => (.ok r, { cache := some r, env := env, calls := m.calls + 1 })
    | (.error e, env) => (.error e, { cache := none, env := env, calls := m.calls + 1 })

/-- `memoized_property.reset(obj, name)`, 329-331. -/
def Memo.reset {σ ρ : Type} (m : Memo σ ρ) : Memo σ ρ := { m with cache := none }

/-- Operations on an instance: read, reset, or anything that changes the rest of its state. -/
inductive MemoOp (σ : Type) where
  | read
  | reset
  | change (g : σ → σ)

/-- A history of operations; returns the results of the reads. -/
def Memo.run {σ ρ : Type} (fget : σ → Res ρ × σ) : Memo σ ρ → List (MemoOp σ) → List (Res ρ) × Memo σ ρ
  | m, [] => ([], m)
  | m, .read :: ops =>
    match m.read fget with
    | (r, m) => match m.run fget ops with
      | (rs, m) => (r :: rs, m)
  | m, .reset :: ops => m.reset.run fget ops
  | m, .change g :: ops => Memo.run fget { m with env := g m.env } ops

/-! `assert_arg` and `assert_prop` -/

/-- The arguments of a call. -/
structure Call (κ υ : Type) where
  args : List υ
  kwargs : List (κ × υ)
  deriving Repr, DecidableEq

/-- `python_jsonschema_objects.validators.ValidationError`, the `ValidationError` that decorators.py 22
imports: not the one (`jsonschema`) that the types raise. -/
def pjoValidationError : Exc := .user 1

/-- decorators.py 131-158, the wrapper of `assert_arg`: what the wrapped function is called with, or the
exception raised instead. `argI`, `argS` are the position (counting `self`) and name found in the
signature; `inst` is `none` for a plain function, else the truth value of the bound instance (`args`
then does not hold it). `validator` converts and validates a value. -/
def assertArg {κ υ : Type} [DecidableEq κ] (argI : Option Nat) (argS : κ) (validator : υ → Res υ)
    (inst : Option Bool) (assertArgs : Bool) (c : Call κ υ) : Res (Call κ υ) :=
  if !assertArgs then .ok c
  else
    -- arg_i2 = arg_i if not instance and arg_i is not None else arg_i - 1
    match argI with
    | none => .error .typeError
    | some i =>
      let i2 : Int := if inst = some true then (i : Int) - 1 else i
      let wrap : Exc → Exc := fun e =>
        if e = pjoValidationError ∨ e = .invalidValue then pjoValidationError else e
      match AList.get? c.kwargs argS with
      | some v =>
        match validator v with
        | .ok v => .ok { c with kwargs := AList.set c.kwargs argS v }
        | .error e => .error (wrap e)
      | none =>
        if i2 < c.args.length then
          let j := if 0 ≤ i2 then i2.toNat else c.args.length - 1
          match c.args[j]? with
          | none => .error .indexError
          | some v =>
            match validator v with
            | .ok v => .ok { c with args := c.args.set j v }
            | .error e => .error (wrap e)
        else .ok c

/-- decorators.py 252-257, the wrapper of `assert_prop`: whether the call goes through; `attr p` is
`getattr(instance, p, None)`. -/
def assertProp {υ : Type} (attr : Nat → Option υ) : List Nat → Res Unit
  | [] => .ok ()
  | p :: ps => if (attr p).isNone then .error .attributeError else assertProp attr ps

/-! `memoized_method` and `functools.lru_cache` -/

/-- `functools.lru_cache(maxsize)`: the entries, most recently used first. `cap = none` is
`maxsize=None`. -/
structure Lru (κ ρ : Type) where
  cap : Option Nat
  entries : List (κ × ρ)
  deriving Repr, DecidableEq

/-- One call through the cache; the Boolean tells whether the function was run. Exceptions are not
cached. -/
def Lru.call {κ ρ : Type} [DecidableEq κ] (f : κ → Res ρ) (c : Lru κ ρ) (k : κ) :
    Res ρ × Bool × Lru κ ρ :=
  match AList.get? c.entries k with
  | some r => (.ok r, false, { c with entries := (k, r) :: AList.erase c.entries k })
  | none =>
    match f k with
    | .error e => (.error e, true, c)
    | .ok r =>
      (.ok r, true, { c with entries := match c.cap with
        | none => (k, r) :: c.entries
        | some n => ((k, r) :: c.entries).take n })

/-- decorators.py 334-350 `memoized_method(maxsize)`: one cache per instance, created at the first call
on the instance. `caches` maps instances to their caches. -/
def memoCall {ι κ ρ : Type} [DecidableEq ι] [DecidableEq κ] (cap : Option Nat) (f : ι → κ → Res ρ)
    (caches : ι → Option (Lru κ ρ)) (self : ι) (k : κ) :
    Res ρ × Bool × (ι → Option (Lru κ ρ)) :=
  match Lru.call (f self) ((caches self).getD ⟨cap, []⟩) k with
  | (r, ran, c) => (r, ran, fun j => if j = self then some c else caches j)

end Verif.Decor
