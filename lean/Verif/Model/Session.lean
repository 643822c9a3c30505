import Verif.Val
/-
Model of the session factory and of scoped sessions: /repo/ngoschema/session.py 132-355.

Dictionary objects given as `info` are addresses in a heap, because the code passes them on by reference.
Other option values are documents. `sqlalchemy.util.ScopedRegistry` and `ThreadLocalRegistry` (third party)
are modelled by their documented behaviour: one slot per scope.
-/
namespace Verif.Session

/-- A keyword argument: a plain value, or (a reference to) a dictionary object. -/
inductive Arg where
  | val (v : Val)
  | ref (a : Nat)
  deriving DecidableEq, Repr

/-- The dictionary objects, by address. -/
abbrev Heap := List (AList Str Val)

def kBind : Str := "bind".toList
def kAutoflush : Str := "autoflush".toList
def kAutocommit : Str := "autocommit".toList
def kExpire : Str := "expire_on_commit".toList
def kInfo : Str := "info".toList

/-- session.py 178-224 `session_maker.__init__(bind=None, autoflush=True, autocommit=False,
expire_on_commit=True, info=None, **kw)`: the configuration `self.kw`. `given`: the keyword arguments of the
call (`class_` aside). -/
def makerInit (given : AList Str Arg) : AList Str Arg :=
  let kw := given.filter (fun p => p.1 ∉ [kBind, kAutoflush, kAutocommit, kExpire, kInfo])
  let kw := AList.set kw kBind ((AList.get? given kBind).getD (.val .none))
  let kw := AList.set kw kAutoflush ((AList.get? given kAutoflush).getD (.val (.bool true)))
  let kw := AList.set kw kAutocommit ((AList.get? given kAutocommit).getD (.val (.bool false)))
  let kw := AList.set kw kExpire ((AList.get? given kExpire).getD (.val (.bool true)))
  match AList.get? given kInfo with
  | none => kw
  | some (.val .none) => kw
  | some a => AList.set kw kInfo a

/-- session.py 246-255 `configure(**new_kw)`. -/
def configure (kw new : AList Str Arg) : AList Str Arg := AList.update kw new

/-- session.py 239-241 `d = v.copy(); d.update(local_kw["info"]); local_kw["info"] = d`. Simplification: a
value that is not a dictionary has no `copy`, or no `update` (AttributeError), and is refused by `update`
(TypeError); a list of pairs, which `update` accepts, is not covered. -/
def mergeInfo (h : Heap) (v localInfo : Arg) : Heap × Res Arg :=
  match v with
  | .val _ => (h, .error .attributeError)
  | .ref a => match h[a]? with
    | none => (h, .error .attributeError)
    | some d => match localInfo with
      | .val _ => (h, .error .typeError)
      | .ref b => match h[b]? with
        | none => (h, .error .typeError)
        | some e => (h ++ [AList.update d e], .ok (.ref h.length))

/-- session.py 237-243, the loop over `self.kw.items()`. -/
def callLoop (h : Heap) (loc : AList Str Arg) : AList Str Arg → Heap × Res (AList Str Arg)
  | [] => (h, .ok loc)
  | (k, v) :: kw =>
    match (if k = kInfo then AList.get? loc kInfo else none) with
    | some i => match mergeInfo h v i with
      | (h, .error e) => (h, .error e)
      | (h, .ok d) => callLoop h (AList.set loc kInfo d) kw
    | none =>
      callLoop h (if AList.contains loc k then loc else AList.set loc k v) kw

/-- A session factory and the dictionary objects. -/
structure World where
  kw : AList Str Arg
  heap : Heap

/-- session.py 226-244 `__call__(**local_kw)`: the keyword arguments the session class receives. -/
def makerCall (w : World) (loc : AList Str Arg) : World × Res (AList Str Arg) :=
  match callLoop w.heap loc w.kw with
  | (h, r) => ({ w with heap := h }, r)

/-! ### Scoped sessions -/

/-- A scoped session over a session factory: the sessions created so far (with the arguments they received; a
session is known by its position), and the registry of current sessions. -/
structure State (σ : Type) where
  world : World
  created : List (AList Str Arg)
  registry : AList σ Nat

variable {σ : Type} [DecidableEq σ]

/-- `self.session_factory(**kw)`: session.py 226-244, then the constructor of the session class. `ctor`: the
exception that constructor raises on given arguments, if any. -/
def create (ctor : AList Str Arg → Option Exc) (s : State σ) (kw : AList Str Arg) : State σ × Res Nat :=
  match makerCall s.world kw with
  | (w, .error e) => ({ s with world := w }, .error e)
  | (w, .ok args) => match ctor args with
    | some e => ({ s with world := w }, .error e)
    | none => ({ s with world := w, created := s.created ++ [args] }, .ok s.created.length)

/-- session.py 299-321 `scoped_session.__call__(**kw)` in scope `sc`. The exception class of line 312 is looked
up in a name that is not imported. -/
def call (ctor : AList Str Arg → Option Exc) (s : State σ) (sc : σ) (kw : AList Str Arg) : State σ × Res Nat :=
  if kw ≠ [] then
    if AList.contains s.registry sc then (s, .error .nameError)
    else match create ctor s kw with
      | (s, .error e) => (s, .error e)
      | (s, .ok i) => ({ s with registry := AList.set s.registry sc i }, .ok i)
  else match AList.get? s.registry sc with
    | some i => (s, .ok i)
    | none => match create ctor s [] with
      | (s, .error e) => (s, .error e)
      | (s, .ok i) => ({ s with registry := AList.set s.registry sc i }, .ok i)

/-- session.py 323-338 `remove()` in scope `sc`; `Session.close` (95-96) does nothing. -/
def remove (s : State σ) (sc : σ) : State σ := { s with registry := AList.erase s.registry sc }

/-- session.py 340-355 `configure(**kwargs)` in scope `sc`: `self._logger` (349) does not exist. -/
def scopedConfigure (s : State σ) (sc : σ) (kw : AList Str Arg) : State σ × Option Exc :=
  if AList.contains s.registry sc then (s, some .attributeError)
  else ({ s with world := { s.world with kw := configure s.world.kw kw } }, none)

/-- What can be done with a scoped session. -/
inductive Op (σ : Type) where
  | call (sc : σ) (kw : AList Str Arg)
  | remove (sc : σ)
  | configure (sc : σ) (kw : AList Str Arg)

/-- One operation; an exception is reported to the caller, who goes on. -/
def step (ctor : AList Str Arg → Option Exc) (s : State σ) : Op σ → State σ
  | .call sc kw => (call ctor s sc kw).1
  | .remove sc => remove s sc
  | .configure sc kw => (scopedConfigure s sc kw).1

/-- A history. -/
def run (ctor : AList Str Arg → Option Exc) (s : State σ) (ops : List (Op σ)) : State σ := ops.foldl (step ctor) s

end Verif.Session
