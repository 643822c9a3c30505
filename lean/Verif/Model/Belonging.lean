import Verif.Py
/-
Model of the sessions that objects and arrays belong to: /repo/ngoschema/protocols/context.py 16-45, /repo/ngoschema/protocols/
collection_protocol.py 37-49, /repo/ngoschema/protocols/object_protocol.py 235-237, /repo/ngoschema/protocols/
array_protocol.py 75-84, /repo/ngoschema/utils/utils.py 136-142 (`create_child`).

A session is an attribute `_session` of a context, and contexts are shared: they are numbered here, 0 being
`DEFAULT_CONTEXT`, and an object has the number of its context. Simplified: what else a context holds is left out (the
three names of `DEFAULT_CONTEXT` are in every context, so none is false); what is deserialized and validated too.
-/
namespace Verif.Belonging

/-- The `_session` of each context, if it has the attribute; the context of each object or array. -/
structure World where
  ctxs : List (Option (Option Nat))
  objs : List Nat
  deriving DecidableEq, Repr

/-- context.py 16: `DEFAULT_CONTEXT` is a context of utils.py, which has no `_session`. -/
def start : World := ⟨[none], []⟩

/-- `context._session`. -/
def read (w : World) (c : Nat) : Res (Option Nat) :=
  match w.ctxs[c]? with
  | some (some s) => .ok s
  | _ => .error .attributeError

/-- `getattr(context, '_session', None)`. -/
def getattr (w : World) (c : Nat) : Option Nat :=
  match w.ctxs[c]? with
  | some (some s) => s
  | _ => none

/-- context.py 31-37 `_create_context`. An object gives mappings of its own (object_protocol.py 235-237), so there is a new
context; for an array there are none, and `create_child` (utils.py 138-139) gives the context itself. -/
def createContext (w : World) (arr : Bool) (outer : Nat) : World × Nat :=
  if arr then ({ w with ctxs := w.ctxs.set outer (some (getattr w outer)) }, outer)
  else ({ w with ctxs := w.ctxs ++ [some (getattr w outer)] }, w.ctxs.length)

/-- context.py 39-41 `set_context`: `session or self._context._session`. The truth of a session is that it has
entries. -/
def setContext (truth : Nat → Bool) (w : World) (o c : Nat) (session : Option Nat) : Res World :=
  match session with
  | some s => if truth s then .ok ⟨w.ctxs.set c (some (some s)), w.objs.set o c⟩
    else match read w c with
      | .error e => .error e
      | .ok r => .ok ⟨w.ctxs.set c (some r), w.objs.set o c⟩
  | none => match read w c with
    | .error e => .error e
    | .ok r => .ok ⟨w.ctxs.set c (some r), w.objs.set o c⟩

/-- What is done: an array (`arr`) or an object is made, in the context of the collection `outer` or on its own, with or
without a session; an existing object or array is inserted into a lazily loaded array. -/
inductive Op where
  | make (arr : Bool) (outer : Option Nat) (session : Option Nat)
  | insert (a o : Nat)
  deriving DecidableEq, Repr

/-- The context that is passed: that of the collection, or `context or self._context` (context.py 34): the one of the
class. -/
def outerCtx (w : World) : Option Nat → Option Nat
  | none => some 0
  | some p => w.objs[p]?

/-- `make`: collection_protocol.py 48-49; `insert`: array_protocol.py 82-83. Nothing is done with objects that are not
there. -/
def step (truth : Nat → Bool) (w : World) : Op → Res World
  | .make arr outer session => match outerCtx w outer with
    | none => .ok w
    | some c =>
      let r := createContext w arr c
      setContext truth { r.1 with objs := r.1.objs ++ [0] } w.objs.length r.2 session
  | .insert a o => match w.objs[a]? with
    | none => .ok w
    | some c => if o < w.objs.length then setContext truth w o c none else .ok w

def run (truth : Nat → Bool) (w : World) : List Op → Res World
  | [] => .ok w
  | op :: ops => match step truth w op with
    | .error e => .error e
    | .ok w1 => run truth w1 ops

/-- context.py 43-45 `session`. -/
def sessionOf (w : World) (o : Nat) : Res (Option Nat) :=
  match w.objs[o]? with
  | none => .error .indexError
  | some c => read w c

end Verif.Belonging
