import Verif.Val
/-
Objects in their contexts, and the writing of entities.

* contexts/object_protocol_context.py, contexts/instance_context.py, with protocols/context.py 32-41,
  protocols/collection_protocol.py 37-53, 118-136 and protocols/array_protocol.py 75-84: what becomes of the context of
  an object that is put into another;
* models/instances.py 60-111 (`Entity`), with protocols/object_protocol.py 446-473,
  protocols/collection_protocol.py 83-86 and types/collection.py 115-126: the serialisation of nested objects;
* types/foreign_key.py 23-49 (`Ref`) and 184-194 (`CanonicalName`).
-/
namespace Verif.Entities

/-! ### Contexts -/

/-- The maps of a context: `{'this': o}`, `o._dataValidated`, the object `o` itself, or another mapping. -/
inductive M where
  | this (o : Nat)
  | data (o : Nat)
  | obj (o : Nat)
  | other (n : Nat)
  deriving DecidableEq, Repr

/-- An object. `ctx`: the maps of `_context`; `entries`: how many entries it has; `inst`: is it an `Instance`. -/
structure Obj where
  ctx : List M := []
  parent : Option Nat := none
  parentInst : Option Nat := none
  entries : Nat := 1
  inst : Bool := false
  deriving DecidableEq, Repr

/-- The objects, known by their position. -/
abbrev World := List Obj

def ctxOf (w : World) (o : Nat) : List M := (w[o]?.map Obj.ctx).getD []
def parentOf (w : World) (o : Nat) : Option Nat := w[o]?.bind Obj.parent
def parentInstOf (w : World) (o : Nat) : Option Nat := w[o]?.bind Obj.parentInst
def instOf (w : World) (o : Nat) : Bool := (w[o]?.map Obj.inst).getD false
def entriesOf (w : World) (o : Nat) : Nat := (w[o]?.map Obj.entries).getD 0

/-- `next((m for m in ctx.maps if isinstance(m, C) and m is not self), None)`. -/
def firstObj (isA : Nat → Bool) (self : Nat) : List M → Option Nat
  | [] => none
  | .obj o :: ms => if isA o && o != self then some o else firstObj isA self ms
  | _ :: ms => firstObj isA self ms

/-- contexts/object_protocol_context.py 11-18 and contexts/instance_context.py 11-17 `set_context`. Simplification:
every object has both attributes; the session of the context is left out. -/
def setContext (w : World) (o : Nat) (ctx : List M) : World :=
  match w[o]? with
  | none => w
  | some x => w.set o { x with ctx := ctx, parent := firstObj (fun _ => true) o ctx, parentInst := firstObj (instOf w) o ctx }

/-- The maps of `DEFAULT_CONTEXT` (protocols/context.py 16). -/
def defaultCtx : List M := [.other 0]

/-- protocols/object_protocol.py 235-237 `_create_context` in a context with these maps (`create_child`,
utils/utils.py 136-142, puts an empty `local` first). -/
def createContext (o : Nat) (outer : List M) : List M := .other 1 :: .this o :: .data o :: .obj o :: outer

/-- collection_protocol.py 37-53 `__init__` with this `context`: a new object. -/
def create (w : World) (outer : List M) (inst : Bool) (n : Nat) : World :=
  setContext (w ++ [{ entries := n, inst }]) w.length (createContext w.length outer)

/-- What is done with objects. -/
inductive Op where
  /-- An object is made on its own. -/
  | make (inst : Bool) (n : Nat)
  /-- Data are given for a property of the object `p`, or for an item of an array in it. -/
  | build (p : Nat) (inst : Bool) (n : Nat)
  /-- The existing object `o` is assigned to a property of `p`, or inserted into an array in `p` that is not loaded
  lazily. -/
  | assign (p o : Nat)
  /-- The existing object `o` is inserted into a lazily loaded array in `p`. -/
  | insert (p o : Nat)
  /-- The object `o` now has `n` entries. -/
  | resize (o n : Nat)
  deriving DecidableEq, Repr

/-- One operation. `build`: collection_protocol.py 133 `t(v, context=self._context)`; an array has the very context of
the object it is in, since `create_child()` without arguments returns it. `assign`: 133 `v`. `insert`: array_protocol.py
82-83 `value.set_context(self._context)`. -/
def step (w : World) : Op → World
  | .make inst n => create w defaultCtx inst n
  | .build p inst n => if p < w.length then create w (ctxOf w p) inst n else w
  | .assign _ _ => w
  | .insert p o => if p < w.length then setContext w o (ctxOf w p) else w
  | .resize o n => match w[o]? with
    | none => w
    | some x => w.set o { x with entries := n }

def run (w : World) (ops : List Op) : World := ops.foldl step w

/-- contexts/object_protocol_context.py 20-22 `_root`: the truth of an object is that it has entries. `n`: how deep
the interpreter recurses. -/
def rootOf (w : World) : Nat → Nat → Res Nat
  | 0, _ => .error .recursionError
  | n + 1, o => match parentOf w o with
    | none => .ok o
    | some p => if entriesOf w p = 0 then .ok o else rootOf w n p

/-- `ctx['this']`. Simplification: no other map has the key. -/
def thisOf : List M → Option Nat
  | [] => none
  | .this o :: _ => some o
  | _ :: ms => thisOf ms

/-! ### Serialisation -/

/-- A class of objects: `_notSerialized`, `_required`, whether it is an `Entity`, `_primaryKeys`. -/
structure Cls where
  notSer : List Str := []
  required : List Str := []
  entity : Bool := false
  pks : List Str := []
  deriving DecidableEq, Repr

/-- A value: of a primitive type, an object, an array. Simplifications: the class of a value is the one its property
is declared with; no value is at its default (C138) except None; no aliases (C130). -/
inductive Node where
  | prim (v : Val)
  | obj (c : Cls) (fs : List (Str × Node))
  | arr (l : List Node)
  deriving Repr

/-- What is written. `raw`: an object or array that is there as it is. -/
inductive Out where
  | val (v : Val)
  | dict (fs : List (Str × Out))
  | list (l : List Out)
  | raw (n : Node)
  deriving Repr

/-- The options of a serialisation: `excludes`, `only`, `attr_prefix`, `use_identity_keys`, `use_entity_keys`,
`add_identity_keys`, `root_entity`. -/
structure Opts where
  excludes : List Str := []
  only : List Str := []
  pre : Str := []
  ids : Bool := false
  ents : Bool := false
  addIds : Bool := false
  root : Bool := false
  deriving DecidableEq, Repr

def Node.isNone : Node → Bool
  | .prim .none => true
  | _ => false

def Node.isPrim : Node → Bool
  | .prim _ => true
  | _ => false

/-- A value put into the result as it is. -/
def rawOut : Node → Out
  | .prim v => .val v
  | n => .raw n

/-- `value[k]` of a declared property. -/
def field (fs : List (Str × Node)) (k : Str) : Node := (AList.get? fs k).getD (.prim .none)

/-- models/instances.py 98-100: the identity keys (`get_identityKeys`, 88-90), or the only one. -/
def keyOut (pks : List Str) (fs : List (Str × Node)) : Out :=
  match pks.map (fun k => rawOut (field fs k)) with
  | [x] => x
  | ks => .list ks

/-- models/instances.py 101-104. `inst`: whether `self` is the instance (`do_serialize`) or its class (types/collection.py
124), of which `primaryKeys` is a property descriptor without length (object_protocol.py 66-68). -/
def entityRef (inst : Bool) (pks : List Str) (fs : List (Str × Node)) : Res Out :=
  if !inst then .error .typeError
  else match pks with
    | [k] => .ok (.dict [(if k ≠ "$id".toList then k else "$ref".toList, rawOut (field fs k))])
    | _ => .error .assertionError

/-- protocols/serializer.py 19-36 `_is_included(k, value, excludes, only, no_defaults=True)`. -/
def included (excludes only : List Str) (k : Str) (n : Node) : Bool :=
  k ∉ excludes && (only.isEmpty || k ∈ only) && !n.isNone

/-- object_protocol.py 452: the name that is written. Simplification: no two names become the same. -/
def outName (pre : Str) (k : Str) (n : Node) : Str := if n.isPrim then pre ++ k else k

/-- models/instances.py 106-110. -/
def addKeys (fs : List (Str × Node)) : List Str → List (Str × Out) → List (Str × Out)
  | [], data => data
  | k :: ks, data =>
    let n := field fs k
    addKeys fs ks (if n.isNone then data else AList.set data k (rawOut n))

/-- The options that reach the items of an object: `excludes` with those of the class (collection_protocol.py 85) is
passed on (types/collection.py 124), `only` is not (116), `root_entity` is not by an entity (instances.py 93, 105). -/
def Opts.inner (o : Opts) (c : Cls) : Opts :=
  { o with excludes := c.notSer ++ o.excludes, only := [], root := if c.entity then false else o.root }

mutual
/-- models/instances.py 92-111 `Entity._serialize`, object_protocol.py 446-473 `ObjectProtocol._serialize`,
types/collection.py 115-126. Simplifications: an entity has data (its declared properties), so it is true; the names are
written in the order of the data; `only` is not given for an array; `schema` is not given. -/
def ser (inst : Bool) (o : Opts) : Node → Res Out
  | .prim v => .ok (.val v)
  | .arr l => match serItems o l with
    | .error e => .error e
    | .ok l => .ok (.list l)
  | .obj c fs =>
    if c.entity && !o.root && o.ids then .ok (keyOut c.pks fs)
    else if c.entity && !o.root && o.ents then entityRef inst c.pks fs
    else match serFields (c.notSer ++ o.excludes) o.only c.required (o.inner c) fs with
      | .error e => .error e
      | .ok d => .ok (.dict (if c.entity && o.addIds then addKeys fs c.pks d else d))
/-- types/collection.py 120-124 of an object, with types/object.py 82-97, 200-202: a required name is written
whether or not it is included, as None if it is not. -/
def serFields (excludes only required : List Str) (o : Opts) : List (Str × Node) → Res (List (Str × Out))
  | [] => .ok []
  | (k, n) :: fs =>
    if included excludes only k n then
      match ser false o n with
      | .error e => .error e
      | .ok x => match serFields excludes only required o fs with
        | .error e => .error e
        | .ok d => .ok ((outName o.pre k n, x) :: d)
    else match serFields excludes only required o fs with
      | .error e => .error e
      | .ok d => .ok (if k ∈ required then (outName o.pre k n, .val .none) :: d else d)
/-- types/collection.py 120-124 of an array. -/
def serItems (o : Opts) : List Node → Res (List Out)
  | [] => .ok []
  | n :: l => match ser false o n with
    | .error e => .error e
    | .ok x => match serItems o l with
      | .error e => .error e
      | .ok d => .ok (x :: d)
end

/-! ### Types of references -/

/-- types/foreign_key.py 26-34 `Ref._validate`. `str`: `String.validate`; `resolves`: does `resolve_uri` succeed. The
result is True, False or (without `resolve`) None. -/
def refValidate (str : Val → Res Val) (resolves : Val → Bool) (resolve : Bool) (v : Val) : Res Val :=
  match str v with
  | .error e => .error e
  | .ok _ => .ok (if resolve then .bool (resolves v) else .none)

/-- types/foreign_key.py 44-49 `Ref._evaluate` without `resolve`, of a value that is not None. `conv`: `Id.convert`. -/
def refEvaluate (str : Val → Res Val) (resolves : Val → Bool) (conv : Val → Res Val) (validate : Bool) (v : Val) :
    Res Val :=
  match conv v with
  | .error e => .error e
  | .ok v => if validate then (match refValidate str resolves false v with
    | .error e => .error e
    | .ok _ => .ok v) else .ok v

/-- types/collection.py 95-103 of a list whose items are references: `value[k] = t._validate(t, value[k])`; None is
left out. -/
def refsValidate (str : Val → Res Val) (resolves : Val → Bool) : List Val → Res (List Val)
  | [] => .ok []
  | v :: l => match (if v = .none then .ok .none else refValidate str resolves true v) with
    | .error e => .error e
    | .ok x => match refsValidate str resolves l with
      | .error e => .error e
      | .ok l => .ok (x :: l)

/-- types/foreign_key.py 189-194 `CanonicalName._convert`: there is no attribute `foreignClass`. -/
def canonicalConvert (_ : Val) : Res Val := .error .attributeError

/-! ### The keys of an entity -/

/-- An entity: its values, its `_primaryKeys`, the names `identityKeys` depends on (those of the class,
object_protocol.py 576-581), the attribute `_identityKeys`, the evaluated property `identityKeys`, and the inputs it
was evaluated with. Simplification: the keys are of primitive types and hold no expressions. -/
structure Ent where
  vals : AList Str Val
  pks : List Str
  deps : List Str
  attr : List Val := []
  cached : Option (List Val) := none
  inputs : List Val := []
  deriving DecidableEq, Repr

def Ent.val (e : Ent) (k : Str) : Val := (AList.get? e.vals k).getD .none

/-- instances.py 88-90 through object_protocol.py 66-86: reading `identityKeys`. -/
def readIds (e : Ent) : Ent × List Val :=
  if e.cached = none ∨ e.inputs ≠ e.deps.map e.val then
    let ks := e.pks.map e.val
    ({ e with attr := ks, cached := some ks, inputs := e.deps.map e.val }, ks)
  else (e, e.cached.getD [])

/-- object_protocol.py 93-104 with collection_protocol.py 92-98, 169-178: assigning to a property. -/
def assign (e : Ent) (k : Str) (v : Val) : Ent :=
  { e with vals := AList.set e.vals k v, cached := if v ≠ e.val k ∧ k ∈ e.deps then none else e.cached }

/-- instances.py 69-77 `__init__`: the keys are read once. -/
def newEnt (vals : AList Str Val) (pks deps : List Str) : Ent := (readIds { vals, pks, deps }).1

/-- instances.py 79-83 `__str__`: the keys that are shown. The memo `_str` is cleared whenever `_identityKeys` changes. -/
def shown (e : Ent) : List Val := e.attr

/-- managers/relationship_builder.py 28-30: the keys given to a relationship the entity is assigned to. -/
def related (e : Ent) : List Val := e.attr

/-- What is done with an entity. -/
inductive EOp where
  | assign (k : Str) (v : Val)
  | read
  deriving DecidableEq, Repr

def estep (e : Ent) : EOp → Ent
  | .assign k v => assign e k v
  | .read => (readIds e).1

def erun (e : Ent) (ops : List EOp) : Ent := ops.foldl estep e

end Verif.Entities
