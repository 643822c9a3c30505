import Verif.Model.Mro
import Verif.Model.Names
/-
Classes built from schemas: protocols/object_protocol.py 513-797 `ObjectProtocol.build`, and Python classes derived from
them without the metaclass.

Simplifications:
* A class is a number: its place in the list of the classes created so far. `bases` and `exts` (the keyword `extends`) of a declaration are
  such numbers, i.e. the classes `type_builder.load(scope(e, id))` returns (544); type proxies as bases are left out.
  `ObjectProtocol` itself and its bases, which declare nothing, are not in the list.
* `Decl` is what `build` gets: of the schema the keywords it looks at, of `attrs` the values, the functions, and the
  attributes `_required`, `_readOnly`, `_notSerialized`, `_notValidated`, `_primaryKeys`. Sets are lists, of which only
  membership matters. Relationships, pattern and additional properties, definitions, loggers and validators are left out.
* The type of a property is its identifier and its schema, of which the default is looked at; the rest is a number.
  `type_builder.build` (managers/type_builder.py 65-98) returns the type registered under the identifier if there is one.
* `ptype.check(attr, ...)` and the serialisation of `attr` (678-681) are the parameter `dflt`: none when refused.
  `inspect_function` (519-522) is the parameter `dependOn`: the names given to `depend_on_prop` decorators of a function.
* Python's method resolution order is computed by `Mro.mro`. Every local descriptor becomes an attribute (783 leaves out
  those with the name of a method of a base).
* Functions are numbers; the names `get_x`, `set_x`, `del_x` are only given to functions.
-/
namespace Verif.Classes

/-- The schema of a property: its default (None: no default) and the rest. -/
structure Sch where
  body : Nat
  default : Val := .none
  deriving DecidableEq, Repr

/-- A property type. -/
structure Ty where
  id : Str
  sch : Sch
  deriving DecidableEq, Repr

/-- Accessors of a property. -/
structure Funs where
  get : Option Nat := none
  set : Option Nat := none
  del : Option Nat := none
  deriving DecidableEq, Repr

/-- object_protocol.py 55-63 `PropertyDescriptor`; `owner` is the class whose construction made it. -/
structure Desc where
  owner : Nat
  ty : Ty
  funs : Funs
  deriving DecidableEq, Repr

/-- Four keywords treated alike (584-587). -/
inductive Kind where
  | required | readOnly | notSerialized | notValidated
  deriving DecidableEq, Repr

structure Decl where
  id : Str
  bases : List Nat := []
  exts : List Nat := []
  props : AList Str Sch := []
  sets : Kind → Option (List Str) := fun _ => none
  attrSets : Kind → Option (List Str) := fun _ => none
  deps : AList Str (List Str) := []
  primaryKeys : Option (List Str) := none
  attrPrimaryKeys : Option (List Str) := none
  aliases : AList Str Str := []
  negated : AList Str Str := []
  /-- Other keywords of the schema (676). -/
  keywords : AList Str Val := []
  attrs : AList Str Val := []
  methods : AList Str Nat := []

/-- What the user writes: a class built from a schema, or an ordinary Python class. -/
inductive Item where
  | built (d : Decl)
  | plain (bases : List Nat) (methods : AList Str Nat)

/-- The attributes `build` sets together (740-774). -/
structure Info where
  props : AList Str Ty
  descs : AList Str Desc
  sets : Kind → List Str
  deps : AList Str (List Str)
  primaryKeys : List Str
  aliases : AList Str Str
  negated : AList Str Str
  withDefault : List Str

/-- A class: its method resolution order, the attributes above if it is derived from `ObjectProtocol`, its own
descriptors and methods. -/
structure Cls where
  mro : List Nat
  info : Option Info
  own : AList Str Desc := []
  methods : AList Str Nat := []

structure World where
  classes : List (Item × Cls) := []
  /-- The registry of types, for the types of properties. -/
  reg : AList Str Ty := []

structure Params where
  dflt : Ty → Val → Option Val
  dependOn : Nat → List Str

def World.cls? (w : World) (i : Nat) : Option Cls := (w.classes[i]?).map Prod.snd
def World.mro (w : World) (i : Nat) : List Nat := ((w.cls? i).map Cls.mro).getD []
def World.info (w : World) (i : Nat) : Option Info := (w.cls? i).bind Cls.info
/-- `issubclass(i, j)`. -/
def World.isSub (w : World) (i j : Nat) : Bool := j ∈ w.mro i
/-- `getattr(i, name, None)` for a function. -/
def World.method (w : World) (i : Nat) (name : Str) : Option Nat :=
  (w.mro i).findSome? (fun j => (w.cls? j).bind (fun c => c.methods.get? name))

/-- `dict(ChainMap(*maps))`. -/
def firstOf {υ : Type} (ms : List (AList Str υ)) : AList Str υ :=
  ms.foldl (fun d m => m.foldl (fun d p => if d.contains p.1 then d else d ++ [p]) d) []

/-- `dependencies[k].update(xs)` on a defaultdict of sets. -/
def updDep (m : AList Str (List Str)) (k : Str) (xs : List Str) : AList Str (List Str) :=
  m.set k ((m.get? k).getD [] ++ xs)
def updDeps (m new : AList Str (List Str)) : AList Str (List Str) := new.foldl (fun m p => updDep m p.1 p.2) m

/-- `f'{id}/properties/{k}'`. -/
def typeId (id k : Str) : Str := id ++ "/properties/".toList ++ k

/-- managers/type_builder.py 65-98 for the type of a property. -/
def buildType (reg : AList Str Ty) (id : Str) (s : Sch) : Ty × AList Str Ty :=
  match reg.get? id with
  | some t => (t, reg)
  | none => (⟨id, s⟩, reg.set id ⟨id, s⟩)

/-- 591-592 (and 708-709): the types of some properties. -/
def buildTypes (id : Str) : AList Str Sch → AList Str Ty → AList Str Ty × AList Str Ty
  | [], reg => ([], reg)
  | (k, s) :: ps, reg =>
    let r := buildType reg (typeId id k) s
    let rest := buildTypes id ps r.2
    ((k, r.1) :: rest.1, rest.2)

/-- The keywords of a schema that are never defaults (config/settings.py 99-101). -/
def defKeys : List Str :=
  ["type", "extends", "dependencies", "aliases", "negatedAliases", "notSerialized", "notValidated", "default",
   "required", "readOnly", "properties", "patternProperties", "additionalProperties", "primaryKeys", "$defs", "items",
   "convert", "validate", "serialize"].map String.toList

/-- What the loop over all properties (667-704) works on. -/
structure Loop where
  attrs : AList Str Val
  methods : AList Str Nat
  extra : AList Str Sch := []
  withDefault : List Str
  funs : AList Str Funs := []
  deps : AList Str (List Str)

/-- A value, None being no value. -/
def value? : Option Val → Option Val
  | some .none => none
  | v => v

/-- 692-696. -/
def accessor (w : World) (methods : AList Str Nat) (bases : List Nat) (name : Str) : Option Nat :=
  match methods.get? name with
  | some f => some f
  | none => bases.findSome? (fun b => w.method b name)

/-- 697-701. -/
def addDepends (p : Params) (k : Str) (f : Option Nat) (deps : AList Str (List Str)) : AList Str (List Str) :=
  match f with
  | some f => if (p.dependOn f).isEmpty then deps else updDep deps k (p.dependOn f)
  | none => deps

/-- 690-704 for one property. -/
def accessors (p : Params) (w : World) (bases : List Nat) (k : Str) (l : Loop) : Loop :=
  let t := Names.cleanJsName k
  let g := accessor w l.methods bases ("get_".toList ++ t)
  let s := accessor w l.methods bases ("set_".toList ++ t)
  let d := accessor w l.methods bases ("del_".toList ++ t)
  let deps := addDepends p k d (addDepends p k s (addDepends p k g l.deps))
  { l with deps, funs := if g.isSome || s.isSome || d.isSome then l.funs.set k ⟨g, s, d⟩ else l.funs }

/-- 672-676. -/
def attrOf (d : Decl) (k : Str) (l : Loop) : Option Val :=
  match value? (l.attrs.get? (Names.cleanJsName k)) with
  | some v => some v
  | none => if k ∈ defKeys then none else value? (d.keywords.get? k)

/-- 667-704 for one property. -/
def visit (p : Params) (w : World) (d : Decl) (bases : List Nat) (k : Str) (ty : Ty) (l : Loop) : Res Loop :=
  let t := Names.cleanJsName k
  let rest := { l with attrs := l.attrs.erase t, methods := l.methods.erase t }
  match attrOf d k l with
  | none => .ok (accessors p w bases k rest)
  | some v => match p.dflt ty v with
    | none => .error .invalidValue
    | some v' => .ok (accessors p w bases k
        { rest with extra := rest.extra.set k { ty.sch with default := v' }, withDefault := rest.withDefault ++ [k] })

def visitAll (p : Params) (w : World) (d : Decl) (bases : List Nat) : AList Str Ty → Loop → Res Loop
  | [], l => .ok l
  | (k, ty) :: ps, l => match visit p w d bases k ty l with
    | .error e => .error e
    | .ok l => visitAll p w d bases ps l

/-- 545. -/
def extended (w : World) (d : Decl) : List Nat := d.exts.filter (fun e => !d.bases.any (fun b => w.isSub b e))
/-- 547. -/
def keptBases (w : World) (d : Decl) : List Nat := d.bases.filter (fun b => !(extended w d).any (fun e => w.isSub e b))
/-- 546 and 548. -/
def protoBases (w : World) (d : Decl) : List Nat :=
  (keptBases w d).filter (fun b => (w.info b).isSome) ++ extended w d

/-- The attributes of some classes. -/
def infos (w : World) (bs : List Nat) : List Info := bs.filterMap w.info

/-- 576-579. -/
def primaryKeysOf (w : World) (d : Decl) : List Str :=
  let own := match d.attrPrimaryKeys with | some ks => ks | none => d.primaryKeys.getD []
  if own.isEmpty then
    (infos w (protoBases w d)).foldl (fun ks i => ks ++ i.primaryKeys.filter (fun k => !ks.contains k)) []
  else own

/-- 565-581. -/
def depsBefore (w : World) (d : Decl) : AList Str (List Str) :=
  let deps := (infos w (protoBases w d)).foldl (fun m i => updDeps m i.deps) (updDeps [] d.deps)
  if (primaryKeysOf w d).isEmpty then deps else deps.set "identityKeys".toList (primaryKeysOf w d)

/-- 584-587. -/
def setsOf (w : World) (d : Decl) (q : Kind) : List Str :=
  (match d.sets q with | some ks => ks | none => (d.attrSets q).getD []) ++
    (infos w (protoBases w d)).flatMap (fun i => i.sets q)

/-- 716-726. -/
def descriptors (owner : Nat) (funs : AList Str Funs) (tys : AList Str Ty) : AList Str Desc :=
  tys.map (fun q => (q.1, ⟨owner, q.2, (funs.get? q.1).getD {}⟩))

/-- The attributes set at the end (740-774): `tys` are the local properties, redefined ones included. -/
def infoOf (w : World) (d : Decl) (tys : AList Str Ty) (l : Loop) (own : AList Str Desc) : Info where
  props := firstOf (tys :: (infos w (protoBases w d)).map Info.props)
  descs := firstOf (own :: (infos w (protoBases w d)).map Info.descs)
  sets := setsOf w d
  deps := l.deps
  primaryKeys := primaryKeysOf w d
  aliases := firstOf (d.aliases :: (infos w (protoBases w d)).map Info.aliases)
  negated := firstOf (d.negated :: (infos w (protoBases w d)).map Info.negated)
  withDefault := l.withDefault ++ (tys.filter (fun q => q.2.sch.default.truthy)).map Prod.fst

/-- What the loop starts with. -/
def loopStart (w : World) (d : Decl) : Loop where
  attrs := d.attrs
  methods := d.methods
  withDefault := (infos w (protoBases w d)).flatMap Info.withDefault
  deps := depsBefore w d

/-- object_protocol.py 513-797: the class, or an exception, and the registry. -/
def build (p : Params) (w : World) (d : Decl) : Res Cls × AList Str Ty :=
  let owner := w.classes.length
  let r := buildTypes d.id d.props w.reg
  let all := firstOf (r.1 :: (infos w (protoBases w d)).map Info.props)
  match visitAll p w d (keptBases w d) all (loopStart w d) with
  | .error e => (.error e, r.2)
  | .ok l =>
    let r2 := buildTypes d.id l.extra r.2
    let tys := r.1.update r2.1
    let own := descriptors owner l.funs tys
    match Mro.mro w.mro (keptBases w d ++ extended w d) with
    | .error e => (.error e, r2.2)
    | .ok m => (.ok ⟨owner :: m, some (infoOf w d tys l own), own, l.methods⟩, r2.2)

/-- An ordinary class: the attributes are inherited from the first class that has them. -/
def derive (w : World) (bases : List Nat) (methods : AList Str Nat) : Res Cls :=
  match Mro.mro w.mro bases with
  | .error e => .error e
  | .ok m => .ok ⟨w.classes.length :: m, m.findSome? w.info, [], methods⟩

def Item.parents : Item → List Nat
  | .built d => d.bases ++ d.exts
  | .plain bases _ => bases

def Item.extended : Item → List Nat
  | .built d => d.exts
  | .plain _ _ => []

/-- Creating a class; an exception leaves the classes as they are. Nothing happens when a class to derive from does not
exist or when a class to extend was not built from a schema, which cannot be written. -/
def exec (p : Params) (w : World) (it : Item) : World :=
  if !it.parents.all (· < w.classes.length) || !it.extended.all (fun e => (w.info e).isSome) then w
  else match it with
    | .built d => match build p w d with
      | (.ok c, reg) => ⟨w.classes ++ [(it, c)], reg⟩
      | (.error _, reg) => { w with reg }
    | .plain bases methods => match derive w bases methods with
      | .ok c => { w with classes := w.classes ++ [(it, c)] }
      | .error _ => w

/-- A program. -/
def run (p : Params) (its : List Item) : World := its.foldl (exec p) {}

/-- What `type(obj).k` finds: the descriptor of the first class in resolution order that has its own. -/
def World.attribute (w : World) (i : Nat) (k : Str) : Option Desc :=
  (w.mro i).findSome? (fun j => (w.cls? j).bind (fun c => c.own.get? k))
/-- What `obj[k]` uses. -/
def World.item (w : World) (i : Nat) (k : Str) : Option Desc := (w.info i).bind (fun f => f.descs.get? k)

end Verif.Classes
