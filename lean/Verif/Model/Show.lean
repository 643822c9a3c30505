import Verif.Num
import Verif.Model.Array
import Verif.Model.Object
import Verif.Model.Strings
/-
Texts: of instances (protocols/array_protocol.py 86-99, protocols/object_protocol.py 475-493, with the resets of
protocols/collection_protocol.py 88-98), of log messages (utils/str_utils.py 28-140) and of logged calls
(decorators.py 178-240).

Simplifications:
* `repr` and `str` of a value are parameters (`rep`, `shown`). A value that is itself an instance is a list or a
  dictionary.
* Classes have no getters here, so that reading a property never assigns data (object_protocol.py 80-81) and never
  resets the texts.
* `settings.PPRINT_MAX_EL` and `PPRINT_MAX_STRL` have the values of config/settings.py 61-62.
-/
namespace Verif.Show
open Strings (shorten)

/-- settings.py 61. -/
abbrev maxEl : Nat := 10
/-- settings.py 62. -/
abbrev maxStrl : Nat := 40

/-- `a or b`. -/
def orElse (a b : Val) : Val := if a.truthy then a else b

/-- `'+%i...' % n`. -/
def plus (n : Nat) : Str := '+' :: (showNat n ++ ['.', '.', '.'])

/-- `['+%i...' % hidden] if hidden else []`. -/
def tail (hidden : Nat) : List Str := if hidden = 0 then [] else [plus hidden]

/-- `', '.join(l)`. -/
def commas (l : List Str) : Str := joinWith [',', ' '] l

/-! ### Arrays -/

/-- An array instance with `_str`. -/
structure SArr where
  arr : Arr.Arr
  str : Option Str
  deriving DecidableEq, Repr

/-- The number of pairs of types/array.py 125-127 `_items_types`; `types` is the length of a list of item types. -/
def typeCount (types : Option Nat) (n : Nat) : Nat :=
  match types with
  | none => n
  | some m => min m n

/-- The comprehension of array_protocol.py 89-91. -/
def parts (rep : Val → Str) (a : Arr.Arr) : List Nat → Res (List Str)
  | [] => .ok []
  | i :: is =>
    match Arr.getAt a.validated i with
    | .error e => .error e
    | .ok v =>
      match (if v.truthy then .ok v else Arr.getAt a.data i) with
      | .error e => .error e
      | .ok w =>
        match parts rep a is with
        | .error e => .error e
        | .ok r => .ok (shorten (rep w) maxStrl :: r)

/-- array_protocol.py 86-93 `_str_list`. -/
def strList (rep : Val → Str) (types : Option Nat) (s : SArr) : Res Str × SArr :=
  match s.str with
  | some t => (.ok t, s)
  | none =>
    let n := s.arr.data.length
    match parts rep s.arr ((List.range (typeCount types n)).filter (· < maxEl)) with
    | .error e => (.error e, s)
    | .ok a =>
      let t := '[' :: (commas (a ++ tail (n - maxEl)) ++ [']'])
      (.ok t, { s with str := some t })

/-- Operations on an array; `_str` is none of what array_protocol.py 75-84 and collection_protocol.py 144-160 write. -/
inductive AOp where
  | op (o : Arr.Op)
  | show
  deriving Repr

def aStep (rep : Val → Str) (types : Option Nat) (cfg : Arr.Cfg) (o : AOp) (s : SArr) : SArr :=
  match o with
  | .op o => { s with arr := (Arr.step cfg o s.arr).2 }
  | .show => (strList rep types s).2

def aRun (rep : Val → Str) (types : Option Nat) (cfg : Arr.Cfg) : List AOp → SArr → SArr
  | [], s => s
  | o :: os, s => aRun rep types cfg os (aStep rep types cfg o s)

/-! ### Objects -/

/-- An object instance with `_str` and `_repr`. -/
structure SObj where
  obj : Obj.Obj
  str : Option Str := none
  repr : Option Str := none
  deriving DecidableEq, Repr

/-- The comprehensions of object_protocol.py 480 and 490; `eq` is `'='` or `': '`. -/
def entries (rep : Val → Str) (eq : Str) (o : Obj.Obj) : List Str → Res (List Str)
  | [] => .ok []
  | k :: ks =>
    match o.validated.get? k with
    | none => .error .keyError
    | some v =>
      match (if v.truthy then some v else o.data.get? k) with
      | none => .error .keyError
      | some w =>
        match entries rep eq o ks with
        | .error e => .error e
        | .ok r => .ok ((k ++ eq ++ shorten (rep w) maxStrl) :: r)

/-- What is printed of an object: the entries and the number of the hidden ones. `dflt` is the content of the default
list of `excludes` (types/object.py 83, 92), which is returned too. -/
def listing (rep : Val → Str) (eq : Str) (ord : List Str → List Str) (d : Types.ObjDecl) (noReadOnly : Bool)
    (dflt : List Str) (o : Obj.Obj) : Res (List Str) × List Str :=
  match Types.objPrintOrder ord dflt d { noDefaults := true, noReadOnly := noReadOnly } o.data with
  | (.error e, dflt) => (.error e, dflt)
  | (.ok ks, dflt) =>
    match entries rep eq o (ks.take maxEl) with
    | .error e => (.error e, dflt)
    | .ok a => (.ok (a ++ tail (ks.length - maxEl)), dflt)

/-- object_protocol.py 485-493 `__str__`. -/
def strOf (rep : Val → Str) (ord : List Str → List Str) (d : Types.ObjDecl) (dflt : List Str) (s : SObj) :
    Res Str × SObj × List Str :=
  match s.str with
  | some t => (.ok t, s, dflt)
  | none =>
    match listing rep [':', ' '] ord d false dflt s.obj with
    | (.error e, dflt) => (.error e, s, dflt)
    | (.ok a, dflt) =>
      let t := '{' :: (commas a ++ ['}'])
      (.ok t, { s with str := some t }, dflt)

/-- object_protocol.py 475-483 `__repr__`; `qn` is `self.qualname()`. -/
def reprOf (rep : Val → Str) (qn : Str) (ord : List Str → List Str) (d : Types.ObjDecl) (dflt : List Str) (s : SObj) :
    Res Str × SObj × List Str :=
  match s.repr with
  | some t => (.ok t, s, dflt)
  | none =>
    match listing rep ['='] ord d true dflt s.obj with
    | (.error e, dflt) => (.error e, s, dflt)
    | (.ok a, dflt) =>
      let t := qn ++ '(' :: (commas a ++ [')'])
      (.ok t, { s with repr := some t }, dflt)

/-- Whether `self[key] = v` comes to `_items_touch` (object_protocol.py 428-431, 96-98, collection_protocol.py
169-177). -/
def touches (c : Obj.Cls) (key : Str) (v : Val) (o : Obj.Obj) : Bool :=
  match Obj.rawName c key with
  | none => false
  | some raw =>
    if raw ∈ c.props then
      match Obj.op c key v with
      | .error _ => false
      | .ok w =>
        if raw ∈ c.readOnly then false
        else match o.data.get? raw with
          | none => false
          | some orig => !(c.prim raw && Query.pyEq w orig)
    else false

/-- An operation on an object: collection_protocol.py 88-93 resets the texts where items are touched. -/
def oStep (c : Obj.Cls) (n : Nat) (o : Obj.Op) (s : SObj) : SObj :=
  match o with
  | .set k v =>
    { obj := (Obj.setItem c n k v s.obj).2
      str := if touches c k v s.obj then none else s.str
      repr := if touches c k v s.obj then none else s.repr }
  | o => { s with obj := Obj.step c n s.obj o }

/-! ### Log messages -/

/-- What is given to the printer: a text, a list (or tuple), a mapping, a set. -/
inductive Logged where
  | text (s : Str)
  | list (l : List Val)
  | dict (d : List (Str × Val))
  | set (l : List Val)
  deriving Repr

/-- str_utils.py 86-88 at level 0, with `depth=2` (124): `(1 + depth - level) * maxCollLen`. -/
abbrev maxColl : Nat := 3 * (maxEl * maxStrl)

/-- str_utils.py 92-95 and 98-101: the mark of what is hidden goes before the last closing bracket, then the text is
cut. -/
def cutColl (close : Char) (len : Nat) (rep : Str) : Res Str :=
  match (if maxEl ≤ len then Strings.rreplace rep [close] (plus (len - maxEl) ++ [close]) 1 else .ok rep) with
  | .error e => .error e
  | .ok rep =>
    .ok (if maxColl ≤ rep.length then rep.take maxColl ++ ['.', '.', '.', close] else rep)

/-- str_utils.py 73-121 `_format`, as called by `log_format` (124-125): the width (10000) is never exceeded. `rep` is
the `_repr` of a value, `repSet` is not needed: a set has no slice. -/
def logFormat (rep : Val → Str) : Logged → Res Str
  | .dict d => cutColl '}' d.length (rep (.dict (d.take maxEl)))
  | .list l => cutColl ']' l.length (rep (.list (l.take maxEl)))
  | .set _ => .error .typeError
  | .text s => .ok (rep (.str (if maxStrl ≤ s.length then s.take maxStrl ++ plus (s.length - maxStrl) else s)))

/-- A piece of a format: literal text, or a numbered argument. -/
inductive Piece where
  | lit (s : Str)
  | arg (i : Nat)
  deriving DecidableEq, Repr

/-- `fmt.format(*args)`; `shown` is `str`. -/
def fill (shown : Val → Str) (args : List Val) : List Piece → Res Str
  | [] => .ok []
  | .lit s :: ps => match fill shown args ps with
    | .error e => .error e
    | .ok t => .ok (s ++ t)
  | .arg i :: ps => match args[i]? with
    | none => .error .indexError
    | some v => match fill shown args ps with
      | .error e => .error e
      | .ok t => .ok (shown v ++ t)

/-- str_utils.py 138-142: the arguments to be formatted are replaced by their texts; `lf` is `log_format`. -/
def reformat (lf : Val → Str) : List Nat → List Val → Res (List Val)
  | [], args => .ok args
  | a :: as, args => match args[a]? with
    | none => .error .indexError
    | some v => reformat lf as (args.set a (.str (lf v)))

/-- A `lazy_format` with positional arguments. -/
structure Lazy where
  fmt : List Piece
  args : List Val
  toFormat : List Nat
  deriving DecidableEq, Repr

/-- str_utils.py 137-143 `__str__`. -/
def lazyStr (shown lf : Val → Str) (z : Lazy) : Res Str × Lazy :=
  match reformat lf z.toFormat z.args with
  | .error e => (.error e, z)
  | .ok args => (fill shown args z.fmt, { z with args := args })

/-! ### Logged calls -/

/-- An argument: a tuple, or something else with what its `repr` gives. -/
inductive Arg where
  | tuple (items : List Arg)
  | plain (repr : Res Str)
  deriving Repr

mutual
/-- `repr(a)`. -/
def Arg.repr : Arg → Res Str
  | .plain r => r
  | .tuple items => match Arg.reprs items with
    | .error e => .error e
    | .ok l => .ok ('(' :: (commas l ++ (if l.length = 1 then [',', ')'] else [')'])))
def Arg.reprs : List Arg → Res (List Str)
  | [] => .ok []
  | a :: as => match Arg.repr a with
    | .error e => .error e
    | .ok t => match Arg.reprs as with
      | .error e => .error e
      | .ok l => .ok (t :: l)
end

/-- `"%r" % a`: a tuple is taken as the list of the arguments of the format. -/
def percentR : Arg → Res Str
  | .tuple [a] => a.repr
  | .tuple _ => .error .typeError
  | .plain r => r

/-- Collecting results in turn. -/
def allOk {α β} (f : α → Res β) : List α → Res (List β)
  | [] => .ok []
  | a :: as => match f a with
    | .error e => .error e
    | .ok b => match allOk f as with
      | .error e => .error e
      | .ok l => .ok (b :: l)

/-- `"%s=%r" % (a, v)`. -/
def keyword (p : Str × Arg) : Res Str :=
  match p.2.repr with
  | .error e => .error e
  | .ok t => .ok (p.1 ++ '=' :: t)

/-- decorators.py 178-186 `_format_call_msg(funcname, args, kwargs)`. -/
def callMsg (name : Str) (args : List Arg) (kwargs : List (Str × Arg)) : Res Str :=
  match allOk percentR args with
  | .error e => .error e
  | .ok a => match allOk keyword kwargs with
    | .error e => .error e
    | .ok k => .ok (name ++ '(' :: (commas (a ++ k) ++ [')']))

/-- What a logged call meets: the object it is called on (`none`: a plain function), with its `repr` and whether it has
a `_logger`, the same for the first argument, and the name of the method. -/
structure Owner where
  repr : Res Str
  logger : Bool

structure Call where
  owner : Option Owner
  first : Option Owner
  name : Str
  args : List Arg
  kwargs : List (Str × Arg)

/-- decorators.py 198-200: the object in whose name the call is logged. -/
def subject (c : Call) : Option Owner :=
  match c.owner with
  | some o => some o
  | none => c.first

/-- `_format_call_msg("%r.%s" % (instance, name), args, kwargs)`. -/
def ownerMsg (o : Owner) (c : Call) : Res Str :=
  match o.repr with
  | .error e => .error e
  | .ok r => callMsg (r ++ '.' :: c.name) c.args c.kwargs

/-- An entry of the log: the level and the exception it mentions. -/
inductive Entry where
  | debug (msg : Str)
  | info (msg : Str)
  | error (msg : Str) (e : Exc)
  deriving DecidableEq, Repr

/-- decorators.py 203-219, the handler: what is raised after `e`, with the entry written. -/
def handle (o : Owner) (c : Call) (e : Exc) : Exc × List Entry :=
  if o.logger then
    match ownerMsg o c with
    | .error e' => (e', [])
    | .ok m => (e, [.error m e])
  else (e, [])

/-- decorators.py 203-208, before the call. -/
def debugEntry (o : Owner) (c : Call) : Res (List Entry) :=
  if o.logger then
    match ownerMsg o c with
    | .error e => .error e
    | .ok m => .ok [.debug m]
  else .ok []

/-- decorators.py 189-219 `log_exceptions`: the result, the state left by the method, and the log. -/
def logExceptions {σ α} (method : σ → Res α × σ) (c : Call) (s : σ) : Res α × σ × List Entry :=
  match subject c with
  | none => (.error .indexError, s, [])
  | some o =>
    match debugEntry o c with
    | .error e => let h := handle o c e; (.error h.1, s, h.2)
    | .ok log =>
      match method s with
      | (.ok a, s) => (.ok a, s, log)
      | (.error e, s) => let h := handle o c e; (.error h.1, s, log ++ h.2)

/-- decorators.py 222-240 `log_init`; `name` is the text `INIT <class>.__init__`. -/
def logInit {σ α} (init : σ → Res α × σ) (logger : Bool) (name : Str) (args : List Arg) (kwargs : List (Str × Arg)) (s : σ) :
    Res α × σ × List Entry :=
  if logger then
    match callMsg name args kwargs with
    | .error e => (.error e, s, [])
    | .ok m =>
      match init s with
      | (.ok a, s) => (.ok a, s, [.info m])
      | (.error e, s) => (.error e, s, [.info m, .error m e])
  else (.error .attributeError, s, [])

end Verif.Show
