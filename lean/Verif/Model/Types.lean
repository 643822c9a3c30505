import Verif.Num
import Verif.Model.Topo
import Verif.Model.Query
/-
Model of conversions, deserialisation, validation and serialisation by types:
/repo/ngoschema/types/boolean.py, type.py (Enum), array.py, object.py, collection.py,
/repo/ngoschema/protocols/serializer.py.

Simplifications: values are documents (`Val`); the evaluation of expressions and templates in strings is a
parameter; the checks left to the jsonschema library are a parameter.
-/
namespace Verif.Types
open Query (pyEq pyIn hashable)

/-! ### Boolean and Enum -/

/-- types/boolean.py 29-55 `Boolean._convert(value)`. `lower` is `str.lower`, `trues` and `falses` are the
configured word lists. -/
def boolConvert (lower : Str → Str) (trues falses : List Str) : Val → Res Val
  | .bool b => .ok (.bool b)
  | .str s =>
    if lower s ∈ trues then .ok (.bool true)
    else if lower s ∈ falses then .ok (.bool false)
    else .error .conversionError
  | .int i => if i = 0 ∨ i = 1 then .ok (.bool (i != 0)) else .error .conversionError
  | _ => .error .conversionError

/-- `Integer.check(value, convert=True)` followed by `Integer.convert(value)` (types/type.py 70-81,
protocols/converter.py 20-32): the integer, if the value is or reads as one. A bool stays a bool. -/
def asInteger (conv : Str → Str) : Val → Option Val
  | .bool b => some (.bool b)
  | .int i => some (.int i)
  | .str s => (parseInt (conv s)).map Val.int
  | _ => none

/-- types/type.py 101-119 `Enum._convert(value)`. `conv` evaluates expressions and templates. -/
def enumConvert (conv : Str → Str) (enum : List Val) (value : Val) : Res Val :=
  let s? : Option Str := match value with
    | .str s => some (conv s)
    | _ => none
  if (match s? with | some s => pyIn (.str s) enum | none => false) then .ok (.str (s?.getD []))
  else match asInteger conv value with
    | some v =>
      let i := (Query.num v).getD 0
      if pyIn v enum then .ok v
      else if i > enum.length then .error .conversionError
      else match pyIndex enum i with
        | some m => .ok m
        | none => .error .indexError
    | none => match s? with
      | none => .error .unboundLocalError
      | some s =>
        if s.isEmpty then match enum with
          | [] => .error .indexError
          | m :: _ => .ok m
        else .error .conversionError

/-! ### Inclusion -/

/-- A key of a collection: a property name or an index. -/
inductive Key where
  | name (s : Str)
  | idx (i : Nat)
  deriving DecidableEq, Repr

/-- `key in value` for names, `key < len(value)` for indices (serializer.py 26-31), on mappings and lists,
and the item; other combinations raise. -/
def itemOf (value : Val) (key : Key) : Res (Option Val) :=
  match value, key with
  | .dict d, .name s => .ok (AList.get? d s)
  | .list l, .idx i => .ok l[i]?
  | .dict d, .idx i => if i ≥ d.length then .ok none else .error .keyError
  | .list l, .name s => if pyIn (.str s) l then .error .typeError else .ok none
  | .str t, .idx i => match t[i]? with
    | some c => .ok (some (.str [c]))
    | none => .ok none
  | .str t, .name s => if Query.isInfix s t then .error .typeError else .ok none
  | _, _ => .error .typeError

/-- protocols/serializer.py 19-36 `_is_included(key, value, excludes, only, no_defaults)`. -/
def isIncluded (key : Key) (value : Val) (excludes only : List Key) (noDefaults : Bool) : Res Bool :=
  if key ∈ excludes then .ok false
  else if !only.isEmpty && key ∉ only then .ok false
  else if value = .none then .ok (!noDefaults)
  else match itemOf value key with
    | .error e => .error e
    | .ok none => .ok false
    | .ok (some v) => .ok (!(noDefaults && v = .none))

/-! ### Arrays -/

/-- `s.split(sep)`, with the separator a string: scan for it from the left. `skip` counts the characters
of a separator still to be passed. -/
def splitSep (sep : Str) : Nat → Str → List Str
  | _, [] => [[]]
  | skip + 1, _ :: s => splitSep sep skip s
  | 0, c :: s =>
    if sep.isPrefixOf (c :: s) then [] :: splitSep sep (sep.length - 1) s
    else match splitSep sep 0 s with
      | [] => [[c]]
      | w :: ws => (c :: w) :: ws

/-- Options of an array type (array.py 21-34). -/
structure ArrDecl where
  minItems : Nat := 0
  maxItems : Option Nat := none
  uniqueItems : Bool := false
  delimiter : Str := [',']
  deriving Repr

/-- types/array.py 40-55 `ArrayDeserializer._deserialize(value, split_string, many)` (the value is not
evaluated). -/
def arrDeserialize (a : ArrDecl) (split many : Bool) (value : Val) : Res (List Val) :=
  let items : Res (List Val) := match value with
    | .str s =>
      if split then
        if a.delimiter.isEmpty then .error .valueError
        else .ok ((splitSep a.delimiter 0 s).map (fun w => .str (strip isSpace w)))
      else .ok [.str s]
    | .list l => .ok l
    | v => .ok [v]
  match items with
  | .error e => .error e
  | .ok l =>
    if l.length > 1 && !many then .error .conversionError
    else .ok (l ++ List.replicate (a.minItems - l.length) .none)

/-- types/collection.py 75-83 with array.py: an empty value is replaced by the default, `[]`. -/
def arrDeserializeOr (a : ArrDecl) (split many : Bool) (value : Val) : Res (List Val) :=
  arrDeserialize a split many (if value.truthy then value else .list [])

/-- types/array.py 58-64 and 182-187 `Array._validate(value)`, items aside: `minItems`, `maxItems`,
`uniqueItems` and `items` are excluded from the schema given to jsonschema (`other`), and the error for
duplicates is built but not raised. -/
def arrValidate (other : List Val → Bool) (a : ArrDecl) (l : List Val) : Res (List Val) :=
  if !other l then .error .invalidValue
  else if a.uniqueItems && !l.all hashable then .error .typeError
  else .ok l

/-- types/array.py 84-89 `ArraySerializer._serialize(value, as_string=True)` for string items; `conv` is
`String.serialize`. -/
def arrAsString (conv : Str → Str) (a : ArrDecl) (l : List Str) : Str := joinWith a.delimiter (l.map conv)

/-! ### Objects -/

/-- A declared object type (object.py 102-145). `props`: property names with their default (`none` when
there is none); `pattern k`: `k` matches a declared pattern; `negated`: the attribute `_aliasesNegated`,
which only classes built by the object protocol have. -/
structure ObjDecl where
  props : List (Str × Val)
  pattern : Str → Bool
  additional : Bool
  required : List Str
  readOnly : List Str
  negated : Option (List Str)

/-- type_protocol.py 98-99 `_has_default`. -/
def hasDefault (o : ObjDecl) (k : Str) : Bool := ((AList.get? o.props k).getD .none).truthy

/-- object.py 205-213 `Object._deserialize(value, evaluate=False, items=False)`: defaults, then None for
the other declared properties, then the call order. `ord`: the iteration order of sets. -/
def objDeserialize (ord : List Str → List Str) (o : ObjDecl) (value : List (Str × Val)) : Res (List (Str × Val)) :=
  let withDefault := o.props.filter (fun p => p.2.truthy)
  let v1 := AList.update value (withDefault.filter (fun p => !AList.contains value p.1))
  let v2 := AList.update v1 ((o.props.filter (fun p => !AList.contains v1 p.1)).map (fun p => (p.1, .none)))
  match Topo.callOrder ord o.required (v2.map Prod.fst) [] with
  | (_, some e) => .error e
  | (ks, none) =>
    if ks.all (AList.contains v2) then .ok (ks.map (fun k => (k, (AList.get? v2 k).getD .none)))
    else .error .keyError

/-- object.py 216-228 and 59-63 `Object._validate(value)`, items aside: unknown keys, missing required
keys, then the rest of the schema (`other`). -/
def objValidate (other : List (Str × Val) → Bool) (o : ObjDecl) (value : List (Str × Val)) : Res (List (Str × Val)) :=
  if value.any (fun p => !AList.contains o.props p.1 && !o.pattern p.1 && !o.additional) then .error .invalidValue
  else if o.required.any (fun k => !AList.contains value k) then .error .invalidValue
  else if !other value then .error .invalidValue
  else .ok value

/-- What a caller of the printing functions can say. `excludes = none`: not given, the default list object
is used. -/
structure PrintOpts where
  excludes : Option (List Str) := none
  only : List Str := []
  noDefaults : Bool := true
  noReadOnly : Bool := false

/-- object.py 83-97 `ObjectSerializer._print_order(value, excludes, only, ...)`: the keys, and the content of
the default `excludes` list afterwards. -/
def printOrder (ord : List Str → List Str) (dflt : List Str) (o : ObjDecl) (p : PrintOpts) (value : List (Str × Val)) :
    List Str × List Str :=
  let excludes := p.excludes.getD dflt ++ (if p.noReadOnly then o.readOnly else [])
  let ks := value.map Prod.fst
  let ordered := ord (ks.filter (· ∈ o.required)) ++ ord (ks.filter (· ∉ o.required))
  (ordered.filter (fun k => k ∈ o.required ||
      (k ∉ excludes && (p.only.isEmpty || k ∈ p.only) && AList.contains value k &&
        !(p.noDefaults && (AList.get? value k) = some .none))),
   if p.excludes.isNone then excludes else dflt)

/-- `neg(v)`; TypeError on what is not a number. -/
def negate : Val → Res Val
  | .bool b => .ok (.int (if b then -1 else 0))
  | .int i => .ok (.int (-i))
  | _ => .error .typeError

/-- object.py 243-260, the test on one key: is it left out because it has its default value? -/
def atDefault (o : ObjDecl) (value : List (Str × Val)) (k : Str) : Res Bool :=
  if hasDefault o k then
    match o.negated with
    | none => .error .attributeError
    | some ns =>
      let v := (AList.get? value k).getD .none
      match (if k ∈ ns then negate v else .ok v) with
      | .error e => .error e
      | .ok v => .ok (pyEq v ((AList.get? o.props k).getD .none))
  else .ok false

/-- object.py 243-260 `Object._print_order(value, no_defaults, ...)`, the loop. -/
def dropDefaults (o : ObjDecl) (value : List (Str × Val)) : List Str → Res (List Str)
  | [] => .ok []
  | k :: ks => match atDefault o value k with
    | .error e => .error e
    | .ok b => match dropDefaults o value ks with
      | .error e => .error e
      | .ok r => .ok (if b then r else k :: r)

/-- object.py 243-260 `Object._print_order`. -/
def objPrintOrder (ord : List Str → List Str) (dflt : List Str) (o : ObjDecl) (p : PrintOpts) (value : List (Str × Val)) :
    Res (List Str) × List Str :=
  match printOrder ord dflt o p value with
  | (ks, dflt) => (if p.noDefaults then dropDefaults o value ks else .ok ks, dflt)

/-- The `excludes` list of the caller after a print order: the read-only names have been added to it. -/
def givenExcludes (o : ObjDecl) (p : PrintOpts) : List Str :=
  match p.excludes with
  | none => []
  | some ex => ex ++ (if p.noReadOnly then o.readOnly else [])

/-- object.py 99-102 and collection.py 116-126 `Object._serialize(value, deserialize=False, ...)`, with items that are not
collections (`ser` serialises one): keys in print order; an item that is not included stays None. -/
def objSerialize (ser : Val → Val) (ord : List Str → List Str) (dflt : List Str) (o : ObjDecl) (p : PrintOpts)
    (value : List (Str × Val)) : Res (List (Str × Val)) × List Str :=
  match objPrintOrder ord dflt o p value with
  | (.error e, dflt) => (.error e, dflt)
  | (.ok ks, dflt) =>
    let value := ks.map (fun k => (k, (AList.get? value k).getD .none))
    match objPrintOrder ord dflt o p value with
    | (.error e, dflt) => (.error e, dflt)
    | (.ok ks, dflt) =>
      (.ok (ks.map (fun k =>
        let v := (AList.get? value k).getD .none
        if (match isIncluded (.name k) (.dict value) ((givenExcludes o p).map Key.name) (p.only.map Key.name) p.noDefaults with
            | .ok b => b
            | .error _ => false)
        then (k, ser v) else (k, .none))), dflt)

end Verif.Types
