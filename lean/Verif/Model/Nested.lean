import Verif.Val
import Verif.Model.Topo
/-
Model of types of collections, nested in each other, as they act on plain data: /repo/ngoschema/types/collection.py,
array.py and object.py over protocols/validator.py and protocols/serializer.py.

Simplifications. A type that is no collection is a `Leaf`: its conversion, validation and default are arbitrary. (The
builder makes classes of instances for collections declared inside a schema: to be read as leaves here.) The types of
items are functions of the place: of the index, of the name (declared properties, patterns and additional properties
together, as `Object._items_type` chooses). What the jsonschema library finds with the schema of the collection itself is
arbitrary (`own`), given the keywords that are excluded. No `uniqueItems`, no `splitString`, no dependencies, no
`excludes` or `only` of a caller. What is no collection is refused first by `validate`. Objects are made from mappings and empty sequences only. `ord` is the iteration order
of sets.
-/
namespace Verif.Nested

/-- A type that is no collection: conversion, validation without `type` and without excluded keywords, default. -/
structure Leaf where
  conv : Val → Res Val
  valid : List Str → Val → Bool
  dflt : Val

/-- An array type. -/
structure Arr where
  own : List Str → List Val → Bool
  dflt : List Val
  minItems : Nat

/-- An object type. `known k`: a type is declared for the name; `props`: the declared properties; `defaults`: what
`default` gives for those that have one. -/
structure Obj where
  known : Str → Bool
  props : List Str
  required : List Str
  own : List Str → List (Str × Val) → Bool
  dflt : List (Str × Val)
  defaults : List (Str × Val)

/-- Types. `arr a none item`: one type for all items (`item` is constant); `arr a (some n) item`: a list of n types. -/
inductive Ty where
  | leaf (l : Leaf)
  | arr (a : Arr) (n : Option Nat) (item : Nat → Ty)
  | obj (o : Obj) (field : Str → Ty)

/-- Is there no type for the index? -/
def beyond (n : Option Nat) (i : Nat) : Bool :=
  match n with
  | none => false
  | some n => decide (n ≤ i)

/-- The loop over the items of a list. -/
def each {β : Type} (f : Nat → Val → Res β) : Nat → List Val → Res (List β)
  | _, [] => .ok []
  | i, v :: vs => match f i v with
    | .error e => .error e
    | .ok w => match each f (i + 1) vs with
      | .error e => .error e
      | .ok ws => .ok (w :: ws)

/-- The loop over the items of a mapping. -/
def eachKey {β : Type} (f : Str → Val → Res β) : List (Str × Val) → Res (List (Str × β))
  | [] => .ok []
  | (k, v) :: d => match f k v with
    | .error e => .error e
    | .ok w => match eachKey f d with
      | .error e => .error e
      | .ok d' => .ok ((k, w) :: d')

/-- `list(value)`. -/
def toList : Val → Option (List Val)
  | .list l => some l
  | .str s => some (s.map fun c => .str [c])
  | .dict d => some (d.map fun p => .str p.1)
  | _ => none

/-- `OrderedDict(value)`. -/
def toDict : Val → Option (List (Str × Val))
  | .dict d => some d
  | .list [] => some []
  | .str [] => some []
  | _ => none

/-- object.py 30-46 `_call_order`, without dependencies. -/
def order (ord : List Str → List Str) (required keys : List Str) : List Str :=
  (Topo.callOrder ord required keys []).1

/-- collection.py 85-93 `Collection._convert`, array.py 36-39, object.py 54-57. All types of items are looked up first. -/
def convert (ord : List Str → List Str) : Ty → Val → Res Val
  | .leaf l, v => l.conv v
  | .arr _ n item, v => match toList v with
    | none => .error .typeError
    | some l => match each (fun i x => if x = .none ∨ beyond n i = true then .ok x else convert ord (item i) x) 0 l with
      | .error e => .error e
      | .ok l' => .ok (.list l')
  | .obj o field, v => match toDict v with
    | none => .error .typeError
    | some d =>
      if d.any fun p => !o.known p.1 then .error .keyError
      else match eachKey (fun k x => if x = .none then .ok x else convert ord (field k) x) d with
        | .error e => .error e
        | .ok d' => .ok (.dict ((order ord o.required (AList.keys d')).map fun k => (k, (AList.get? d' k).getD .none)))

/-- array.py 182. -/
def arrayKeywords : List Str := ["minItems".toList, "maxItems".toList, "uniqueItems".toList, "items".toList]

/-- object.py 217. -/
def objectKeywords : List Str :=
  ["required".toList, "properties".toList, "propertiesAdditional".toList, "additionalProperties".toList]

/-- collection.py 95-104 `Collection._validate`, array.py 58-65, 180-186, object.py 59-63, 216-229. `ex`: the excluded
keywords, which are handed on to the types of the items and are names of items that are left out. -/
def validate : Ty → List Str → Val → Res Unit
  | .leaf l, ex, v => if l.valid ex v then .ok () else .error .invalidValue
  | .arr a n item, ex, v => match toList v with
    | none => .error .typeError
    | some l =>
      if !a.own (ex ++ arrayKeywords) l then .error .invalidValue
      else match each (fun i x => if x = .none ∨ beyond n i = true then .ok ()
          else validate (item i) (ex ++ arrayKeywords) x) 0 l with
        | .error e => .error e
        | .ok _ => .ok ()
  | .obj o field, ex, v => match toDict v with
    | none => .error .typeError
    | some d =>
      if d.any fun p => !o.known p.1 then .error .invalidValue
      else if o.required.any fun k => !AList.contains d k then .error .invalidValue
      else if !o.own (ex ++ objectKeywords) d then .error .invalidValue
      else match eachKey (fun k x => if x = .none ∨ k ∈ ex ++ objectKeywords then .ok ()
          else validate (field k) (ex ++ objectKeywords) x) d with
        | .error e => .error e
        | .ok _ => .ok ()

/-- `value[k] = …` for the given names, if they are there. -/
def assign (f : Str → Val → Res Val) : List Str → List (Str × Val) → Res (List (Str × Val))
  | [], d => .ok d
  | k :: ks, d => match AList.get? d k with
    | none => assign f ks d
    | some v => match f k v with
      | .error e => .error e
      | .ok w => assign f ks (AList.set d k w)

/-- validator.py 74-85 `Validator._evaluate`, the conversion apart. -/
def checked (t : Ty) (v : Val) : Res Val :=
  match validate t [] v with
  | .error e => .error e
  | .ok _ => .ok v

/-- collection.py 106-114 `Collection._evaluate` over validator.py 74-85; `c` is the option `convert`. -/
def evaluate (ord : List Str → List Str) : Ty → Bool → Val → Res Val
  | .leaf l, c, v =>
    if v = .none ∧ l.dflt = .none then .ok .none
    else match (if c then l.conv (if v = .none then l.dflt else v) else .ok (if v = .none then l.dflt else v)) with
      | .error e => .error e
      | .ok w => checked (.leaf l) w
  | .arr a n item, c, v =>
    match (if c then convert ord (.arr a n item) (if v = .none then .list a.dflt else v)
        else .ok (if v = .none then .list a.dflt else v)) with
    | .error e => .error e
    | .ok (.list l) =>
      match each (fun i x => if beyond n i = true then .error .indexError else evaluate ord (item i) false x) 0 l with
      | .error e => .error e
      | .ok l' => checked (.arr a n item) (.list l')
    | .ok _ => .error .typeError
  | .obj o field, c, v =>
    match (if c then convert ord (.obj o field) (if v = .none then .dict o.dflt else v)
        else .ok (if v = .none then .dict o.dflt else v)) with
    | .error e => .error e
    | .ok (.dict d) =>
      match assign (fun k x => if o.known k then evaluate ord (field k) false x else .error .keyError)
          (order ord o.required (AList.keys d)) d with
      | .error e => .error e
      | .ok d' => checked (.obj o field) (.dict d')
    | .ok _ => .error .typeError

/-- array.py 39-55 `ArrayDeserializer._deserialize`. -/
def listed (a : Arr) (v : Val) : List Val :=
  let v := if v.truthy then v else .list a.dflt
  let l := match v with
    | .list l => l
    | v => [v]
  l ++ List.replicate (a.minItems - l.length) .none

/-- `Collection._evaluate` with `items=False`. -/
def evaluateWhole (ord : List Str → List Str) (t : Ty) (v : Val) : Res Val :=
  match convert ord t v with
  | .error e => .error e
  | .ok w => checked t w

/-- object.py 205-211, the value with the defaults and with None for the other properties. -/
def filled (o : Obj) (d : List (Str × Val)) : List (Str × Val) :=
  let d1 := AList.update d (o.defaults.filter fun p => !AList.contains d p.1)
  AList.update d1 ((o.props.filter fun k => !AList.contains d1 k).map fun k => (k, .none))

/-- `_deserialize`: serializer.py 41-44 of a leaf, collection.py 75-83 of an array, object.py 204-214. -/
def deserialize (ord : List Str → List Str) : Ty → Val → Res Val
  | .leaf l, v => evaluate ord (.leaf l) true v
  | .arr a n item, v => evaluateWhole ord (.arr a n item) (.list (listed a v))
  | .obj o field, v => match toDict (if v.truthy then v else .dict o.dflt) with
    | none => .error .typeError
    | some d =>
      if o.required.any fun k => !AList.contains (filled o d) k then .error .keyError
      else if (filled o d).any fun p => !o.known p.1 then .error .keyError
      else match eachKey (fun k x => deserialize ord (field k) x)
          ((order ord o.required (AList.keys (filled o d))).map fun k => (k, (AList.get? (filled o d) k).getD .none)) with
        | .error e => .error e
        | .ok d' => evaluateWhole ord (.obj o field) (.dict d')

end Verif.Nested
