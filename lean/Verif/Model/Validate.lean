import Verif.Model.Query
/-
Validation against a schema: `Validator._errors`, `_format_errors`, `_validate` and `_evaluate`
(protocols/validator.py 48-85), with the keywords registered in managers/jsch_validators.py 17-51 and the types
of managers/type_builder.py 50-55.

The errors come from `iter_errors` of the package jsonschema, version 3 (the keywords imported exist in no other), whose
functions for the keywords are modelled here. Neither `type` nor `$ref` is among the registered keywords.

Simplifications:
* `$recursiveRef` and the checks of paths are left out. No `format_checker` is ever given, so `format` is an annotation.
* `additionalItems` beside `items` with a boolean, on which `len` raises, is left out: it says nothing here.
* `re.search` is any function of a pattern and a text.
* `dependencies` on names and `dependencies` on schemas are two keywords of the same name.
* `multipleOf` has natural numbers; zero, which the meta-schema forbids, raises in Python.
* `if`, `then` and `else` are one keyword; a missing branch is the schema `true`.
* A message is given by what it says; its text is left out.
-/
namespace Verif.Validate

/-- `re.search(pattern, text)`. -/
class Rx where
  search : Str → Str → Bool

variable [Rx]

/-- A keyword without schemas inside. -/
inductive Leaf where
  | minimum (i : Int) | maximum (i : Int) | exclusiveMinimum (i : Int) | exclusiveMaximum (i : Int)
  | minLength (n : Nat) | maxLength (n : Nat)
  | minItems (n : Nat) | maxItems (n : Nat)
  | minProperties (n : Nat) | maxProperties (n : Nat)
  | required (ps : List Str)
  | enum (vs : List Val) | const (v : Val) | uniqueItems (b : Bool)
  | multipleOf (n : Nat)
  | pattern (p : Str)
  | dependencies (ds : List (Str × List Str))
  | type (t : Str)
  | ref (uri : Str)
  | other (k : Str)  -- an annotation
  deriving DecidableEq

mutual
/-- A schema: `true`, `false` or keywords in order. -/
inductive Sch where
  | const (b : Bool)
  | kws (l : List Kw)
inductive Kw where
  | leaf (l : Leaf)
  | properties (ps : List (Str × Sch))
  | additional (s : Sch)
  | patternProps (ps : List (Str × Sch))
  | additionalItems (s : Sch)
  | items (s : Sch)
  | itemsList (l : List Sch)
  | allOf (l : List Sch)
  | anyOf (l : List Sch)
  | oneOf (l : List Sch)
  | not (s : Sch)
  | ifThenElse (i t e : Sch)
  | contains (s : Sch)
  | propertyNames (s : Sch)
  | dependencies (ds : List (Str × Sch))
  | defs (old : Bool) (ds : List (Str × Sch))
end

def Leaf.name : Leaf → Str
  | .minimum _ => "minimum".toList
  | .maximum _ => "maximum".toList
  | .exclusiveMinimum _ => "exclusiveMinimum".toList
  | .exclusiveMaximum _ => "exclusiveMaximum".toList
  | .minLength _ => "minLength".toList
  | .maxLength _ => "maxLength".toList
  | .minItems _ => "minItems".toList
  | .maxItems _ => "maxItems".toList
  | .minProperties _ => "minProperties".toList
  | .maxProperties _ => "maxProperties".toList
  | .required _ => "required".toList
  | .enum _ => "enum".toList
  | .const _ => "const".toList
  | .uniqueItems _ => "uniqueItems".toList
  | .multipleOf _ => "multipleOf".toList
  | .pattern _ => "pattern".toList
  | .dependencies _ => "dependencies".toList
  | .type _ => "type".toList
  | .ref _ => "$ref".toList
  | .other k => k

def Kw.name : Kw → Str
  | .leaf l => l.name
  | .properties _ => "properties".toList
  | .additional _ => "additionalProperties".toList
  | .patternProps _ => "patternProperties".toList
  | .additionalItems _ => "additionalItems".toList
  | .items _ => "items".toList
  | .itemsList _ => "items".toList
  | .allOf _ => "allOf".toList
  | .anyOf _ => "anyOf".toList
  | .oneOf _ => "oneOf".toList
  | .not _ => "not".toList
  | .ifThenElse _ _ _ => "if".toList
  | .contains _ => "contains".toList
  | .propertyNames _ => "propertyNames".toList
  | .dependencies _ => "dependencies".toList
  | .defs true _ => "definitions".toList
  | .defs false _ => "$defs".toList

/-- An element of `schema_path`. -/
inductive Seg where
  | name (s : Str)
  | idx (i : Nat)
  deriving DecidableEq, Repr

/-- A message: what is violated, by which value. -/
inductive Msg where
  | leaf (l : Leaf) (v : Val)
  | missing (p : Str) (v : Val)
  | dependency (p q : Str) (v : Val)
  | falseSchema (v : Val)
  | additional (v : Val)
  | noneOf (v : Val)
  | severalOf (v : Val)
  | not (v : Val)
  | contains (v : Val)
  deriving DecidableEq

structure Err where
  path : List Seg
  msg : Msg
  deriving DecidableEq

/-- `schema_path.appendleft`. -/
def Err.under (s : Seg) (e : Err) : Err := { e with path := s :: e.path }

/-- `is_type(value, "array")`: `Array.check`, for which texts are arrays (types/array.py 172-179, `split_string` is
true by default); then the value is iterated. -/
def elements : Val → Option (List Val)
  | .list l => some l
  | .str s => some (s.map fun c => .str [c])
  | _ => none

/-- A number; booleans are numbers for `Number.check` (types/numerics.py 44-47). -/
def numOf : Val → Option Int
  | .bool b => some (if b then 1 else 0)
  | .int i => some i
  | _ => none

/-- `equal`: booleans are equal to themselves only, but inside lists and dictionaries they are numbers
(jsonschema/_utils.py, `unbool`). -/
def equal : Val → Val → Bool
  | .bool a, .bool b => a == b
  | .bool _, _ => false
  | _, .bool _ => false
  | v, w => Query.pyEq v w

/-- `uniq`; the elements are compared in the order of the list, although Python sorts them first when it can. -/
def uniq : List Val → Bool
  | [] => true
  | x :: l => !l.any (fun y => equal x y) && uniq l

/-- The value violates the keyword; `required` and `dependencies` are below. -/
def bad : Leaf → Val → Bool
  | .minimum i, v => (numOf v).any (· < i)
  | .maximum i, v => (numOf v).any (i < ·)
  | .exclusiveMinimum i, v => (numOf v).any (· ≤ i)
  | .exclusiveMaximum i, v => (numOf v).any (i ≤ ·)
  | .minLength n, .str s => s.length < n
  | .maxLength n, .str s => n < s.length
  | .minItems n, v => (elements v).any (·.length < n)
  | .maxItems n, v => (elements v).any (n < ·.length)
  | .minProperties n, .dict d => d.length < n
  | .maxProperties n, .dict d => n < d.length
  | .enum vs, v => !vs.any (equal v)
  | .const c, v => !equal v c
  | .uniqueItems b, v => b && (elements v).any fun l => !uniq l
  | .multipleOf n, v => (numOf v).any fun i => i % (n : Int) != 0
  | .pattern p, .str s => !Rx.search p s
  | _, _ => false

/-- The errors of a keyword without schemas: jsonschema/_validators.py. -/
def leafErrs : Leaf → Val → List Err
  | .required ps, .dict d => (ps.filter fun p => !AList.contains d p).map fun p => ⟨[], .missing p (.dict d)⟩
  | .dependencies ds, .dict d => (ds.filter fun x => AList.contains d x.1).flatMap fun x =>
    (x.2.filter fun q => !AList.contains d q).map fun q => ⟨[], .dependency x.1 q (.dict d)⟩
  | l, v => if bad l v then [⟨[], .leaf l v⟩] else []

/-- The names under `properties` in a schema. -/
def declared : List Kw → List Str
  | [] => []
  | .properties ps :: l => ps.map (·.1) ++ declared l
  | _ :: l => declared l

/-- The patterns under `patternProperties` in a schema. -/
def patterns : List Kw → List Str
  | [] => []
  | .patternProps ps :: l => ps.map (·.1) ++ patterns l
  | _ :: l => patterns l

/-- `len(schema["items"])`, if this is a list. -/
def itemCount : List Kw → Option Nat
  | [] => none
  | .itemsList ss :: _ => some ss.length
  | _ :: l => itemCount l

/-- What a keyword is told of the others of its schema. -/
structure Around where
  names : List Str
  patterns : List Str
  items : Option Nat

def around (l : List Kw) : Around := ⟨declared l, patterns l, itemCount l⟩

/-- `schema.get("$ref")`. -/
def hasRef : List Kw → Bool
  | [] => false
  | .leaf (.ref _) :: _ => true
  | _ :: l => hasRef l

/-- `patterns and re.search(patterns, property)` with `patterns = "|".join(...)`. -/
def covered (ps : List Str) (k : Str) : Bool :=
  let joined := joinWith ['|'] ps
  !joined.isEmpty && Rx.search joined k

/-- `find_additional_properties`: jsonschema/_utils.py. -/
def extras (a : Around) (kvs : List (Str × Val)) : List Val :=
  (kvs.filter fun kv => !a.names.contains kv.1 && !covered a.patterns kv.1).map (·.2)

mutual
/-- `iter_errors`: jsonschema/validators.py. -/
def errs : Sch → Val → List Err
  | .const true, _ => []
  | .const false, v => [⟨[], .falseSchema v⟩]
  | .kws l, v => if hasRef l then [] else kwsErrs (around l) l v
/-- Its loop over the keywords. -/
def kwsErrs (a : Around) : List Kw → Val → List Err
  | [], _ => []
  | k :: l, v => (kwErrs a k v).map (Err.under (.name k.name)) ++ kwsErrs a l v
/-- One keyword. -/
def kwErrs (a : Around) : Kw → Val → List Err
  | .leaf l, v => leafErrs l v
  | .properties ps, v => match v with
    | .dict kvs => propsErrs ps kvs
    | _ => []
  | .additional s, v => match v with
    | .dict kvs => addErrs s v (extras a kvs)
    | _ => []
  | .patternProps ps, v => match v with
    | .dict kvs => patErrs ps kvs
    | _ => []
  | .additionalItems s, v => match a.items, elements v with
    | some n, some l => addErrs s v (l.drop n)
    | _, _ => []
  | .items s, v => match elements v with
    | some l => l.flatMap (errs s)
    | none => []
  | .itemsList ss, v => match elements v with
    | some l => itemsErrs 0 ss l
    | none => []
  | .allOf ss, v => allErrs 0 ss v
  | .anyOf ss, v => if countValid ss v = 0 then [⟨[], .noneOf v⟩] else []
  | .oneOf ss, v =>
    let n := countValid ss v
    if n = 0 then [⟨[], .noneOf v⟩] else if 1 < n then [⟨[], .severalOf v⟩] else []
  | .not s, v => if errs s v = [] then [⟨[], .not v⟩] else []
  | .ifThenElse i t e, v =>
    if errs i v = [] then (errs t v).map (Err.under (.name "then".toList))
    else (errs e v).map (Err.under (.name "else".toList))
  | .contains s, v => match elements v with
    | some l => if l.any fun x => errs s x = [] then [] else [⟨[], .contains v⟩]
    | none => []
  | .propertyNames s, v => match v with
    | .dict kvs => kvs.flatMap fun kv => errs s (.str kv.1)
    | _ => []
  | .dependencies ds, v => match v with
    | .dict kvs => depErrs ds kvs
    | _ => []
  | .defs _ ds, v => match v with  -- registered as `properties`, jsch_validators.py 50-51
    | .dict kvs => propsErrs ds kvs
    | _ => []
/-- `properties`. -/
def propsErrs : List (Str × Sch) → List (Str × Val) → List Err
  | [], _ => []
  | (p, s) :: ps, kvs =>
    (match AList.get? kvs p with
      | some x => (errs s x).map (Err.under (.name p))
      | none => []) ++ propsErrs ps kvs
/-- `patternProperties`. -/
def patErrs : List (Str × Sch) → List (Str × Val) → List Err
  | [], _ => []
  | (p, s) :: ps, kvs =>
    (kvs.filter fun kv => Rx.search p kv.1).flatMap (fun kv => (errs s kv.2).map (Err.under (.name p))) ++ patErrs ps kvs
/-- `dependencies` on schemas. -/
def depErrs : List (Str × Sch) → List (Str × Val) → List Err
  | [], _ => []
  | (p, s) :: ds, kvs =>
    (if AList.contains kvs p then (errs s (.dict kvs)).map (Err.under (.name p)) else []) ++ depErrs ds kvs
/-- `additionalProperties`, and `additionalItems`, whose message is another. -/
def addErrs : Sch → Val → List Val → List Err
  | .const true, _, _ => []
  | .const false, v, xs => if xs = [] then [] else [⟨[], .additional v⟩]
  | .kws l, _, xs => xs.flatMap fun x => if hasRef l then [] else kwsErrs (around l) l x
/-- `items` with a list: `zip(enumerate(instance), items)`. -/
def itemsErrs (i : Nat) : List Sch → List Val → List Err
  | s :: ss, x :: xs => (errs s x).map (Err.under (.idx i)) ++ itemsErrs (i + 1) ss xs
  | _, _ => []
/-- `allOf`. -/
def allErrs (i : Nat) : List Sch → Val → List Err
  | [], _ => []
  | s :: ss, v => (errs s v).map (Err.under (.idx i)) ++ allErrs (i + 1) ss v
/-- The number of schemas that hold. -/
def countValid : List Sch → Val → Nat
  | [], _ => 0
  | s :: ss, v => (if errs s v = [] then 1 else 0) + countValid ss v
end

/-- `'/'.join(path)`, `none` for a TypeError. -/
def joined : List Seg → Option Str
  | path => (path.mapM fun
    | Seg.name s => some s
    | Seg.idx _ => none).map (joinWith ['/'])

/-- The dictionary of messages by path, validator.py 57-58. -/
def report (es : List Err) : Res (List (Str × Msg)) :=
  es.foldlM (fun d e => match joined e.path with
    | none => .error .typeError
    | some p => .ok (AList.set d p e.msg)) []

/-- `Validator._errors`: validator.py 48-58. -/
def errors (excludes : List Str) (withType : Bool) (l : List Kw) (v : Val) : Res (List (Str × Msg)) :=
  let excludes := if withType then excludes else excludes ++ ["type".toList]
  report (errs (.kws (l.filter fun k => !excludes.contains k.name)) v)

/-- `Validator._validate`: validator.py 60-72. -/
def validate (excludes : List Str) (withType : Bool) (l : List Kw) (v : Val) : Res Val :=
  match errors excludes withType l v with
  | .error e => .error e
  | .ok [] => .ok v
  | .ok (_ :: _) => .error .invalidValue

/-- `Validator._evaluate`: validator.py 74-85. `conv` is the conversion, `dflt` the default. -/
def evaluate (conv : Val → Res Val) (dflt : Val) (l : List Kw) (v : Val) : Res Val :=
  if v = .none ∧ dflt = .none then .ok .none
  else match conv (if v = .none then dflt else v) with
    | .error e => .error e
    | .ok w => validate [] false l w

end Verif.Validate
