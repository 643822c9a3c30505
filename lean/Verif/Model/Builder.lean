import Verif.Model.Uri
/-
managers/type_builder.py 65-106 (`TypeBuilder.build`, `load`), protocols/type_proxy.py 11-36 (`TypeProxy.build`,
`proxy_type`), the requests made by `TypeProtocol.build` (type_protocol.py 36-86), `extend_type` (type_protocol.py
148-152), `ObjectProtocol.build` (object_protocol.py 513-797) and `ArrayProtocol.build` (array_protocol.py 101-142).

Simplifications:
* A schema keeps the keywords that make the builder ask for other types, its type and reference; every other
  keyword is the flag `other` (only its presence matters, line 87). `type` is a text (a list of types is not
  modelled). The relationships and foreign keys of the properties are the list `rels` of the foreign schemas they
  load (relationship_builder.py 47-80); an empty `items` is absent (array_protocol.py 111).
* `resolve_uri` (modelled in Uri.lean) is a finite map from identifiers to schemas here, which may differ from one
  request to the next.
* A class is its identity: the identifier it was made for and a serial number. What else can fail in the making of
  a class (unknown type, bases that cannot be combined, wrong default, ...) is the arbitrary parameter `rest`, told
  the identifier, the schema and the classes obtained; it comes after the requests for other types.
* `NamespaceManager.register_ns` and logging are left out; `SchemaMetaclass.__new__` is not a request of the model.
* Python's recursion limit: `run` takes a depth and gives `none` when it is not sufficient.
-/
namespace Verif.Builder
open Uri (scope)

abbrev Id := Str

inductive Schema where
  | bool (b : Bool)
  | node (type ref : Option Str) (ext defs : List Str) (props patterns : List (Str × Schema))
      (additional items : Option Schema) (itemsList : List Schema) (foreign : Option Str) (rels : List Str)
      (other : Bool)

/-- A class object: made for an identifier; a `TypeProxy` for an identifier; an instance of `_True`/`_False`. -/
inductive Cls where
  | made (i : Id) (n : Nat)
  | proxy (i : Id) (n : Nat)
  | const (b : Bool) (n : Nat)
  deriving DecidableEq, Repr

/-- What happened, for the statements: `built i`: lines 95-96 reached for `i`; `proxied i`: a `TypeProxy` made for
`i`; `extended i`: `extend_type` registered a class made for `i` (under `inflection.underscore(i)`). -/
inductive Event where
  | built (i : Id)
  | proxied (i : Id)
  | extended (i : Id)
  deriving DecidableEq, Repr

structure St where
  registry : AList Id Cls
  onC : AList Id Schema
  next : Nat
  log : List Event

inductive Req where
  | load (i : Id)
  | build (i : Id) (sch : Option Schema)

structure Cfg where
  store : AList Id Schema
  rest : Id → Schema → List Cls → Option Exc

/-- `inflection.underscore`: `([A-Z]+)([A-Z][a-z])` gets `_` between its groups. ASCII. -/
def acronyms : Str → Str
  | a :: b :: c :: s =>
    if a.isUpper ∧ b.isUpper ∧ c.isLower then a :: '_' :: acronyms (b :: c :: s) else a :: acronyms (b :: c :: s)
  | s => s

/-- Then `([a-z\d])([A-Z])`. -/
def humps : Str → Str
  | a :: b :: s =>
    if (a.isLower ∨ a.isDigit) ∧ b.isUpper then a :: '_' :: humps (b :: s) else a :: humps (b :: s)
  | s => s

/-- Then `-` becomes `_`, and lower case. -/
def underscore (s : Str) : Str :=
  (humps (acronyms s)).map (fun c => if c = '-' then '_' else c.toLower)

/-- `sub in text`. -/
def hasInfix (sub : Str) : Str → Bool
  | [] => sub.isEmpty
  | c :: s => sub.isPrefixOf (c :: s) || hasInfix sub s

/-- type_proxy.py 12-28: `sch['type']` (line 20) is the schema under construction. -/
def proxyBuild (i : Id) (sch : Schema) (s : St) : Res Cls × St :=
  match sch with
  | .node (some _) _ _ _ _ _ _ _ _ _ _ _ =>
    (.ok (.proxy i s.next), { s with next := s.next + 1, log := .proxied i :: s.log })
  | _ => (.error .keyError, s)

/-- type_proxy.py 34-36. -/
def proxyType (i : Id) (s : St) : Option Cls := AList.get? s.registry i

/-- The requests in order; the first failure ends them. -/
def reqs (f : Req → St → Option (Res Cls × St)) : List Req → St → Option (Res (List Cls) × St)
  | [], s => some (.ok [], s)
  | r :: rs, s =>
    match f r s with
    | none => none
    | some (.error e, s1) => some (.error e, s1)
    | some (.ok c, s1) =>
      match reqs f rs s1 with
      | none => none
      | some (.error e, s2) => some (.error e, s2)
      | some (.ok cs, s2) => some (.ok (c :: cs), s2)

def slash (i : Id) (a : String) (b : Str) : Id := i ++ ['/'] ++ a.toList ++ ['/'] ++ b

/-- object_protocol.py 544, 562, 591-592, 598-601, 603-619. -/
def objectReqs (i : Id) (ext defs : List Str) (props patterns : List (Str × Schema)) (additional : Option Schema)
    (rels : List Str) : List Req :=
  ext.map (fun e => .load (scope e i)) ++
  defs.map (fun d => .load (slash i "$defs" d)) ++
  props.map (fun p => .build (slash i "properties" p.1) (some p.2)) ++
  patterns.map (fun p => .build (slash i "patternProperties" p.1) (some p.2)) ++
  [.build (i ++ "/additionalProperties".toList) (some (additional.getD (.bool true)))] ++
  rels.map (fun e => .load (scope e i))

/-- `enumerate(items)` of array_protocol.py 114. -/
def itemReqs (i : Id) : Nat → List Schema → List Req
  | _, [] => []
  | k, sch :: l => .build (slash i "items" (showNat k)) (some sch) :: itemReqs i (k + 1) l

/-- array_protocol.py 108-119. -/
def arrayReqs (i : Id) (items : Option Schema) (itemsList : List Schema) : List Req :=
  match itemsList with
  | [] => match items with
    | none => []
    | some sch => [.build (i ++ "/items".toList) (some sch)]
  | l => itemReqs i 0 l

/-- type_protocol.py 44, 56-61 (the schema given has no `$ref`). -/
def typeReqs (i : Id) (ext : List Str) (foreign : Option Str) : List Req :=
  ext.map (fun e => .load (scope e i)) ++ (foreign.toList.map fun e => .load (scope e i))

/-- type_builder.py 89-94: the requests of the protocol chosen. -/
def protocolReqs (i : Id) : Schema → List Req
  | .bool _ => []
  | .node type _ ext defs props patterns additional items itemsList foreign rels _ =>
    if hasInfix "object".toList (type.getD []) then objectReqs i ext defs props patterns additional rels
    else if hasInfix "array".toList (type.getD []) then arrayReqs i items itemsList
    else typeReqs i ext foreign

/-- Line 87: keywords left once `$ref` is removed. -/
def hasSiblings : Schema → Bool
  | .bool _ => false
  | .node type _ ext defs props patterns additional items itemsList foreign rels other =>
    type.isSome || !ext.isEmpty || !defs.isEmpty || !props.isEmpty || !patterns.isEmpty || additional.isSome ||
    items.isSome || !itemsList.isEmpty || foreign.isSome || !rels.isEmpty || other

def refOf : Schema → Option Str
  | .bool _ => none
  | .node _ ref _ _ _ _ _ _ _ _ _ _ => ref

/-- The requests of `TypeProtocol.build` in `extend_type`. -/
def extendReqs (i : Id) : Schema → List Req
  | .bool _ => []
  | .node _ _ ext _ _ _ _ _ _ foreign _ _ => typeReqs i ext foreign

/-- Lines 95-98. -/
def finish (i : Id) (c : Cls) (s : St) : Option (Res Cls × St) :=
  some (.ok c, { s with onC := AList.erase s.onC i, registry := AList.set s.registry i c, log := .built i :: s.log })

/-- A class is made for `i`, unless something fails. -/
def make (cfg : Cfg) (i : Id) (sch : Schema) (cs : List Cls) (s : St) : Res Cls × St :=
  match cfg.rest i sch cs with
  | some e => (.error e, s)
  | none => (.ok (.made i s.next), { s with next := s.next + 1 })

/-- type_protocol.py 152: registered under the other spelling. -/
def registerExtended (i : Id) (c : Cls) (s : St) : St :=
  { s with registry := AList.set s.registry (underscore i) c, log := .extended i :: s.log }

/-- The requests, the class, then `k`. -/
def makeWith (cfg : Cfg) (f : Req → St → Option (Res Cls × St)) (i : Id) (sch : Schema) (pre : List Cls)
    (rs : List Req) (s : St) (k : Cls → St → Option (Res Cls × St)) : Option (Res Cls × St) :=
  match reqs f rs s with
  | none => none
  | some (.error e, s1) => some (.error e, s1)
  | some (.ok cs, s1) =>
    match make cfg i sch (pre ++ cs) s1 with
    | (.error e, s2) => some (.error e, s2)
    | (.ok c, s2) => k c s2

/-- Lines 83-98, once `i` is marked. -/
def construct (cfg : Cfg) (f : Req → St → Option (Res Cls × St)) (i : Id) (sch : Schema) (s : St) :
    Option (Res Cls × St) :=
  match refOf sch with
  | some r =>
    match f (.load (scope r i)) s with
    | none => none
    | some (.error e, s1) => some (.error e, s1)
    | some (.ok c, s1) =>
      if hasSiblings sch then
        makeWith cfg f i sch [c] (extendReqs i sch) s1 (fun c' s2 => finish i c' (registerExtended i c' s2))
      else finish i c s1
  | none => makeWith cfg f i sch [] (protocolReqs i sch) s (finish i)

/-- Lines 75-76. -/
def given (cfg : Cfg) (i : Id) : Option Schema → Res Schema
  | some sch => .ok sch
  | none => match AList.get? cfg.store i with
    | some sch => .ok sch
    | none => .error .invalidValue

/-- Lines 75-82: constants, or mark and construct. -/
def start (cfg : Cfg) (f : Req → St → Option (Res Cls × St)) (i : Id) (sch : Option Schema) (s : St) :
    Option (Res Cls × St) :=
  match given cfg i sch with
  | .error e => some (.error e, s)
  | .ok (.bool b) => some (.ok (.const b s.next), { s with next := s.next + 1 })
  | .ok sch => construct cfg f i sch { s with onC := AList.set s.onC i sch }

/-- Line 105. -/
def store (i : Id) : Option (Res Cls × St) → Option (Res Cls × St)
  | none => none
  | some (.error e, s) => some (.error e, s)
  | some (.ok c, s) => some (.ok c, { s with registry := AList.set s.registry i c })

/-- `build` (65-98) and `load` (100-106), to a given depth of calls. -/
def run (cfg : Cfg) : Nat → Req → St → Option (Res Cls × St)
  | 0, _, _ => none
  | n + 1, .build i sch, s =>
    match AList.get? s.registry i with
    | some c => some (.ok c, s)
    | none =>
      match AList.get? s.onC i with
      | some sch => some (proxyBuild i sch s)
      | none => start cfg (run cfg n) i sch s
  | n + 1, .load i, s =>
    match AList.get? s.registry i with
    | some c => some (.ok c, s)
    | none =>
      match AList.get? s.onC i with
      | some sch => some (proxyBuild i sch s)
      | none => store i (run cfg n (.build i none) s)

end Verif.Builder
