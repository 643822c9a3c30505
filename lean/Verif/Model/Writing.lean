import Verif.Model.Nested
/-
Model of how types of collections, nested in each other, write plain data: /repo/ngoschema/types/collection.py,
array.py and object.py over protocols/serializer.py.

Simplifications. Types are those of Model/Nested.lean (without aliases, read-only properties, `excludes` and `only` of a
caller); what a type that is no collection writes is arbitrary (`ser`). Values are written as they are
(`deserialize=False`, which types of collections hand on to the types of their items); what is no list, or no mapping,
is refused. Computing a default does not fail. `ord` is the iteration order of sets.
-/
namespace Verif.Writing
open Nested

/-- type_protocol.py 95-97 `_has_default`, array.py 156-158. -/
def hasDefault : Ty → Bool
  | .leaf l => l.dflt.truthy
  | .arr .. => true
  | .obj o _ => !o.dflt.isEmpty

/-- object.py 243-260, the loop of `Object._print_order` with `no_defaults`: 249 looks up the type, and 253 reads
`self._aliasesNegated`, which types of objects do not have (classes of instances do). -/
def named (o : Obj) (field : Str → Ty) : List Str → Res Unit
  | [] => .ok ()
  | k :: ks =>
    if !o.known k then .error .keyError
    else if hasDefault (field k) then .error .attributeError
    else named o field ks

/-- object.py 82-97 `ObjectSerializer._print_order`; `nd` is the option `no_defaults`. -/
def candidates (ord : List Str → List Str) (nd : Bool) (o : Obj) (d : List (Str × Val)) : List Str :=
  (ord ((AList.keys d).filter fun k => k ∈ o.required) ++ ord ((AList.keys d).filter fun k => k ∉ o.required)).filter
    fun k => k ∈ o.required || !nd || decide ((AList.get? d k).getD .none ≠ .none)

/-- object.py 243-260 `Object._print_order`. -/
def printOrder (ord : List Str → List Str) (nd : Bool) (o : Obj) (field : Str → Ty) (d : List (Str × Val)) :
    Res (List Str) :=
  if nd then match named o field (candidates ord nd o d) with
    | .error e => .error e
    | .ok _ => .ok (candidates ord nd o d)
  else .ok (candidates ord nd o d)

/-- The mapping with the given names. -/
def pick (d : List (Str × Val)) (ks : List Str) : List (Str × Val) :=
  ks.map fun k => (k, (AList.get? d k).getD .none)

/-- collection.py 116-126 `Collection._serialize`, array.py 84-89, 168-169, object.py 99-102, 200-202. Items without a type
stay None. -/
def serialize (ord : List Str → List Str) (ser : Leaf → Val → Res Val) (nd : Bool) : Ty → Val → Res Val
  | .leaf l, v => ser l v
  | .arr _ n item, v => match v with
    | .list vs => match each (fun i x => if beyond n i || (nd && decide (x = .none)) then .ok .none
          else serialize ord ser nd (item i) x) 0 vs with
      | .error e => .error e
      | .ok ws => .ok (.list ws)
    | _ => .error .typeError
  | .obj o field, v => match v with
    | .dict d => match printOrder ord nd o field d with
      | .error e => .error e
      | .ok ks => match printOrder ord nd o field (pick d ks) with
        | .error e => .error e
        | .ok ks' =>
          if ks'.any fun k => !o.known k then .error .keyError
          else match eachKey (fun k x => if nd && decide (x = .none) then .ok .none
              else serialize ord ser nd (field k) x) (pick (pick d ks) ks') with
            | .error e => .error e
            | .ok d' => .ok (.dict d')
    | _ => .error .attributeError

end Verif.Writing
