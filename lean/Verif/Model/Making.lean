import Verif.Val
/-
Model of the making of types from other types: /repo/ngoschema/types/object.py 122-145 and types/array.py 105-117, the
removal of types from schemas (managers/type_builder.py 18-29), stand-ins for types (protocols/type_proxy.py), and tuple
and set types (types/array.py 212-221).

Simplifications. What the builder makes of a schema is arbitrary and never fails; the registry of the builder is the part
that holds the properties of types made at run time. Types are made at addresses, which Python may use again when the
earlier object is gone. Tuples and sets have one type of items, which is arbitrary.
-/
namespace Verif.Making

/-! ### Types made at addresses -/

/-- `type_builder._registry` for the names `Object_<address>/properties/<name>`. -/
abbrev Reg (τ : Type) := AList (Nat × Str) τ

/-- object.py 129-135: the properties of a type made at an address, built one after the other under the names of the
address (type_builder.py 70-71, 96: what is registered is not built again). -/
def make {σ τ : Type} (build : σ → τ) (reg : Reg τ) (addr : Nat) : List (Str × σ) → List (Str × τ) × Reg τ
  | [] => ([], reg)
  | (n, s) :: ps =>
    let t := (AList.get? reg (addr, n)).getD (build s)
    let r := make build (if AList.contains reg (addr, n) then reg else AList.set reg (addr, n) t) addr ps
    ((n, t) :: r.1, r.2)

/-- The registry after some types were made. -/
def made {σ τ : Type} (build : σ → τ) (reg : Reg τ) : List (Nat × List (Str × σ)) → Reg τ
  | [] => reg
  | (a, ps) :: h => made build (make build reg a ps).2 h

/-- object.py 136-140: `self.patternProperties` is no attribute of types. -/
def makePatterns {σ τ : Type} (pats : List (Str × σ)) : Res (List (Str × τ)) :=
  if pats.isEmpty then .ok [] else .error .attributeError

/-! ### Removal of types from schemas -/

/-- A schema that may hold types: with an identifier or without, and with the schema that represents it. -/
inductive Sch where
  | plain (v : Val)
  | type (id : Option Str) (repr : Val)
  | list (l : List Sch)
  | dict (d : List (Str × Sch))

mutual
/-- type_builder.py 23-28, of the value of a key. -/
def untypeValue : Sch → Sch
  | .type (some i) _ => .dict [("$ref".toList, .plain (.str i))]
  | .type none r => .plain r
  | .dict d => .dict (untype d)
  | s => s
/-- type_builder.py 18-29 `untype_schema`. -/
def untype : List (Str × Sch) → List (Str × Sch)
  | [] => []
  | (k, s) :: d => (k, untypeValue s) :: untype d
end

/-! ### Stand-ins -/

/-- What is asked of a type. -/
structure Ty where
  check : Val → Bool
  convert : Val → Res Val
  validate : Val → Res Val
  evaluate : Val → Res Val
  serialize : Val → Res Val
  hasDefault : Val → Bool

/-- type_proxy.py 38-41; None counts as false. -/
def proxyCheck (p : Option Ty) (v : Val) : Bool := p.any fun t => t.check v

/-- type_proxy.py 48-56, 63-71: `p and p.f(value)`. -/
def proxy (f : Ty → Val → Res Val) (p : Option Ty) (v : Val) : Res Val :=
  match p with
  | none => .ok .none
  | some t => f t v

/-- type_proxy.py 43-46 `has_default`, which takes no value. -/
def proxyHasDefault (p : Option Ty) (value : Option Val) : Res Bool :=
  match value with
  | some _ => .error .typeError
  | none => .ok (p.any fun t => t.hasDefault .none)

/-! ### Tuples and sets -/

/-- The Python classes of arrays. -/
inductive Kind where
  | list
  | tuple
  | set
  deriving DecidableEq

/-- A Python collection; the items of a set are different, in some order. -/
structure Coll where
  kind : Kind
  items : List Val
  deriving DecidableEq

/-- Has the value a hash? -/
def hashable : Val → Bool
  | .list _ => false
  | .dict _ => false
  | _ => true

/-- The different items of a list (Python's `set`, in the order of the first occurrences). -/
def distinct : List Val → List Val
  | [] => []
  | v :: l => v :: (distinct l).filter (· ≠ v)

/-- A loop over items. -/
def each (f : Val → Res Val) : List Val → Res (List Val)
  | [] => .ok []
  | v :: vs => match f v with
    | .error e => .error e
    | .ok w => match each f vs with
      | .error e => .error e
      | .ok ws => .ok (w :: ws)

/-- converter.py 19-30: from a list to the Python class. -/
def toKind (k : Kind) (l : List Val) : Res Coll :=
  match k with
  | .set => if l.all hashable then .ok ⟨.set, distinct l⟩ else .error .conversionError
  | k => .ok ⟨k, l⟩

/-- array.py 39-41: the items by index, which sets do not have. -/
def indexed (c : Coll) : Res (List Val) :=
  match c.kind, c.items with
  | .set, _ :: _ => .error .typeError
  | _, l => .ok l

/-- array.py 39-42, collection.py 85-93 `_convert` of a collection by an array type of a Python class. -/
def convert (conv : Val → Res Val) (k : Kind) (c : Coll) : Res Coll :=
  match indexed c with
  | .error e => .error e
  | .ok l => match each (fun v => if v = .none then .ok v else conv v) l with
    | .error e => .error e
    | .ok l' => toKind k l'

/-- collection.py 109-112: the items are evaluated and assigned. `ev`: the evaluation without conversion. Tuples allow no
assignment, sets no index. -/
def evaluateItems (ev : Val → Res Val) (c : Coll) : Res Coll :=
  match c.kind, c.items with
  | .list, l => match each ev l with
    | .error e => .error e
    | .ok l' => .ok ⟨.list, l'⟩
  | _, [] => .ok c
  | .tuple, v :: _ => match ev v with
    | .error e => .error e
    | .ok _ => .error .typeError
  | .set, _ :: _ => .error .typeError

/-- collection.py 106-114 `_evaluate`; `valid`: validation of the whole. -/
def evaluate (conv ev : Val → Res Val) (valid : List Val → Bool) (k : Kind) (c : Coll) : Res Coll :=
  match convert conv k c with
  | .error e => .error e
  | .ok c' => match evaluateItems ev c' with
    | .error e => .error e
    | .ok r => if valid r.items then .ok r else .error .invalidValue

end Verif.Making
