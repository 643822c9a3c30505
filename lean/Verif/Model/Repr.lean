import Verif.Val
/-
Model of the schemas that represent types (/repo/ngoschema/protocols/validator.py 37-46, types/array.py 135-154,
types/object.py 175-189) and of the types that are given where a type is made (types/array.py 105-117,
types/object.py 122-142, managers/type_builder.py 18-29, 64-98).

Simplifications. A type is a class or an instance of one. Of both, the attributes that are read are kept: those an
instance sees (its own and, behind them, those of its class) and those its class sees. Sets are lists in the order in
which they are read. Patterns are kept as the text they were compiled from. The builder never fails on a schema.
-/
namespace Verif.Repr

/-- array.py 20-24: what an array type holds besides its items. -/
structure Arr where
  minItems : Nat
  maxItems : Option Nat
  uniqueItems : Bool
  splitString : Bool
  strDelimiter : Str
deriving DecidableEq

/-- object.py 23, 71: what an object type holds besides its properties. -/
structure Obj where
  required : List Str
  readOnly : List Str
deriving DecidableEq

mutual
/-- A type: a class, or an instance with what it sees and what its class sees. -/
inductive Ty where
  | cls (l : Attrs)
  | inst (own cls : Attrs)
/-- The attributes of a constant (constants.py, not a `Type`), of a primitive, of an array type and of an object type;
`schema` is `_schema`. -/
inductive Attrs where
  | const (schema : List (Str × Val)) (pyType : Bool)
  | plain (schema : List (Str × Val))
  | array (schema : List (Str × Val)) (items : Items) (a : Arr)
  | object (schema : List (Str × Val)) (o : Obj) (props : List (Str × Ty)) (patterns : List (Str × Ty)) (additional : Ty)
/-- `_items`, with `_itemsIsList` or without. -/
inductive Items where
  | one (t : Ty)
  | list (l : List Ty)
end

/-- The keys of a representation: names, or compiled patterns (object.py 138). -/
inductive Key where
  | name (s : Str)
  | regex (s : Str)
deriving DecidableEq

/-- A representation: values, and what types were left in it. -/
inductive Rep where
  | val (v : Val)
  | typ (t : Ty)
  | list (l : List Rep)
  | dict (d : List (Key × Rep))

/-- A representation of a type, a dictionary. -/
abbrev Sch := AList Str Rep

/-- The truth of a type: constants.py 25-27; classes and all other instances are true. -/
def Ty.truthy : Ty → Bool
  | .inst (.const _ b) _ => b
  | _ => true

/-- `isinstance(t, Type)`. -/
def Ty.isInst : Ty → Bool
  | .cls _ => false
  | .inst (.const ..) _ => false
  | .inst .. => true

/-- array.py 138: `if self._items`. -/
def Items.truthy : Items → Bool
  | .one t => t.truthy
  | .list l => !l.isEmpty

/-- A schema without types. -/
def vals (d : List (Str × Val)) : Sch := d.map fun p => (p.1, .val p.2)

/-- validator.py 38-42, without options: `type` comes first. -/
def base (d : List (Str × Val)) : Sch :=
  match AList.get? (vals d) "type".toList with
  | some t => ("type".toList, t) :: AList.erase (vals d) "type".toList
  | none => vals d

/-- `if b: rs[k] = r`. -/
def setIf (b : Bool) (rs : Sch) (k : String) (r : Rep) : Sch := if b then AList.set rs k.toList r else rs

/-- array.py 145-153. -/
def withArr (rs : Sch) (a : Arr) : Sch :=
  let rs := setIf (a.minItems != 0) rs "minItems" (.val (.int a.minItems))
  let rs := setIf (a.maxItems.getD 0 != 0) rs "maxItems" (.val (.int (a.maxItems.getD 0)))
  let rs := setIf a.uniqueItems rs "uniqueItems" (.val (.bool true))
  let rs := setIf a.splitString rs "splitString" (.val (.bool true))
  setIf a.splitString rs "strDelimiter" (.val (.str a.strDelimiter))

/-- A list of names. -/
def names (l : List Str) : Rep := .list (l.map fun s => .val (.str s))

/-- object.py 178-182. -/
def withObj (rs : Sch) (o : Obj) : Sch :=
  let rs := setIf true rs "type" (.val (.str "object".toList))
  let rs := setIf (!o.required.isEmpty) rs "required" (names o.required)
  setIf (!o.readOnly.isEmpty) rs "readOnly" (names o.readOnly)

/-- A representation as a part of another one. -/
def Sch.rep (s : Sch) : Rep := .dict (s.map fun p => (.name p.1, p.2))

mutual
/-- `_repr_schema(self)` of what sees these attributes: validator.py 38-42, array.py 136-154, object.py 176-189. -/
def repr : Attrs → Sch
  | .const d _ => base d
  | .plain d => base d
  | .array d items a => withArr (setIf items.truthy (base d) "items" (itemsRep items)) a
  | .object d o props patterns additional =>
    let rs := withObj (base d) o
    let rs := setIf (!props.isEmpty) rs "properties" (.dict (propsRep .name props))
    let rs := setIf (!patterns.isEmpty) rs "patternProperties" (.dict (propsRep .regex patterns))
    setIf (!additional.truthy) rs "additionalProperties" (.val (.bool false))
/-- array.py 139-144. -/
def itemsRep : Items → Rep
  | .one t => itemRep t
  | .list l => .list (itemsReps l)
def itemsReps : List Ty → List Rep
  | [] => []
  | t :: l => itemRep t :: itemsReps l
/-- `i._repr_schema(i) if isinstance(i, Type) else i`. -/
def itemRep : Ty → Rep
  | .inst own c => if (Ty.inst own c).isInst then Sch.rep (repr own) else .typ (.inst own c)
  | .cls l => .typ (.cls l)
/-- object.py 183-186. -/
def propsRep (key : Str → Key) : List (Str × Ty) → List (Key × Rep)
  | [] => []
  | (k, t) :: ps => (key k, Sch.rep (reprSchema t)) :: propsRep key ps
/-- validator.py 44-46 `repr_schema`: a method of the class, also if called on an instance. -/
def reprSchema : Ty → Sch
  | .cls l => repr l
  | .inst _ c => repr c
end

/-- type_protocol.py 134-136, 138-146: `repr` and `str` of an instance show what the instance sees. -/
def shown : Ty → Sch
  | .cls l => repr l
  | .inst own _ => repr own

/-- `repr_schema(**opts)`: array.py 136 and object.py 176 take no options, validator.py 39 takes `schema`. -/
def reprSchemaOpts (schema : Option (List (Str × Val))) (others : Bool) (t : Ty) : Res Sch :=
  let l := match t with
    | .cls l => l
    | .inst _ c => c
  match l with
  | .const d _ => .ok (base (schema.getD d))
  | .plain d => .ok (base (schema.getD d))
  | l => if schema.isSome || others then .error .typeError else .ok (repr l)

/-! ### Types given where a type is made -/

/-- What is given for a part: a schema, a boolean, or a type with its identifier. -/
inductive Given where
  | schema (d : List (Str × Val))
  | bool (b : Bool)
  | typ (t : Ty) (id : Option Str)

/-- The part that it is given for. -/
inductive Place where
  | property
  | pattern
  | additional
  | items
  | listItem
deriving DecidableEq

/-- What the new type holds: what the builder makes of a schema, a constant, the type itself, or a boolean that is no
type. -/
inductive Held where
  | built (s : Sch)
  | const (b : Bool)
  | typ (t : Ty)
  | raw (b : Bool)

/-- type_builder.py 77-94: schemas and booleans can be built, in a type one cannot look for `$ref`. -/
def build : Given → Res Held
  | .schema d => .ok (.built (vals d))
  | .bool b => .ok (.const b)
  | .typ .. => .error .typeError

/-- type_builder.py 22-26. -/
def untyped (t : Ty) : Option Str → Sch
  | some i => [("$ref".toList, .val (.str i))]
  | none => reprSchema t

/-- object.py 130-142, array.py 109-116. -/
def hold : Place → Given → Res Held
  | .property, .typ t i => .ok (.built (untyped t i))
  | .property, g => build g
  | .pattern, _ => .error .attributeError
  | .additional, g => build g
  | .listItem, g => build g
  | .items, .typ t _ => .ok (if t.truthy then .typ t else .const true)
  | .items, .bool b => .ok (if b then .raw true else .const true)
  | .items, .schema d => build (.schema d)

end Verif.Repr
