import Verif.Model.Repr
/-
What C312-C314 say about types and schemas, without the functions of the model.
-/
namespace Verif.Repr.Spec

/-- Nothing but values, under names. -/
inductive Json : Rep → Prop
  | val (v : Val) : Json (.val v)
  | list (l : List Rep) (h : ∀ r, r ∈ l → Json r) : Json (.list l)
  | dict (d : List (Key × Rep)) (h : ∀ k r, (k, r) ∈ d → Json r) (hk : ∀ k r, (k, r) ∈ d → ∃ s, k = .name s) :
    Json (.dict d)

/-- The attributes of a type that is no constant. -/
inductive NoConst : Attrs → Prop
  | plain (d : List (Str × Val)) : NoConst (.plain d)
  | array (d : List (Str × Val)) (i : Items) (a : Arr) : NoConst (.array d i a)
  | object (d : List (Str × Val)) (o : Obj) (ps pp : List (Str × Ty)) (t : Ty) : NoConst (.object d o ps pp t)

mutual
/-- The items of all array types concerned are instances and no constants that accept everything, and no object type
concerned has patterns. -/
inductive Writable : Attrs → Prop
  | const (d : List (Str × Val)) (b : Bool) : Writable (.const d b)
  | plain (d : List (Str × Val)) : Writable (.plain d)
  | never (d s : List (Str × Val)) (c : Attrs) (a : Arr) : Writable (.array d (.one (.inst (.const s false) c)) a)
  | one (d : List (Str × Val)) (t : Ty) (a : Arr) (h : AsItem t) : Writable (.array d (.one t) a)
  | list (d : List (Str × Val)) (l : List Ty) (a : Arr) (h : ∀ t, t ∈ l → AsItem t) : Writable (.array d (.list l) a)
  | object (d : List (Str × Val)) (o : Obj) (ps : List (Str × Ty)) (t : Ty)
    (h : ∀ k p, (k, p) ∈ ps → AsProperty p) : Writable (.object d o ps [] t)
/-- Items are shown as they are. -/
inductive AsItem : Ty → Prop
  | inst (own c : Attrs) (hc : NoConst own) (h : Writable own) : AsItem (.inst own c)
/-- Properties are shown as their classes. -/
inductive AsProperty : Ty → Prop
  | cls (l : Attrs) (h : Writable l) : AsProperty (.cls l)
  | inst (own c : Attrs) (h : Writable c) : AsProperty (.inst own c)
end

/-- Primitive types: a class with its schema, or an instance with its own one and that of its class. -/
inductive Prim : Ty → (own cls : List (Str × Val)) → Prop
  | cls (d : List (Str × Val)) : Prim (.cls (.plain d)) d d
  | inst (d c : List (Str × Val)) : Prim (.inst (.plain d) (.plain c)) d c

/-- Every keyword of the first schema is in the second one, with the same value. -/
def Keeps (d : List (Str × Val)) (s : Sch) : Prop := ∀ k v, AList.get? d k = some v → AList.get? s k = some (.val v)

/-- What is held is what was given: the schema, the boolean, or the type, its identifier or its keywords. -/
inductive Meant : Given → Held → Prop
  | schema (d : List (Str × Val)) (s : Sch) (h : Keeps d s) : Meant (.schema d) (.built s)
  | bool (b : Bool) : Meant (.bool b) (.const b)
  | typ (t : Ty) (i : Option Str) : Meant (.typ t i) (.typ t)
  | ref (t : Ty) (i : Str) : Meant (.typ t (some i)) (.built [("$ref".toList, .val (.str i))])
  | keywords (t : Ty) (d c : List (Str × Val)) (s : Sch) (hp : Prim t d c) (h : Keeps d s) :
    Meant (.typ t none) (.built s)

/-- Where what may be given. -/
inductive Usable : Place → Given → Prop
  | property (d : List (Str × Val)) : Usable .property (.schema d)
  | propertyBool (b : Bool) : Usable .property (.bool b)
  | propertyId (t : Ty) (i : Str) : Usable .property (.typ t (some i))
  | propertyType (t : Ty) (d c : List (Str × Val)) (hp : Prim t d c)
    (h : ∀ k v, AList.get? d k = some v → AList.get? c k = some v) : Usable .property (.typ t none)
  | additional (d : List (Str × Val)) : Usable .additional (.schema d)
  | additionalBool (b : Bool) : Usable .additional (.bool b)
  | listItem (d : List (Str × Val)) : Usable .listItem (.schema d)
  | listItemBool (b : Bool) : Usable .listItem (.bool b)
  | items (d : List (Str × Val)) : Usable .items (.schema d)
  | itemsType (t : Ty) (i : Option Str) (h : ∀ s c, t ≠ .inst (.const s false) c) : Usable .items (.typ t i)

end Verif.Repr.Spec
