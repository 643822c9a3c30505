import Verif.Model.Validate
import Verif.Spec.Compare
/-
What it means for a value to meet a schema, as json-schema defines it, with no errors and no paths.
-/
namespace Verif.Validate.Spec
variable [Rx]

/-- What counts as a number and as an array, what types and references mean, when values are the same, whether
definitions say something about the value, and which names the patterns of a schema cover. -/
structure Reading where
  num : Val → Option Int
  arr : Val → Option (List Val)
  type : Str → Val → Prop
  ref : Str → Val → Prop
  same : Val → Val → Prop
  defs : Prop
  covers : List Str → Str → Prop

def stdNum : Val → Option Int
  | .int i => some i
  | _ => none

def stdArr : Val → Option (List Val)
  | .list l => some l
  | _ => none

/-- The types of json-schema. -/
def HasType : Str → Val → Prop
  | t, .none => t = "null".toList
  | t, .bool _ => t = "boolean".toList
  | t, .int _ => t = "integer".toList ∨ t = "number".toList
  | t, .str _ => t = "string".toList
  | t, .list _ => t = "array".toList
  | t, .dict _ => t = "object".toList

/-- The same value of json: booleans are no numbers, the order of the entries of an object does not matter. -/
inductive Same : Val → Val → Prop
  | none : Same .none .none
  | bool {b : Bool} : Same (.bool b) (.bool b)
  | int {i : Int} : Same (.int i) (.int i)
  | str {s : Str} : Same (.str s) (.str s)
  | list {l m : List Val} : l.length = m.length →
      (∀ (k : Nat) (x y : Val), l[k]? = some x → m[k]? = some y → Same x y) → Same (.list l) (.list m)
  | dict {d e : List (Str × Val)} : (∀ k, k ∈ d.map Prod.fst ↔ k ∈ e.map Prod.fst) →
      (∀ (k : Str) (x y : Val), AList.get? d k = some x → AList.get? e k = some y → Same x y) → Same (.dict d) (.dict e)

/-- The reading of json-schema, given what references refer to. -/
def std (ref : Str → Val → Prop) : Reading := ⟨stdNum, stdArr, HasType, ref, Same, False,
  fun ps k => ∃ p ∈ ps, Rx.search p k = true⟩

/-- The reading of the code: booleans count as numbers, texts as arrays, types and references are ignored, booleans inside
lists and objects equal numbers, definitions constrain the properties named like them, and patterns cover what one
pattern made of them all finds, unless this is empty. -/
def lax : Reading := ⟨numOf, elements, fun _ _ => True, fun _ _ => True, fun v w => equal v w = true, True,
  fun ps k => joinWith ['|'] ps ≠ [] ∧ Rx.search (joinWith ['|'] ps) k = true⟩

/-- The text, if it is one. -/
def textOf : Val → Option Str
  | .str s => some s
  | _ => none

/-- The size of a text, if it is one. -/
def textSize : Val → Option Nat
  | .str s => some s.length
  | _ => none

/-- The entries of an object, if it is one. -/
def entries : Val → Option (List (Str × Val))
  | .dict d => some d
  | _ => none

def leafValid (R : Reading) : Leaf → Val → Prop
  | .minimum i, v => ∀ n, R.num v = some n → i ≤ n
  | .maximum i, v => ∀ n, R.num v = some n → n ≤ i
  | .exclusiveMinimum i, v => ∀ n, R.num v = some n → i < n
  | .exclusiveMaximum i, v => ∀ n, R.num v = some n → n < i
  | .minLength n, v => ∀ k, textSize v = some k → n ≤ k
  | .maxLength n, v => ∀ k, textSize v = some k → k ≤ n
  | .minItems n, v => ∀ l, R.arr v = some l → n ≤ l.length
  | .maxItems n, v => ∀ l, R.arr v = some l → l.length ≤ n
  | .minProperties n, v => ∀ d, entries v = some d → n ≤ d.length
  | .maxProperties n, v => ∀ d, entries v = some d → d.length ≤ n
  | .required ps, v => ∀ d, entries v = some d → ∀ p ∈ ps, ∃ x, AList.get? d p = some x
  | .enum vs, v => ∃ c ∈ vs, R.same v c
  | .const c, v => R.same v c
  | .uniqueItems b, v => b = true → ∀ l, R.arr v = some l → l.Pairwise fun x y => ¬ R.same x y
  | .multipleOf n, v => ∀ i, R.num v = some i → ∃ q, i = n * q
  | .pattern p, v => ∀ s, textOf v = some s → Rx.search p s = true
  | .dependencies ds, v => ∀ d, entries v = some d → ∀ x ∈ ds, (∃ y, AList.get? d x.1 = some y) →
      ∀ q ∈ x.2, ∃ y, AList.get? d q = some y
  | .type t, v => R.type t v
  | .ref u, v => R.ref u v
  | .other _, _ => True

/-- The name is declared by `properties`. -/
def Declares (l : List Kw) (p : Str) : Prop := ∃ ps s, Kw.properties ps ∈ l ∧ (p, s) ∈ ps

/-- The patterns of `patternProperties`. -/
def patternsOf (l : List Kw) : List Str := l.flatMap fun
  | .patternProps ps => ps.map (·.1)
  | _ => []

/-- The number of schemas in the list of `items`. -/
def listed (l : List Kw) : Option Nat := l.findSome? fun
  | .itemsList ss => some ss.length
  | _ => none

/-- What the keywords of a schema say together: the names that are not additional, and the number of items that are not. -/
structure Beside where
  known : Str → Prop
  items : Option Nat

def beside (R : Reading) (l : List Kw) : Beside := ⟨fun p => Declares l p ∨ R.covers (patternsOf l) p, listed l⟩

mutual
/-- The value meets the schema. -/
def Valid (R : Reading) : Sch → Val → Prop
  | .const b, _ => b = true
  | .kws l, v => ValidKws R (beside R l) l v
def ValidKws (R : Reading) (d : Beside) : List Kw → Val → Prop
  | [], _ => True
  | k :: l, v => ValidKw R d k v ∧ ValidKws R d l v
def ValidKw (R : Reading) (d : Beside) : Kw → Val → Prop
  | .leaf l, v => leafValid R l v
  | .properties ps, v => ∀ e, entries v = some e → ValidProps R ps e
  | .additional s, v => ∀ e, entries v = some e → ∀ kv ∈ e, ¬ d.known kv.1 → Valid R s kv.2
  | .patternProps ps, v => ∀ e, entries v = some e → ValidPats R ps e
  | .additionalItems s, v => ∀ n, d.items = some n → ∀ l, R.arr v = some l → ∀ x ∈ l.drop n, Valid R s x
  | .items s, v => ∀ l, R.arr v = some l → ∀ x ∈ l, Valid R s x
  | .itemsList ss, v => ∀ l, R.arr v = some l → ValidItems R ss l
  | .allOf ss, v => ValidAll R ss v
  | .anyOf ss, v => ValidAny R ss v
  | .oneOf ss, v => ValidOne R ss v
  | .not s, v => ¬ Valid R s v
  | .ifThenElse i t e, v => (Valid R i v → Valid R t v) ∧ (¬ Valid R i v → Valid R e v)
  | .contains s, v => ∀ l, R.arr v = some l → ∃ x ∈ l, Valid R s x
  | .propertyNames s, v => ∀ e, entries v = some e → ∀ kv ∈ e, Valid R s (.str kv.1)
  | .dependencies ds, v => ∀ e, entries v = some e → ValidDeps R ds e
  | .defs _ ds, v => R.defs → ∀ e, entries v = some e → ValidProps R ds e
def ValidProps (R : Reading) : List (Str × Sch) → List (Str × Val) → Prop
  | [], _ => True
  | (p, s) :: ps, e => (∀ x, AList.get? e p = some x → Valid R s x) ∧ ValidProps R ps e
def ValidPats (R : Reading) : List (Str × Sch) → List (Str × Val) → Prop
  | [], _ => True
  | (p, s) :: ps, e => (∀ kv ∈ e, Rx.search p kv.1 = true → Valid R s kv.2) ∧ ValidPats R ps e
def ValidDeps (R : Reading) : List (Str × Sch) → List (Str × Val) → Prop
  | [], _ => True
  | (p, s) :: ds, e => ((∃ x, AList.get? e p = some x) → Valid R s (.dict e)) ∧ ValidDeps R ds e
def ValidItems (R : Reading) : List Sch → List Val → Prop
  | s :: ss, x :: xs => Valid R s x ∧ ValidItems R ss xs
  | _, _ => True
def ValidAll (R : Reading) : List Sch → Val → Prop
  | [], _ => True
  | s :: ss, v => Valid R s v ∧ ValidAll R ss v
def ValidAny (R : Reading) : List Sch → Val → Prop
  | [], _ => False
  | s :: ss, v => Valid R s v ∨ ValidAny R ss v
/-- Exactly one. -/
def ValidOne (R : Reading) : List Sch → Val → Prop
  | [], _ => False
  | s :: ss, v => (Valid R s v ∧ ¬ ValidAny R ss v) ∨ (¬ Valid R s v ∧ ValidOne R ss v)
end

mutual
/-- Some keyword of the schema or of a schema inside satisfies `f`. -/
def uses (f : Kw → Bool) : Sch → Bool
  | .const _ => false
  | .kws l => usesKws f l
def usesKws (f : Kw → Bool) : List Kw → Bool
  | [] => false
  | k :: l => f k || usesKw f k || usesKws f l
def usesKw (f : Kw → Bool) : Kw → Bool
  | .leaf _ => false
  | .properties ps => usesProps f ps
  | .additional s => uses f s
  | .patternProps ps => usesProps f ps
  | .additionalItems s => uses f s
  | .items s => uses f s
  | .itemsList ss => usesList f ss
  | .allOf ss => usesList f ss
  | .anyOf ss => usesList f ss
  | .oneOf ss => usesList f ss
  | .not s => uses f s
  | .ifThenElse i t e => uses f i || uses f t || uses f e
  | .contains s => uses f s
  | .propertyNames s => uses f s
  | .dependencies ds => usesProps f ds
  | .defs _ ds => usesProps f ds
def usesProps (f : Kw → Bool) : List (Str × Sch) → Bool
  | [] => false
  | (_, s) :: ps => uses f s || usesProps f ps
def usesList (f : Kw → Bool) : List Sch → Bool
  | [] => false
  | s :: ss => uses f s || usesList f ss
end

/-- The keywords on numbers. -/
def onNum : Kw → Bool
  | .leaf (.minimum _) | .leaf (.maximum _) | .leaf (.exclusiveMinimum _) | .leaf (.exclusiveMaximum _)
  | .leaf (.multipleOf _) => true
  | _ => false

/-- The keywords on arrays. -/
def onArr : Kw → Bool
  | .leaf (.minItems _) | .leaf (.maxItems _) | .leaf (.uniqueItems _) | .items _ | .itemsList _ | .contains _
  | .additionalItems _ => true
  | _ => false

def isType : Kw → Bool
  | .leaf (.type _) => true
  | _ => false

def isRef : Kw → Bool
  | .leaf (.ref _) => true
  | _ => false

def isUnique : Kw → Bool
  | .leaf (.uniqueItems _) => true
  | _ => false

def onNames : Kw → Bool
  | .propertyNames _ => true
  | _ => false

/-- The keyword has this pattern for names. -/
def hasPattern (p : Str) : Kw → Bool
  | .patternProps ps => (ps.map (·.1)).contains p
  | _ => false

/-- The keyword has this constant. -/
def hasConst (c : Val) : Kw → Bool
  | .leaf (.enum vs) => vs.contains c
  | .leaf (.const c') => c' == c
  | _ => false

/-- The keyword defines this name. -/
def defines (p : Str) : Kw → Bool
  | .defs _ ds => (ds.map (·.1)).contains p
  | _ => false

/-- `w` is `v` or inside, as a name too if these count. -/
inductive Part (names : Bool) (v : Val) : Val → Prop
  | self : Part names v v
  | item {l x} : Part names v (.list l) → x ∈ l → Part names v x
  | entry {d k x} : Part names v (.dict d) → (k, x) ∈ d → Part names v x
  | name {d k x} : names = true → Part names v (.dict d) → (k, x) ∈ d → Part names v (.str k)

def IsBool : Val → Prop
  | .bool _ => True
  | _ => False

/-- Neither a list nor a dictionary. -/
def IsScalar : Val → Prop
  | .list _ | .dict _ => False
  | _ => True

/-- No booleans inside, and no name twice in an object. -/
def Plain (v : Val) : Prop := Query.WellFormed v ∧ ∀ w, Part false v w → ¬ IsBool w

def IsText : Val → Prop
  | .str _ => True
  | _ => False

/-- The keywords that number the schemas inside. -/
def numbered : Kw → Bool
  | .allOf _ | .itemsList _ => true
  | _ => false

mutual
/-- The schema without its types, inside too. -/
def untyped : Sch → Sch
  | .const b => .const b
  | .kws l => .kws (untypedKws l)
def untypedKws : List Kw → List Kw
  | [] => []
  | k :: l => if isType k then untypedKws l else untypedKw k :: untypedKws l
def untypedKw : Kw → Kw
  | .leaf l => .leaf l
  | .properties ps => .properties (untypedProps ps)
  | .additional s => .additional (untyped s)
  | .patternProps ps => .patternProps (untypedProps ps)
  | .additionalItems s => .additionalItems (untyped s)
  | .items s => .items (untyped s)
  | .itemsList ss => .itemsList (untypedList ss)
  | .allOf ss => .allOf (untypedList ss)
  | .anyOf ss => .anyOf (untypedList ss)
  | .oneOf ss => .oneOf (untypedList ss)
  | .not s => .not (untyped s)
  | .ifThenElse i t e => .ifThenElse (untyped i) (untyped t) (untyped e)
  | .contains s => .contains (untyped s)
  | .propertyNames s => .propertyNames (untyped s)
  | .dependencies ds => .dependencies (untypedProps ds)
  | .defs b ds => .defs b (untypedProps ds)
def untypedProps : List (Str × Sch) → List (Str × Sch)
  | [] => []
  | (p, s) :: ps => (p, untyped s) :: untypedProps ps
def untypedList : List Sch → List Sch
  | [] => []
  | s :: ss => untyped s :: untypedList ss
end

end Verif.Validate.Spec
