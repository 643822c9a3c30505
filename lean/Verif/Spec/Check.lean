import Verif.Spec.Compare
import Verif.Spec.Keys
import Verif.Model.Check
/-
Which values belong to a type, without the functions of the model.
-/
namespace Verif.Check.Spec

/-- Instances of these classes always count as true. -/
def Proper : V → Prop
  | .inst c b => c ∈ [Cls.date, .time, .datetime, .arrow, .url, .path] → b = true
  | .doc _ => True

/-- The values of a type. A date is also a moment, of which the day is taken; so is a time. For addresses, see the
docstring at uri.py 28-32. Enumerations are not in here. -/
inductive Belongs : Ty → V → Prop
  | null : Belongs .null (.doc .none)
  | true_ (v) : Belongs .true_ v
  | boolean (b) : Belongs .boolean (.doc (.bool b))
  | integer (i) : Belongs .integer (.doc (.int i))
  | numberInt (i) : Belongs .number (.doc (.int i))
  | numberFloat (b) : Belongs .number (.inst .float b)
  | numberDecimal (b) : Belongs .number (.inst .decimal b)
  | string (s) : Belongs .string (.doc (.str s))
  | uriUrl (b) : Belongs .uri (.inst .url b)
  | uriPath (b) : Belongs .uri (.inst .path b)
  | uriText (s) : Belongs .uri (.doc (.str s))
  | path (b) : Belongs .path (.inst .path b)
  | date (b) : Belongs .date (.inst .date b)
  | dateDatetime (b) : Belongs .date (.inst .datetime b)
  | dateArrow (b) : Belongs .date (.inst .arrow b)
  | time (b) : Belongs .time (.inst .time b)
  | timeDatetime (b) : Belongs .time (.inst .datetime b)
  | timeArrow (b) : Belongs .time (.inst .arrow b)
  | datetime (b) : Belongs .datetime (.inst .datetime b)
  | arrow (b) : Belongs .datetime (.inst .arrow b)
  | array (l) : Belongs .array (.doc (.list l))
  | tuple (b) : Belongs .tuple (.inst .tuple b)
  | set (b) : Belongs .set (.inst .set b)
  | object (d) : Belongs .object (.doc (.dict d))

/-- Where the answer is the wrong one: None is not null, booleans are numbers, texts and paths are no addresses, texts are
arrays and tuples, addresses are tuples, and sets are no sets. -/
inductive Odd : Ty → V → Prop
  | null : Odd .null (.doc .none)
  | number (b) : Odd .number (.doc (.bool b))
  | integer (b) : Odd .integer (.doc (.bool b))
  | uriPath (b) : Odd .uri (.inst .path b)
  | uriText (s) : Odd .uri (.doc (.str s))
  | array (s) : Odd .array (.doc (.str s))
  | tuple (s) : Odd .tuple (.doc (.str s))
  | tupleUrl (b) : Odd .tuple (.inst .url b)
  | set (b) : Odd .set (.inst .set b)

/-- A value that is no collection or, if a class is asked for, is of that class or of one derived from it. -/
inductive Fits : Option PyType → V → Prop
  | none : Fits none (.doc .none)
  | bool (b) : Fits none (.doc (.bool b))
  | int (i) : Fits none (.doc (.int i))
  | text (s) : Fits none (.doc (.str s))
  | inst (c b) : c ≠ .tuple → c ≠ .url → Fits none (.inst c b)
  | ofBool (b) : Fits (some .bool) (.doc (.bool b))
  | ofInt (i) : Fits (some .int) (.doc (.int i))
  | ofIntBool (b) : Fits (some .int) (.doc (.bool b))
  | ofStr (s) : Fits (some .str) (.doc (.str s))
  | ofList (l) : Fits (some .list) (.doc (.list l))
  | ofDecimal (b) : Fits (some .decimal) (.inst .decimal b)
  | ofTuple (b) : Fits (some .tuple) (.inst .tuple b)
  | ofTupleUrl (b) : Fits (some .tuple) (.inst .url b)
  | ofSet (b) : Fits (some .set) (.inst .set b)
  | ofDate (b) : Fits (some .date) (.inst .date b)
  | ofDateDatetime (b) : Fits (some .date) (.inst .datetime b)
  | ofTime (b) : Fits (some .time) (.inst .time b)
  | ofArrow (b) : Fits (some .arrow) (.inst .arrow b)
  | ofUrl (b) : Fits (some .url) (.inst .url b)
  | ofPath (b) : Fits (some .path) (.inst .path b)

/-- The value equals one of these documents. -/
inductive OneOf (members : List Val) : V → Prop
  | mk (m v) : m ∈ members → Query.Equal m v → OneOf members (.doc v)

/-- Each component passes the check of its type. -/
inductive Pass : List (Val → Res Val) → List Val → Prop
  | nil : Pass [] []
  | cons {t v ts vs} : t v = .ok v → Pass ts vs → Pass (t :: ts) (v :: vs)

/-- The types of JSON schema by their names, and those that are added here. -/
inductive Named : Str → Ty → Prop
  | null : Named "null".toList .null
  | boolean : Named "boolean".toList .boolean
  | number : Named "number".toList .number
  | integer : Named "integer".toList .integer
  | string : Named "string".toList .string
  | array : Named "array".toList .array
  | object : Named "object".toList .object
  | uri : Named "uri".toList .uri
  | path : Named "path".toList .path
  | date : Named "date".toList .date
  | time : Named "time".toList .time
  | datetime : Named "datetime".toList .datetime
  | tuple : Named "tuple".toList .tuple
  | set : Named "set".toList .set

end Verif.Check.Spec
