import Verif.Val
/-
Model of the check of schemas: /repo/ngoschema/managers/type_builder.py 108-111 `check_schema`, called for the schema of
every type that is made (/repo/ngoschema/protocols/validator.py 30-33), by the validator of
/repo/ngoschema/managers/jsch_validators.py 14-72, 111-119 on the meta-schema
/repo/ngoschema/schemas/ngo-draft-06.json.

Simplifications. The keywords that the meta-schema uses are modelled, with the functions of jsonschema that are registered
for them; `type` and `$ref` are not registered, nor are `$comment`, `default`, `title` and the like, and `format` does
nothing without a format checker. `$recursiveRef` always leads to the meta-schema. Of the errors only whether there is one
is kept, and all are looked for, though the first is raised. `fuel` is the depth of recursion.
-/
namespace Verif.Meta

mutual
/-- A schema: `ref` if it has `$ref`, of which jsonschema then looks at nothing else, and its keywords otherwise. -/
inductive MS where
  | ref
  | kws (l : List MK)
/-- The keywords of the meta-schema; `other` is one for which no function is registered. -/
inductive MK where
  | allOf (l : List MS)
  | anyOf (l : List MS)
  | properties (ps : List (Str × MS))
  | additional (s : MS)
  | items (s : MS)
  | enum (l : List Val)
  | minItems (n : Nat)
  | uniqueItems
  | recursiveRef
  | other (name : Str)
end

/-- Whether there is no error in any. -/
def every : List (Option Bool) → Option Bool
  | [] => some true
  | x :: xs => match x, every xs with
    | some a, some b => some (a && b)
    | _, _ => none

/-- jsonschema `anyOf`: up to the first without an error. -/
def some_ : List (Option Bool) → Option Bool
  | [] => some false
  | none :: _ => none
  | some true :: _ => some true
  | some false :: xs => some_ xs

/-- The functions of the keywords (jsonschema `_validators`; jsch_validators.py 54-72): whether there is no error. `ev`:
`descend`; `root`: the meta-schema. -/
def kw (ev : MS → Val → Option Bool) (root : MS) : MK → Val → Option Bool
  | .allOf ss, v => every (ss.map fun s => ev s v)
  | .anyOf ss, v => some_ (ss.map fun s => ev s v)
  | .properties ps, .dict d => every (ps.map fun p => match AList.get? d p.1 with
    | some x => ev p.2 x
    | none => some true)
  | .additional s, .dict d => every (d.map fun p => ev s p.2)
  | .items s, .list xs => every (xs.map fun x => ev s x)
  | .enum vs, v => some (v ∈ vs)
  | .minItems m, .list xs => some (m ≤ xs.length)
  | .uniqueItems, .list xs => some (decide xs.Nodup)
  | .recursiveRef, v => ev root v
  | _, _ => some true

/-- `iter_errors` of a value: whether it gives no error. -/
def eval (root : MS) : Nat → MS → Val → Option Bool
  | 0, _, _ => none
  | _ + 1, .ref, _ => some true
  | n + 1, .kws l, v => every (l.map fun k => kw (eval root n) root k v)

/-- /repo/ngoschema/schemas/ngo-draft-06.json 110-121. -/
def complexTypes : List Val :=
  ["importable", "path", "uri", "date", "time", "datetime", "foreignKey", "canonicalName"].map fun s => .str s.toList

/-- A schema that says a type only. -/
def typed : MS := .kws [.other "type".toList]

/-- /repo/ngoschema/schemas/ngo-draft-06.json 1-148. -/
def draft : MS := .kws
  [.other "$schema".toList, .other "$id".toList, .other "title".toList, .other "type".toList,
   .other "$vocabulary".toList, .other "$recursiveAnchor".toList,
   .allOf [.ref, .ref, .ref, .ref, .ref, .ref],
   .properties [
    ("definitions".toList, .kws [.other "$comment".toList, .other "type".toList,
      .additional (.kws [.recursiveRef]), .other "default".toList]),
    ("dependencies".toList, .kws [.other "$comment".toList, .other "type".toList,
      .additional (.kws [.anyOf [.kws [.recursiveRef], .ref]])]),
    ("readOnly".toList, .ref), ("notSerialized".toList, .ref), ("notValidated".toList, .ref),
    ("wraps".toList, .kws [.other "type".toList, .other "$comment".toList]),
    ("extends".toList, .kws [.other "type".toList, .items (.kws [.other "type".toList, .other "format".toList]),
      .other "$comment".toList]),
    ("abstract".toList, typed), ("isPathDir".toList, typed), ("isPathFile".toList, typed),
    ("isPathExisting".toList, typed),
    ("aliases".toList, .kws [.other "type".toList, .additional typed]),
    ("negatedAliases".toList, .kws [.other "type".toList, .additional typed]),
    ("complexTypes".toList, .kws [.enum complexTypes]),
    ("type".toList, .kws [.anyOf [.ref,
      .kws [.other "type".toList, .items (.kws [.anyOf [.ref, .ref]]), .minItems 1, .uniqueItems], .ref]])]]

/-- type_builder.py 108-111 `check_schema`; jsonschema's `SchemaError` is `user 1`. -/
def checkSchema (fuel : Nat) (schema : Val) : Res Unit :=
  match eval draft fuel draft schema with
  | none => .error .recursionError
  | some true => .ok ()
  | some false => .error (.user 1)

end Verif.Meta
