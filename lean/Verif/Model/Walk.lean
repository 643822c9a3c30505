import Verif.Model.Uri
/-
Going through nested collections, /repo/ngoschema/utils/utils.py 375-436 (`to_list`, `to_none_single_list`,
`reduce_coll`, `apply_through_collection`), and its use on schemas, /repo/ngoschema/managers/type_builder.py 113-158
(`schema_mro`, `expand`).

`func` works in place: here it gives the collection as it leaves it, or raises. The calls made are recorded.
Simplified: no list or dictionary occurs twice in a collection; keys are strings; sequences are lists (tuples, sets,
deques inside a collection are not gone into by the code: 435); the collection passed first is a list or a dictionary;
the recursion has `n` levels of calls and rounds, after which RecursionError is raised (a `func` that goes on adding
items makes the loop endless).
-/
namespace Verif.Walk

inductive Key where
  | name (k : Str)
  | pos (i : Nat)
  deriving DecidableEq, Repr

/-- The function: what it makes of the list / dictionary, given a key and a level. -/
structure Func where
  onList : List Val → Nat → Nat → Res (List Val)
  onDict : AList Str Val → Str → Nat → Res (AList Str Val)

/-- A call: the collection, the key, the level. -/
abbrev Call := Val × Key × Nat

mutual
/-- utils.py 414-436. -/
def walk (f : Func) : Nat → Nat → Val → Res (Val × List Call)
  | 0, _, _ => .error .recursionError
  | n + 1, lv, .list l => match walkList f n lv 0 l with
    | .error e => .error e
    | .ok r => .ok (.list r.1, r.2)
  | n + 1, lv, .dict m => match walkDict f n lv (AList.keys m) m with
    | .error e => .error e
    | .ok r => .ok (.dict r.1, r.2)
  | _ + 1, _, v => .ok (v, [])
/-- The loop on a list, which is read while it changes. -/
def walkList (f : Func) : Nat → Nat → Nat → List Val → Res (List Val × List Call)
  | 0, _, _, _ => .error .recursionError
  | n + 1, lv, i, l =>
    if i < l.length then
      match f.onList l i lv with
      | .error e => .error e
      | .ok l1 => match l1[i]? with
        | none => match walkList f n lv (i + 1) l1 with
          | .error e => .error e
          | .ok r => .ok (r.1, (.list l, .pos i, lv) :: r.2)
        | some v => match walk f n (lv + 1) v with
          | .error e => .error e
          | .ok w => match walkList f n lv (i + 1) (l1.set i w.1) with
            | .error e => .error e
            | .ok r => .ok (r.1, (.list l, .pos i, lv) :: (w.2 ++ r.2))
    else .ok (l, [])
/-- The loop on the keys a dictionary has at first. -/
def walkDict (f : Func) : Nat → Nat → List Str → AList Str Val → Res (AList Str Val × List Call)
  | 0, _, _, _ => .error .recursionError
  | _ + 1, _, [], m => .ok (m, [])
  | n + 1, lv, k :: ks, m =>
    match f.onDict m k lv with
    | .error e => .error e
    | .ok m1 => match AList.get? m1 k with
      | none => match walkDict f n lv ks m1 with
        | .error e => .error e
        | .ok r => .ok (r.1, (.dict m, .name k, lv) :: r.2)
      | some v => match walk f n (lv + 1) v with
        | .error e => .error e
        | .ok w => match walkDict f n lv ks (AList.set m1 k w.1) with
          | .error e => .error e
          | .ok r => .ok (r.1, (.dict m, .name k, lv) :: (w.2 ++ r.2))
end

/-! ### Functions used -/

/-- A function that changes nothing. -/
def look : Func := { onList := fun l _ _ => .ok l, onDict := fun m _ _ => .ok m }

/-- A function that assigns `coll[key] = h(key, coll[key])`. -/
def assign (h : Key → Val → Res Val) : Func where
  onList l i _ := match l[i]? with
    | none => .error .indexError
    | some v => match h (.pos i) v with
      | .error e => .error e
      | .ok w => .ok (l.set i w)
  onDict m k _ := match AList.get? m k with
    | none => .error .keyError
    | some v => match h (.name k) v with
      | .error e => .error e
      | .ok w => .ok (AList.set m k w)

/-- utils.py 387-393 `to_none_single_list` of a list. -/
def single : List Val → Val
  | [] => .none
  | [x] => x
  | l => .list l

/-- utils.py 403-407: what `coll[key]` becomes. The view `v.keys()` (to_list puts it in a list, as it is no sequence,
and takes it out) is represented by its length, for its truth. -/
def reduced : Val → Val
  | .list l => single l
  | .dict m => if m.any (fun p => p.2.truthy) then .dict m else .int m.length
  | v => v

/-- utils.py 401-409 `do_reduce`. -/
def doReduce : Func where
  onList l i _ := match l[i]? with
    | none => .error .indexError
    | some v => if (reduced v).truthy then .ok (l.set i (reduced v)) else .ok (l.eraseIdx i)
  onDict m k _ := match AList.get? m k with
    | none => .error .keyError
    | some v => if (reduced v).truthy then .ok (AList.set m k (reduced v)) else .ok (AList.erase m k)

/-- utils.py 396-411 `reduce_coll`: the collection afterwards, and the value that is returned (the `return` of
`apply_through_collection` has no value). -/
def reduceColl (n : Nat) (coll : Val) : Res (Val × Val) :=
  match walk doReduce n 0 coll with
  | .error e => .error e
  | .ok r => .ok (r.1, .none)

abbrev refKey : Str := ['$', 'r', 'e', 'f']

/-- uri_resolver.py 208-209 `scope(uri, base_id)` of any value: `'#' in uri` comes first, `uri.split` then. -/
def scopeVal (base : Str) : Val → Res Val
  | .str s => .ok (.str (Uri.scope s base))
  | .list l => if .str ['#'] ∈ l then .error .attributeError else .ok (.list l)
  | .dict m => if AList.contains m ['#'] then .error .attributeError else .ok (.dict m)
  | _ => .error .typeError

/-- type_builder.py 129-130: `if isinstance(v, Mapping) and '$ref' in v: v['$ref'] = scope(v['$ref'], id)`. -/
def scopeRef (base : Str) : Val → Res Val
  | .dict m => match AList.get? m refKey with
    | none => .ok (.dict m)
    | some r => match scopeVal base r with
      | .error e => .error e
      | .ok x => .ok (.dict (AList.set m refKey x))
  | v => .ok v

/-- type_builder.py 126-130 `_scope_refs`. -/
def scopeRefsAt (base : Str) : Func where
  onList l _ _ := .ok l
  onDict m k _ := match AList.get? m k with
    | none => .error .keyError
    | some v => match scopeRef base v with
      | .error e => .error e
      | .ok w => .ok (AList.set m k w)

/-- type_builder.py 125-131 `scope_refs(id, schema)`: the schema afterwards. -/
def scopeRefs (base : Str) (n : Nat) (schema : Val) : Res Val :=
  match walk (scopeRefsAt base) n 0 schema with
  | .error e => .error e
  | .ok r => .ok r.1

/-! ### Ancestors -/

/-- type_builder.py 115-121 `_schema_mro`: `ext i` are the identifiers `scope(e, i)` for `e` in `extends` of the
schema that is found under `i`. -/
def ancestors (ext : Str → List Str) : Nat → Str → Res (List Str)
  | 0, _ => .error .recursionError
  | n + 1, i => go (ancestors ext n) (ext i)
where
  go (anc : Str → Res (List Str)) : List Str → Res (List Str)
  | [] => .ok []
  | i :: is => match anc i with
    | .error e => .error e
    | .ok a => match go anc is with
      | .error e => .error e
      | .ok b => .ok (i :: (a ++ b))

/-- The keys of `OrderedDict(pairs)`: where each comes first. -/
def firsts : List Str → List Str → List Str
  | _, [] => []
  | seen, i :: is => if i ∈ seen then firsts seen is else i :: firsts (i :: seen) is

/-- type_builder.py 113-122 `schema_mro`, called as a function of an identifier. -/
def schemaMro (ext : Str → List Str) (n : Nat) (id : Str) : Res (List Str) :=
  match ancestors ext n id with
  | .error e => .error e
  | .ok l => .ok (firsts [] l)

/-- A call of a method by Python: `given` arguments besides the instance, `params` parameters, the last `optional` of
them having a default. -/
def callMethod {α : Type} (params optional given : Nat) (body : Res α) : Res α :=
  if given + 1 ≤ params ∧ params ≤ given + 1 + optional then body else .error .typeError

/-- type_builder.py 124-158 `expand`, the identifiers of the ancestors: 134 calls `self.schema_mro(id, schema)`, and
`schema_mro` has the parameters `id` and `schema=None`, and no `self`. -/
def expand (ext : Str → List Str) (n : Nat) (id : Str) : Res (List Str) :=
  callMethod 2 1 2 (schemaMro ext n id)

end Verif.Walk
