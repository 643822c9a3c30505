import Verif.Model.Query
/-
Asking a query for its members, number and parts, and searching a document by a path:
/repo/ngoschema/query.py 178-209 (`search_object`, `search_object_non_rec`), 417-436 and 495-507 (`Query.__getitem__` with a
slice, `__contains__`, `count`, `isEmpty`, `all`).

Simplifications: a slice has no step. What `dpath` finds for a path is a parameter: the places, as they are written and as
lists of keys. Of `search_object_non_rec` the part up to the first place is modelled.
-/
namespace Verif.Query
open Doc

/-! ### Queries -/

/-- What is left of an iterator once `obj` was found in it; `none` when it is not there. -/
def after (obj : Val) : List Val → Option (List Val)
  | [] => none
  | o :: os => if pyEq o obj then some os else after obj os

/-- query.py 431-436 `obj in query`. The iterator of a reversed query (412-413) is left where the object was found: it is
written as one over a new list of what is left. -/
def World.contains (rx : Rx) (w : World) (i : Nat) (obj : Val) : Res Bool × World :=
  match w.resultCache rx i with
  | (.error e, w) => (.error e, w)
  | (.ok (.lst r), w) => (.ok (after obj (w.list r)).isSome, w)
  | (.ok (.revIter id r), w) =>
    if id ∈ w.done then (.ok false, w)
    else match after obj (w.list r).reverse with
      | none => (.ok false, { w with done := id :: w.done })
      | some rest => match w.newList rest.reverse with
        | (r, w) => (.ok true, { w with qs := w.qs.modify i (fun q => { q with cache := some (.revIter id r) }) })

/-- query.py 495-496 `count()`. -/
def World.count (rx : Rx) (w : World) (i : Nat) : Res Nat × World := w.len rx i

/-- query.py 498-499 `isEmpty()`. -/
def World.isEmpty (rx : Rx) (w : World) (i : Nat) : Res Bool × World :=
  match w.len rx i with
  | (.error e, w) => (.error e, w)
  | (.ok n, w) => (.ok (n == 0), w)

/-- Line 422-424: the bounds of a slice. -/
def bound : Option Int → Bool
  | none => true
  | some k => decide (0 ≤ k)

/-- query.py 417-426 `query[start:stop]`. -/
def World.slice (rx : Rx) (w : World) (i : Nat) (start stop : Option Int) : Res (List Val) × World :=
  if !(bound start && bound stop) then (.error .assertionError, w)
  else match w.resultCache rx i with
    | (.error e, w) => (.error e, w)
    | (.ok (.lst r), w) =>
      let l := w.list r
      let l := match stop with
        | none => l
        | some k => l.take k.toNat
      (.ok (match start with
        | none => l
        | some k => l.drop k.toNat), w)
    | (.ok (.revIter _ _), w) => (.error .typeError, w)

/-! ### Documents -/

/-- A place in a document: as it is written, and the keys that lead to it. -/
structure Place where
  path : Str
  keys : List Key
  deriving DecidableEq

/-- query.py 184-187, the loop; a filter is always true as an object. -/
def searchLoop (rx : Rx) (obj : Val) : Option Filter → List Place → List (Str × Val) × Option Exc
  | _, [] => ([], none)
  | f, p :: ps =>
    match getDescendant obj p.keys with
    | .error e => ([], some e)
    | .ok val => match f with
      | none => searchLoop rx obj none ps
      | some f => match f.call rx val with
        | (.error e, _) => ([], some e)
        | (.ok false, f) => searchLoop rx obj (some f) ps
        | (.ok true, f) => match searchLoop rx obj (some f) ps with
          | (r, e) => ((p.path, val) :: r, e)

/-- query.py 178-187 `search_object(obj, path, *attrs, **attrs_value)`; `places`: what `dpath` finds for the path. -/
def searchObject (rx : Rx) (obj : Val) (places : List Place) (attrs : List Str) (criteria : List (Str × Val)) :
    List (Str × Val) × Option Exc :=
  searchLoop rx obj (if attrs.isEmpty && criteria.isEmpty then none else some (.mk' attrs criteria false false)) places

/-- query.py 190-194 `search_object_non_rec`, up to the first result: a StopIteration in a generator is a RuntimeError
(PEP 479). -/
def searchFirst (rx : Rx) (obj : Val) (places : List Place) (attrs : List Str) (criteria : List (Str × Val)) :
    Res (Str × Val) :=
  match searchObject rx obj places attrs criteria with
  | (x :: _, _) => .ok x
  | ([], some e) => .error e
  | ([], none) => .error .runtimeError

end Verif.Query
