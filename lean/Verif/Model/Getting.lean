import Verif.Model.Query
/-
Asking an array for an item by its keys: /repo/ngoschema/protocols/array_protocol.py 152-159, on the model of queries
(/repo/ngoschema/query.py).

Simplifications. Items are documents of type `Val`, an instance being the dictionary of its data. Regular expressions are a
parameter that plain names do not use.
-/
namespace Verif.Getting
open Query

/-- array_protocol.py 154-155: the criteria. `primary`: the primary keys of the type of items; none where the types are
given one by one, `_items` being a list then. -/
def criteria (primary : Option (List Str)) (pks : List Val) (kwargs : AList Str Val) : Res (AList Str Val) :=
  if pks.isEmpty then .ok kwargs
  else match primary with
    | none => .error .attributeError
    | some ks => .ok (AList.update kwargs (ks.zip pks))

/-- array_protocol.py 152-159 `get(*pks, default=None, **kwargs)`. -/
def get (rx : Rx) (primary : Option (List Str)) (items : List Val) (pks : List Val) (kwargs : AList Str Val)
    (default : Val) : Res Val :=
  match criteria primary pks kwargs with
  | .error e => .error e
  | .ok kw => match next rx false (Filter.mk' [] kw false false) items with
    | .error .stopIteration => .ok default
    | r => r

end Verif.Getting
