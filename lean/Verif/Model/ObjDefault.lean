import Verif.Model.Types
/-
Model of the default of object types and classes: /repo/ngoschema/types/object.py 191-198 and
protocols/object_protocol.py 230-233.

Simplifications. Declarations are those of Model/Types.lean: the properties with a default are no collections, and their
defaults are evaluated to themselves. The mapping is written as it is (`deserialize=False`), with no aliases, no prefix of
attributes and no `schema`.
-/
namespace Verif.ObjDefault
open Types

/-- object.py 193-196, one property: a missing value, or None, is replaced by the default. -/
def fillOne (o : ObjDecl) (ret : List (Str × Val)) (k : Str) : List (Str × Val) :=
  let v := (AList.get? ret k).getD .none
  AList.set ret k (if v = .none then (AList.get? o.props k).getD .none else v)

/-- object.py 143 `_propertiesWithDefault`. -/
def withDefault (o : ObjDecl) : List Str := (o.props.filter fun p => p.2.truthy).map Prod.fst

/-- object.py 192-196. `own`: the default of the type itself; `ord`: the iteration order of sets. -/
def fill (ord : List Str → List Str) (o : ObjDecl) (own value : List (Str × Val)) : List (Str × Val) :=
  (ord (withDefault o)).foldl (fillOne o) (if value.isEmpty then own else value)

/-- object.py 191-198 `Object.default(value)`, object_protocol.py 230-233 with `evaluate=False`; None is given as the empty
mapping. -/
def default (ser : Val → Val) (ord : List Str → List Str) (o : ObjDecl) (own : List (Str × Val)) (noDefaults : Bool)
    (value : List (Str × Val)) : Res (List (Str × Val)) :=
  (objSerialize ser ord [] o { noDefaults := noDefaults } (fill ord o own value)).1

end Verif.ObjDefault
