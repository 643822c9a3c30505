import Verif.Val
/-
Model of the document helpers of utils.py: paths, key filtering, flattening, paging.
-/
namespace Verif.Doc

/-- A key of a path: an attribute or dictionary key, or an index. -/
inductive Key where
  | name (s : Str)
  | index (i : Int)
  deriving Repr, DecidableEq

/-- `obj[k]` on documents (utils.py 671 `child = obj[k0]`); `none` stands for the exception raised
(KeyError, IndexError or TypeError, all caught by the caller). A string indexed by an integer gives a
one-character string. -/
def getItem : Val → Key → Option Val
  | .dict d, .name k => AList.get? d k
  | .list l, .index i => pyIndex l i
  | .str s, .index i => (pyIndex s i).map (fun c => .str [c])
  | _, _ => none

/-- utils.py 660-675 `get_descendant(obj, key_list)` with a list of keys. -/
def getDescendant (obj : Val) : List Key → Res Val
  | [] => .error .indexError
  | [k] => .ok ((getItem obj k).getD .none)
  | k :: ks =>
    let child := (getItem obj k).getD .none
    if child.truthy then getDescendant child ks else .ok child

/-- utils.py 649-657 `split_path(path)`. `is_integer` (jsonschema) is an `isinstance` test, false on
every string, so the `int(key)` branch is dead and every key is a string. -/
def splitPath (path : Str) : List Key :=
  (splitOn '.' path).flatMap fun part =>
    (splitOn '[' part).map fun key => Key.name (strip (fun c => c == '[' || c == ']') key)

/-- utils.py 660-675 `get_descendant(obj, path)` with a string. -/
def getDescendantPath (obj : Val) (path : Str) : Res Val := getDescendant obj (splitPath path)

/-- What `filter_collection` leaves behind: the argument as it is after the call, the value returned,
and whether the value returned is the argument object itself. -/
structure Filtered where
  arg : Val
  ret : Val
  same : Bool
  deriving Repr, DecidableEq

/-- utils.py 451-461 `_filter_keys(container, keys, keep)` inside `filter_collection`, returning the
container after the in-place changes. The two recursive calls pass four arguments to a function of
three: `TypeError` as soon as one is reached. `keys` lists the set `keys` in its iteration order. -/
def filterKeys (container : Val) (keys : List Str) (keep recursive : Bool) : Res Val :=
  match container with
  | .dict d =>
    let ks := keys.filter (fun k => AList.contains d k)
    if keep then
      if recursive && !ks.isEmpty then .error .typeError else .ok container
    else .ok (.dict (ks.foldl AList.erase d))
  | .list l => if l.isEmpty then .ok container else .error .typeError
  | _ => .ok container

/-- utils.py 439-469 `filter_collection(data, only, but, recursive)`. Changes are made to a deep copy,
the argument object is never written to. -/
def filterCollection (data : Val) (only but : List Str) (recursive : Bool) : Res Filtered :=
  if only.isEmpty && but.isEmpty then .ok ⟨data, data, true⟩
  else
    let copy := data
    match (if only.isEmpty then Except.ok copy else filterKeys copy only true recursive) with
    | .error e => .error e
    | .ok copy =>
      match (if but.isEmpty then Except.ok copy else filterKeys copy but false recursive) with
      | .error e => .error e
      | .ok copy => .ok ⟨data, copy, false⟩

mutual
/-- utils.py 476-481, one item of `nested_dict_iter(nested, separator)`: the recursive call does not
pass the separator on, so inner levels use the default `'.'`. -/
def nestedItem (separator : Str) (key : Str) : Val → List (Str × Val)
  | .dict d => (nestedDictIter ['.'] d).map fun (ik, iv) => (key ++ separator ++ ik, iv)
  | v => [(key, v)]
/-- utils.py 472-481 `nested_dict_iter(nested, separator)`. -/
def nestedDictIter (separator : Str) : List (Str × Val) → List (Str × Val)
  | [] => []
  | (k, v) :: rest => nestedItem separator k v ++ nestedDictIter separator rest
end

/-- utils.py 508-516, the loop of `grouper(page_size, iterable)`: `page` is the page being filled. -/
def grouperLoop {α} (pageSize : Nat) : List α → List α → List (List α)
  | page, [] => [page]
  | page, item :: rest =>
    let page := page ++ [item]
    if page.length = pageSize then page :: grouperLoop pageSize [] rest
    else grouperLoop pageSize page rest

/-- utils.py 508-516 `grouper(page_size, iterable)`. -/
def grouper {α} (pageSize : Nat) (items : List α) : List (List α) := grouperLoop pageSize [] items

end Verif.Doc
