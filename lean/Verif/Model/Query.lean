import Verif.Num
import Verif.Model.Doc
/-
Model of /repo/ngoschema/query.py: criteria, operators, Filter, and Query with its result cache.

Simplifications: objects are documents (`Val`); keyword arguments are lists of pairs, in order; a set is
the list of its elements, a regular-expression match is `True` and no match is `None`; regular
expressions are a parameter (`Rx`); `'@i'` reads `i` as `int()` does. After an exception escapes from a
generator, the generators it reads from count as exhausted.
-/
namespace Verif.Query
open Doc (Key getDescendant getDescendantPath)

/-! ### Python comparisons on documents -/

/-- Booleans are numbers. -/
def num : Val → Option Int
  | .bool b => some (if b then 1 else 0)
  | .int i => some i
  | _ => none

mutual
/-- `a == b`. -/
def pyEq : Val → Val → Bool
  | .none, .none => true
  | .bool a, b => num b == some (if a then 1 else 0)
  | .int a, b => num b == some a
  | .str a, .str b => a == b
  | .list a, .list b => pyEqList a b
  | .dict a, .dict b => a.length == b.length && pyEqDict a b
  | _, _ => false
/-- The same on lists. -/
def pyEqList : List Val → List Val → Bool
  | [], [] => true
  | a :: as, b :: bs => pyEq a b && pyEqList as bs
  | _, _ => false
/-- Every entry of the first is in the second. -/
def pyEqDict : List (Str × Val) → List (Str × Val) → Bool
  | [], _ => true
  | (k, v) :: as, b => (match AList.get? b k with | some w => pyEq v w | none => false) && pyEqDict as b
end

/-- The order comparisons. -/
inductive Cmp where
  | lt | le | gt | ge
  deriving DecidableEq, Repr

/-- On integers. -/
def Cmp.onInt : Cmp → Int → Int → Bool
  | .lt, a, b => a < b
  | .le, a, b => a ≤ b
  | .gt, a, b => b < a
  | .ge, a, b => b ≤ a

/-- On strings, by code points. -/
def strCmp : Str → Str → Ordering
  | [], [] => .eq
  | [], _ :: _ => .lt
  | _ :: _, [] => .gt
  | a :: as, b :: bs => if a = b then strCmp as bs else if a.toNat < b.toNat then .lt else .gt

/-- The comparison an ordering satisfies. -/
def Cmp.onOrd : Cmp → Ordering → Bool
  | .lt, o => o == .lt
  | .le, o => o != .gt
  | .gt, o => o == .gt
  | .ge, o => o != .lt

mutual
/-- `a < b`, `a <= b`, `a > b`, `a >= b`; TypeError on values of different kinds. -/
def pyCmp (c : Cmp) : Val → Val → Res Bool
  | .str a, .str b => .ok (c.onOrd (strCmp a b))
  | .list a, .list b => pyCmpList c a b
  | .bool a, b => match num b with
    | some y => .ok (c.onInt (if a then 1 else 0) y)
    | none => .error .typeError
  | .int a, b => match num b with
    | some y => .ok (c.onInt a y)
    | none => .error .typeError
  | _, _ => .error .typeError
/-- Lists: the first difference decides, then the lengths. -/
def pyCmpList (c : Cmp) : List Val → List Val → Res Bool
  | [], [] => .ok (c.onOrd .eq)
  | [], _ :: _ => .ok (c.onOrd .lt)
  | _ :: _, [] => .ok (c.onOrd .gt)
  | a :: as, b :: bs => if pyEq a b then pyCmpList c as bs else pyCmp c a b
end

/-- `s in t` on strings. -/
def isInfix (s : Str) : Str → Bool
  | [] => s.isEmpty
  | c :: t => s.isPrefixOf (c :: t) || isInfix s t

/-- `x in l` on a list: identity or equality. -/
def pyIn (x : Val) (l : List Val) : Bool := l.any (fun y => x == y || pyEq x y)

/-- Lists and dictionaries have no hash. -/
def hashable : Val → Bool
  | .list _ | .dict _ => false
  | _ => true

/-- `x in y`. -/
def contains (y x : Val) : Res Bool :=
  match y, x with
  | .list l, x => .ok (pyIn x l)
  | .str t, .str s => .ok (isInfix s t)
  | .str _, _ => .error .typeError
  | .dict d, .str s => .ok (AList.contains d s)
  | .dict _, x => if hashable x then .ok false else .error .typeError
  | _, _ => .error .typeError

/-! ### Criteria -/

/-- `str.split('__')`. -/
def splitDunder : Str → List Str
  | [] => [[]]
  | [c] => [[c]]
  | a :: b :: s =>
    if a = '_' ∧ b = '_' then [] :: splitDunder s
    else match splitDunder (b :: s) with
      | [] => [[a]]
      | w :: ws => (a :: w) :: ws

/-- query.py 20-43 `_operators`. -/
def operators : List Str :=
  ["lt", "le", "eq", "ne", "neq", "ge", "gt", "not", "contains", "in", "size", "intersects", "ieq",
   "icontains", "startswith", "istartswith", "endswith", "iendswith", "regex"].map String.toList

/-- query.py 61, the test of the loop: an operator, or `@...`. -/
def isOp (e : Str) : Bool := operators.contains e || ['@'].isPrefixOf e

/-- query.py 57-65 `_sort_criteria(criteria)`. -/
def sortCriteria (criteria : Str) : List Str × List Str :=
  let elts := splitDunder criteria
  let ops := (elts.reverse.takeWhile isOp).reverse
  (elts.take (elts.length - ops.length), ops)

/-- Regular expressions: `run anchored ignoreCase pattern text`, `re.match` when anchored, else
`re.search`; the result tells whether there is a match, an exception stands for `re.error`. -/
structure Rx where
  run : Bool → Bool → Str → Str → Res Bool

/-- A match object or `None`. -/
def matchVal (r : Res Bool) : Res Val :=
  match r with
  | .ok true => .ok (.bool true)
  | .ok false => .ok .none
  | .error e => .error e

/-- A Boolean result. -/
def boolVal (r : Res Bool) : Res Val :=
  match r with
  | .ok b => .ok (.bool b)
  | .error e => .error e

/-- query.py 70-74: the operators that require strings. -/
def stringOp (rx : Rx) (op a b : Str) : Res Val :=
  if op = "startswith".toList then .ok (.bool (b.isPrefixOf a))
  else if op = "endswith".toList then .ok (.bool (b.isSuffixOf a))
  else if op = "ieq".toList then matchVal (rx.run true true (['^'] ++ b ++ ['$']) a)
  else if op = "istartswith".toList then matchVal (rx.run true true (['^'] ++ b) a)
  else if op = "iendswith".toList then matchVal (rx.run true true (b ++ ['$']) a)
  else if op = "icontains".toList then matchVal (rx.run false true b a)
  else matchVal (rx.run true false b a)

/-- The operators of line 70. -/
def isStringOp (op : Str) : Bool :=
  (["startswith", "endswith", "ieq", "istartswith", "iendswith", "icontains", "regex"].map String.toList).contains op

/-- query.py 69-106 `_apply_op(op, a, b)`. -/
def applyOp (rx : Rx) (op : Str) (a b : Val) : Res Val :=
  if isStringOp op then
    match a, b with
    | .str a, .str b => stringOp rx op a b
    | _, _ => .error .typeError
  else if op = "lt".toList then boolVal (pyCmp .lt a b)
  else if op = "le".toList then boolVal (pyCmp .le a b)
  else if op = "ge".toList then boolVal (pyCmp .ge a b)
  else if op = "gt".toList then boolVal (pyCmp .gt a b)
  else if op = "eq".toList then .ok (.bool (pyEq a b))
  else if op = "ne".toList || op = "neq".toList then .ok (.bool (!pyEq a b))
  else if op = "contains".toList then boolVal (contains a b)
  else if op = "size".toList then
    match a with
    | .str s => .ok (.int s.length)
    | .list l => .ok (.int l.length)
    | .dict d => .ok (.int d.length)
    | _ => .error .typeError
  else if ['@'].isPrefixOf op then
    match parseInt (op.drop 1) with
    | none => .error .valueError
    | some i => match a with
      | .list l => match pyIndex l i with
        | some v => .ok v
        | none => .error .indexError
      | .str s => match pyIndex s i with
        | some c => .ok (.str [c])
        | none => .error .indexError
      | .dict _ => .error .keyError
      | _ => .error .typeError
  else if op = "in".toList then boolVal (contains b a)
  else if op = "intersects".toList then
    match a, b with
    | .list a, .list b =>
      if a.all hashable && b.all hashable then .ok (.list (a.filter (fun x => pyIn x b)))
      else .error .typeError
    | _, _ => .error .typeError
  else .ok .none

/-- query.py 108-109, the loop. -/
def foldOps (rx : Rx) : List Str → Val → Val → Res Val
  | [], a, _ => .ok a
  | op :: ops, a, b => match applyOp rx op a b with
    | .error e => .error e
    | .ok a => foldOps rx ops a b

/-- `bool(_apply_ops_test(ops, negate, a, b))`, query.py 68-110 and 152. -/
def applyOpsTest (rx : Rx) (ops : List Str) (negate : Bool) (a b : Val) : Res Bool :=
  match foldOps rx ops a b with
  | .error e => .error e
  | .ok v => .ok (if negate then !v.truthy else v.truthy)

/-- An entry of `attrs_ops` with its value (query.py 125-131). -/
structure Crit where
  path : List Str
  ops : List Str
  neg : Bool
  value : Val
  deriving DecidableEq, Repr

/-- query.py 126-131: only the first `not` is removed. -/
def mkCrit (kv : Str × Val) : Crit :=
  let (ks, ops) := sortCriteria kv.1
  ⟨ks, ops.erase "not".toList, ops.contains "not".toList, kv.2⟩

/-- query.py 113-131 `Filter`. -/
structure Filter where
  crits : List Crit
  attrs : List (List Str)
  negate : Bool
  anyOf : Bool
  deriving DecidableEq, Repr

/-- query.py 115-131 and 160 `Filter(*attrs, negate=, any_of=, **attrs_value)`. -/
def Filter.mk' (attrs : List Str) (criteria : List (Str × Val)) (negate anyOf : Bool) : Filter :=
  ⟨criteria.map mkCrit, attrs.map splitDunder, negate, anyOf⟩

/-- query.py 143-151: the loop over `ops` that also pops from it. `i` is the position of the iterator.
Returns the value reached, the path and operators left in the filter, and whether `test` was set to
False. -/
def childLoop (i : Nat) (o : Val) (ks ops : List Str) : Val × List Str × List Str × Bool :=
  if h : i < ops.length then
    match getDescendantPath o ops[i] with
    | .ok o2 =>
      if o2.truthy then
        match ops with
        | [] => (o, ks, ops, false)
        | first :: rest => childLoop (i + 1) o2 (ks ++ [first]) rest
      else (o, ks, ops, true)
    | .error _ => (o, ks, ops, true)
  else (o, ks, ops, false)
termination_by ops.length - i
decreasing_by simp_all; omega

/-- `utils.is_mapping(o)`. -/
def isDict : Val → Bool
  | .dict _ => true
  | _ => false

/-- query.py 143-151 for one criterion: the value, the criterion as it is left, the flag. -/
def enter (c : Crit) (o : Val) : Val × Crit × Bool :=
  if !c.ops.isEmpty && isDict o then
    match childLoop 0 o c.path c.ops with
    | (o, ks, ops, failed) => (o, { c with path := ks, ops := ops }, failed)
  else (o, c, false)

/-- query.py 134-158, the loop over the criteria, with the criteria as they are left. -/
def critLoop (rx : Rx) (anyOf : Bool) (obj : Val) : Bool → List Crit → Res Bool × List Crit
  | test, [] => (.ok test, [])
  | test, c :: cs =>
    match getDescendant obj (c.path.map Key.name) with
    | .error e => (.error e, c :: cs)
    | .ok o =>
      if o = .none then (.ok false, c :: cs)
      else
        let (o, c', failed) := enter c o
        let test := if failed then false else test
        match applyOpsTest rx (if c'.ops.isEmpty then ["eq".toList] else c'.ops) c.neg o c.value with
        | .error e => (.error e, c' :: cs)
        | .ok test2 =>
          let test := if anyOf then test || test2 else test && test2
          if (if anyOf then test2 else !test) then (.ok test, c' :: cs)
          else
            match critLoop rx anyOf obj test cs with
            | (r, cs') => (r, c' :: cs')

/-- query.py 160-169, the loop over the attributes. -/
def attrLoop (anyOf : Bool) (obj : Val) : Bool → List (List Str) → Res Bool
  | test, [] => .ok test
  | test, ks :: attrs =>
    match getDescendant obj (ks.map Key.name) with
    | .error e => .error e
    | .ok o =>
      let test2 : Bool := !(o = .none)
      let test := if anyOf then test || test2 else test && test2
      if (if anyOf then test2 else !test) then .ok test else attrLoop anyOf obj test attrs

/-- query.py 133-175 `Filter.__call__(obj)`: the answer, and the filter afterwards. -/
def Filter.call (rx : Rx) (f : Filter) (obj : Val) : Res Bool × Filter :=
  match critLoop rx f.anyOf obj (!f.anyOf) f.crits with
  | (.error e, cs) => (.error e, { f with crits := cs })
  | (.ok test, cs) => match attrLoop f.anyOf obj test f.attrs with
    | .error e => (.error e, { f with crits := cs })
    | .ok test => (.ok (test != f.negate), { f with crits := cs })

/-- What a generator yields, and the exception it ends with, if any. -/
abbrev Stream := List Val × Option Exc

/-- query.py 258-269, the loop of `_filter_or_exclude`. -/
def select (rx : Rx) (distinct : Bool) : Filter → List Val → List Val → Stream
  | _, _, [] => ([], none)
  | f, seen, obj :: objs =>
    if !obj.truthy then select rx distinct f seen objs
    else match f.call rx obj with
      | (.error e, _) => ([], some e)
      | (.ok false, f) => select rx distinct f seen objs
      | (.ok true, f) =>
        if distinct then
          if !hashable obj then ([], some .typeError)
          else if pyIn obj seen then select rx distinct f seen objs
          else match select rx distinct f (seen ++ [obj]) objs with
            | (r, e) => (obj :: r, e)
        else match select rx distinct f seen objs with
          | (r, e) => (obj :: r, e)

/-- query.py 232-269 `_filter_or_exclude(iterable, ...)`. -/
def filterOrExclude (rx : Rx) (distinct : Bool) (f : Filter) (src : Stream) : Stream :=
  match select rx distinct f [] src.1 with
  | (r, some e) => (r, some e)
  | (r, none) => (r, src.2)

/-- query.py 458-469 `get(*attrs, **attrs_value)`, on the objects of the iterable. -/
def get (rx : Rx) (distinct : Bool) (f : Filter) (objs : List Val) : Res Val :=
  match filterOrExclude rx distinct f (objs, none) with
  | (_, some e) => .error e
  | ([], none) => .error .exception
  | ([x], none) => .ok x
  | (_, none) => .error .exception

/-- query.py 471-476 `next(*attrs, **attrs_value)`, on the objects of the iterable: the first object
yielded; nothing is evaluated after it. -/
def next (rx : Rx) (distinct : Bool) (f : Filter) (objs : List Val) : Res Val :=
  match filterOrExclude rx distinct f (objs, none) with
  | (x :: _, _) => .ok x
  | ([], some e) => .error e
  | ([], none) => .error .stopIteration

/-! ### Query objects -/

/-- What `_iterable` is: a list object, a generator reading another iterable, or `reversed(list)`.
Generators and reversed iterators have an identity: they can be read once. -/
inductive Src where
  | lst (ref : Nat)
  | gen (id : Nat) (f : Filter) (distinct : Bool) (src : Src)
  | rev (id : Nat) (ref : Nat)
  deriving Repr

/-- `_result_cache`: a list object, or a one-shot iterator over one. -/
inductive Cache where
  | lst (ref : Nat)
  | revIter (id : Nat) (ref : Nat)
  deriving DecidableEq, Repr

/-- A `Query` (query.py 214-227). `orderBy` tells whether an order key is set. -/
structure Q where
  src : Src
  distinct : Bool
  orderBy : Bool
  reverse : Bool
  cache : Option Cache
  deriving Repr

/-- The list objects, the exhausted iterators, the next identity, the queries. -/
structure World where
  lists : List (List Val)
  done : List Nat
  fresh : Nat
  qs : List Q
  deriving Repr

/-- The content of a list object. -/
def World.list (w : World) (r : Nat) : List Val := w.lists[r]?.getD []

/-- A new list object. -/
def World.newList (w : World) (l : List Val) : Nat × World := (w.lists.length, { w with lists := w.lists ++ [l] })

/-- A new query. -/
def World.newQ (w : World) (q : Q) : Nat × World := (w.qs.length, { w with qs := w.qs ++ [q] })

/-- Reading an iterable to its end. -/
def drain (rx : Rx) (w : World) : Src → Stream × World
  | .lst r => ((w.list r, none), w)
  | .rev id r => if id ∈ w.done then (([], none), w) else (((w.list r).reverse, none), { w with done := id :: w.done })
  | .gen id f distinct src =>
    if id ∈ w.done then (([], none), w)
    else match drain rx w src with
      | (s, w) => (filterOrExclude rx distinct f s, { w with done := id :: w.done })

/-- query.py 338-400: `filter`, `exclude`, `filter_any_of`, `exclude_any_of` (the four differ by the
filter); `distinct or self._distinct`, the order and direction are inherited. -/
def World.refine (w : World) (i : Nat) (f : Filter) (distinct : Bool) : Option (Nat × World) :=
  match w.qs[i]? with
  | none => none
  | some q => some (World.newQ { w with fresh := w.fresh + 1 }
      { src := .gen w.fresh f (distinct || q.distinct) q.src, distinct := distinct || q.distinct,
        orderBy := q.orderBy, reverse := q.reverse, cache := none })

/-- query.py 401-415 `result_cache`. `sorted(list, key)` with a positional key is a TypeError (the cache
then holds the unsorted list). -/
def World.resultCache (rx : Rx) (w : World) (i : Nat) : Res Cache × World :=
  match w.qs[i]? with
  | none => (.error .attributeError, w)
  | some q => match q.cache with
    | some c => (.ok c, w)
    | none => match drain rx w q.src with
      | ((_, some e), w) => (.error e, w)
      | ((l, none), w) =>
        match w.newList l with
        | (r, w) =>
          if q.orderBy then (.error .typeError, { w with qs := w.qs.set i { q with cache := some (.lst r) } })
          else if q.reverse then
            (.ok (.revIter w.fresh r),
              { w with fresh := w.fresh + 1, qs := w.qs.set i { q with cache := some (.revIter w.fresh r) } })
          else (.ok (.lst r), { w with qs := w.qs.set i { q with cache := some (.lst r) } })

/-- Iterating over a cached result. -/
def readCache (w : World) : Cache → List Val × World
  | .lst r => (w.list r, w)
  | .revIter id r => if id ∈ w.done then ([], w) else ((w.list r).reverse, { w with done := id :: w.done })

/-- query.py 398-399 `list(query)`. -/
def World.read (rx : Rx) (w : World) (i : Nat) : Res (List Val) × World :=
  match w.resultCache rx i with
  | (.error e, w) => (.error e, w)
  | (.ok c, w) => match readCache w c with
    | (l, w) => (.ok l, w)

/-- query.py 428-429 `len(query)`; a reversed iterator has no length. -/
def World.len (rx : Rx) (w : World) (i : Nat) : Res Nat × World :=
  match w.resultCache rx i with
  | (.error e, w) => (.error e, w)
  | (.ok (.lst r), w) => (.ok (w.list r).length, w)
  | (.ok (.revIter _ _), w) => (.error .typeError, w)

/-- query.py 417-426 `query[k]` for an integer. -/
def World.getItem (rx : Rx) (w : World) (i : Nat) (k : Int) : Res Val × World :=
  if k < 0 then (.error .assertionError, w)
  else match w.resultCache rx i with
    | (.error e, w) => (.error e, w)
    | (.ok (.lst r), w) => match (w.list r)[k.toNat]? with
      | some v => (.ok v, w)
      | none => (.error .indexError, w)
    | (.ok (.revIter _ _), w) => (.error .typeError, w)

/-- query.py 478-482 and 484-488 `first()`, `last()`: IndexError becomes None. -/
def World.first (rx : Rx) (w : World) (i : Nat) : Res Val × World :=
  match w.getItem rx i 0 with
  | (.error .indexError, w) => (.ok .none, w)
  | r => r

/-- See `World.first`. -/
def World.last (rx : Rx) (w : World) (i : Nat) : Res Val × World :=
  match w.getItem rx i (-1) with
  | (.error .indexError, w) => (.ok .none, w)
  | r => r

/-- query.py 440-441: `res += o.result_cache` for each argument, extending the list object `r`. -/
def unionLoop (rx : Rx) (r : Nat) : World → List Nat → Res Unit × World
  | w, [] => (.ok (), w)
  | w, j :: js => match w.resultCache rx j with
    | (.error e, w) => (.error e, w)
    | (.ok c, w) => match readCache w c with
      | (l, w) => unionLoop rx r { w with lists := w.lists.set r (w.list r ++ l) } js

/-- query.py 438-442 `union(*others)`. -/
def World.union (rx : Rx) (w : World) (i : Nat) (js : List Nat) : Res Nat × World :=
  match w.qs[i]? with
  | none => (.error .attributeError, w)
  | some q => match w.resultCache rx i with
    | (.error e, w) => (.error e, w)
    | (.ok (.revIter id r), w) =>
      -- an iterator has no `+=`
      if js.isEmpty then
        match w.newQ ⟨.rev id r, q.distinct, q.orderBy, false, none⟩ with
        | (k, w) => (.ok k, w)
      else match w.resultCache rx (js.headD 0) with
        | (.error e, w) => (.error e, w)
        | (.ok _, w) => (.error .typeError, w)
    | (.ok (.lst r), w) => match unionLoop rx r w js with
      | (.error e, w) => (.error e, w)
      | (.ok (), w) => match w.newQ ⟨.lst r, q.distinct, q.orderBy, false, none⟩ with
        | (k, w) => (.ok k, w)

/-- query.py 444-449 and 451-456, the loop: keep the elements that are (`keep = true`) or are not in the
other result. -/
def keepLoop (rx : Rx) (keep : Bool) : World → List Val → List Nat → Res (List Val) × World
  | w, res, [] => (.ok res, w)
  | w, res, j :: js => match w.resultCache rx j with
    | (.error e, w) => (.error e, w)
    | (.ok (.lst r), w) => keepLoop rx keep w (res.filter (fun x => pyIn x (w.list r) == keep)) js
    | (.ok (.revIter _ _), w) => (.error .runtimeError, w)

/-- query.py 444-449 `intersection(*others)` (`keep = true`) and 451-456 `difference(*others)`. Queries
with a one-shot result are not modelled here (an arbitrary error). -/
def World.restrict (rx : Rx) (keep : Bool) (w : World) (i : Nat) (js : List Nat) : Res Nat × World :=
  match w.qs[i]? with
  | none => (.error .attributeError, w)
  | some q => match w.resultCache rx i with
    | (.error e, w) => (.error e, w)
    | (.ok (.revIter _ _), w) => (.error .runtimeError, w)
    | (.ok (.lst r), w) => match keepLoop rx keep w (w.list r) js with
      | (.error e, w) => (.error e, w)
      | (.ok res, w) =>
        match (if js.isEmpty then (r, w) else w.newList res) with
        | (r', w) => match w.newQ ⟨.lst r', q.distinct, q.orderBy, false, none⟩ with
          | (k, w) => (.ok k, w)

/-- query.py 490-493 `reverse()`. -/
def World.reversed (rx : Rx) (w : World) (i : Nat) : Res Nat × World :=
  match w.qs[i]? with
  | none => (.error .attributeError, w)
  | some q => match w.resultCache rx i with
    | (.error e, w) => (.error e, w)
    | (.ok (.revIter _ _), w) => (.error .typeError, w)
    | (.ok (.lst r), w) =>
      match World.newQ { w with fresh := w.fresh + 1 } ⟨.rev w.fresh r, q.distinct, q.orderBy, q.reverse, none⟩ with
      | (k, w) => (.ok k, w)

/-- query.py 501-502 `order_by(order_by, reverse)`. -/
def World.orderBy (w : World) (i : Nat) (reverse : Bool) : Option (Nat × World) :=
  match w.qs[i]? with
  | none => none
  | some q => some (w.newQ ⟨q.src, q.distinct, true, reverse, none⟩)

/-- A program over queries. -/
inductive QOp where
  | query (l : List Val) (distinct : Bool)
  | refine (i : Nat) (f : Filter) (distinct : Bool)
  | read (i : Nat)
  | len (i : Nat)
  | item (i : Nat) (k : Int)
  | union (i : Nat) (js : List Nat)
  | restrict (keep : Bool) (i : Nat) (js : List Nat)
  | reversed (i : Nat)
  | orderBy (i : Nat) (reverse : Bool)

/-- One operation. -/
def World.step (rx : Rx) (w : World) : QOp → World
  | .query l distinct => match w.newList l with
    | (r, w) => (w.newQ ⟨.lst r, distinct, false, false, none⟩).2
  | .refine i f d => match w.refine i f d with | some (_, w) => w | none => w
  | .read i => (w.read rx i).2
  | .len i => (w.len rx i).2
  | .item i k => (w.getItem rx i k).2
  | .union i js => (w.union rx i js).2
  | .restrict k i js => (w.restrict rx k i js).2
  | .reversed i => (w.reversed rx i).2
  | .orderBy i r => match w.orderBy i r with | some (_, w) => w | none => w

/-- A history, from nothing. -/
def World.run (rx : Rx) (ops : List QOp) : World := ops.foldl (World.step rx) ⟨[], [], 0, []⟩

end Verif.Query
