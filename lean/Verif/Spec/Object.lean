import Verif.Model.Object
/-
What is expected of object instances (C66-C69): the value of a property given what has been assigned, with no caches,
records of inputs or invalidation, and the declarations and histories for which it is expected.
-/
namespace Verif.Obj
open Query (pyEq)

/-- The value of a property, given what has been assigned to each: a computed property is the conversion of what its
getter makes of the values it reads; another one is the conversion of what has been assigned to it, the names it
mentions standing for their values. `n` bounds the nesting. -/
def value (c : Cls) (raw : Str → Option Val) : Nat → Str → Option Val
  | 0, _ => none
  | n + 1, k => match c.getter k with
    | some g => (g.args.mapM (value c raw n)).bind fun vs =>
        (g.fn vs).toOption.bind fun r => (c.conv k r (fun _ => none)).toOption
    | none => (raw k).bind fun r => (c.conv k r (fun x => value c raw n x)).toOption

/-- A value that a property can have. -/
def Canon (c : Cls) (k : Str) (w : Val) : Prop := ∃ v e, c.conv k v e = .ok w

/-- The declarations are acyclic, and conversions and getters do not produce templates. -/
structure Acyclic (c : Cls) (rank : Str → Nat) : Prop where
  /-- Following aliases does not go up. -/
  names : ∀ x, rank (unalias c x) ≤ rank x ∧ ∀ r, rawName c (unalias c x) = some r → rank r ≤ rank x
  wf : c.deps.WF
  deps : ∀ k x, x ∈ depsOf c k → rank x < rank k
  args : ∀ k g x, c.getter k = some g → x ∈ g.args → rank x < rank k
  bound : ∀ k, rank k < c.limit
  literal : ∀ v, c.tpl v = false → c.reads v = []
  result : ∀ k g vs r, c.getter k = some g → g.fn vs = .ok r → c.reads r = []
  converted : ∀ k v e w, c.prim k = true → c.tpl v = false → c.conv k v e = .ok w → c.reads w = []

/-- A set of properties, closed under what they depend on, on which conversions behave: they are the identity on
converted values, depend only on the names a template mentions, treat equal values alike and give None for None only;
dependencies are declared for computed properties, and cover what the getter reads; getters succeed. -/
structure Good (c : Cls) (good : Str → Prop) : Prop where
  declared : ∀ k, good k → k ∈ c.props
  plainName : ∀ k, good k → unalias c k = k ∧ c.negated.contains k = false
  deps : ∀ k x, good k → x ∈ depsOf c k → good x
  noDeps : ∀ k, good k → c.getter k = none → depsOf c k = []
  args : ∀ k g x, good k → c.getter k = some g → x ∈ g.args → x ∈ depsOf c k
  computed : ∀ k g, good k → c.getter k = some g → ∀ env : Str → Val, (∀ x ∈ g.args, Canon c x (env x)) →
    ∃ r w, g.fn (g.args.map env) = .ok r ∧ w ≠ .none ∧ ∀ e, c.conv k r e = .ok w
  exact : ∀ k a b, good k → Canon c k a → Canon c k b → (pyEq a b = true ↔ a = b)
  onlyNone : ∀ k v e w, good k → c.conv k v e = .ok w → (w = .none ↔ v = .none)
  noneOk : ∀ k e, good k → c.conv k .none e = .ok .none
  idem : ∀ k v e w e', good k → (c.prim k = true → c.tpl v = false) → c.conv k v e = .ok w → c.conv k w e' = .ok w
  ctx : ∀ k v e e', good k → (c.prim k = true → ∀ x ∈ c.reads v, e x = e' x) → c.conv k v e = c.conv k v e'
  alike : ∀ k v w e, good k → pyEq v w = true →
    c.conv k v e = c.conv k w e ∧ c.reads v = c.reads w ∧ c.tpl v = c.tpl w

/-- A value that may be assigned to a property of the set: it mentions properties of the set only, of lower rank, and
its conversion succeeds whatever values they have. -/
structure Fits (c : Cls) (rank : Str → Nat) (good : Str → Prop) (k : Str) (v : Val) : Prop where
  reads : c.prim k = true → ∀ x ∈ c.reads v, good x ∧ rank x < rank k
  conv : ∀ e, (c.prim k = true → ∀ x ∈ c.reads v, ∃ a, e x = some a ∧ Canon c x a) → ∃ w, c.conv k v e = .ok w

/-- A value that may be assigned to any other item. -/
def Ranked (c : Cls) (rank : Str → Nat) (k : Str) (v : Val) : Prop :=
  c.prim k = true → ∀ x ∈ c.reads v, rank x < rank k

/-- What an assignment writes to a declared property, if it does. -/
def wrote (c : Cls) : Op → Option (Str × Val)
  | .set key v => match rawName c key with
    | some k => if k ∈ c.props ∧ k ∉ c.readOnly then (op c key v).toOption.map (fun v => (k, v)) else none
    | none => none
  | _ => none

/-- What has been assigned after an operation. -/
def assign (c : Cls) (raw : Str → Option Val) (o : Op) : Str → Option Val :=
  match wrote c o with
  | some (k, v) => fun x => if x = k then some v else raw x
  | none => raw

/-- After a history. -/
def assigned (c : Cls) (raw : Str → Option Val) (ops : List Op) : Str → Option Val := ops.foldl (assign c) raw

/-- The operations of a history: anything may be read; what is assigned to properties of the set fits; the computed ones
are not assigned; properties of the set are not deleted. -/
def Allowed (c : Cls) (rank : Str → Nat) (good : Str → Prop) : Op → Prop
  | .get _ => True
  | .set key v => ∀ k, rawName c key = some k → ∀ w, op c key v = .ok w →
      (if k ∈ c.props then Ranked c rank k w else Ranked c rank key w) ∧
      (good k → c.getter k = none ∧ Fits c rank good k w)
  | .del key => match translated c key with
    | some p => ¬ good p.2
    | none => ¬ good key
  | .delAttr k => ¬ good k

/-- The data an instance is created from: as assigned values. -/
structure Starts (c : Cls) (rank : Str → Nat) (good : Str → Prop) (data : AList Str Val) : Prop where
  present : ∀ k, good k → ∃ v, data.get? k = some v ∧
    (c.getter k = none → Fits c rank good k v) ∧ (c.getter k ≠ none → c.prim k = true → c.reads v = [])
  ranked : ∀ k v, data.get? k = some v → Ranked c rank k v

/-- One property is computed, directly or not, from another, given what has been assigned. -/
inductive Uses (c : Cls) (raw : Str → Option Val) : Str → Str → Prop where
  | refl (k : Str) : Uses c raw k k
  | getter {k x y : Str} {g : Getter} : c.getter k = some g → x ∈ g.args → Uses c raw x y → Uses c raw k y
  | template {k x y : Str} {r : Val} : c.getter k = none → raw k = some r → c.prim k = true → x ∈ c.reads r →
      Uses c raw x y → Uses c raw k y

end Verif.Obj
