import Verif.Lemmas.Object
/-
Object instances: C66, C67, C68, C69 and C115-C117.
-/
namespace Verif.Obj
open Query (pyEq)

/-! ### A class used in the examples

`a` and `t` are integers or None, `t` possibly given as a template, the name it mentions; `s` is computed: `a + t`. -/

def demoConv (_ : Str) (v : Val) (e : Str → Option Val) : Res Val :=
  match v with
  | .none => .ok .none
  | .bool b => .ok (.int (if b then 1 else 0))
  | .int i => .ok (.int i)
  | .str x => match e x with
    | some (.int i) => .ok (.int i)
    | some .none => .ok (.int 0)
    | _ => .error .keyError
  | _ => .error .typeError

def demoReads : Val → List Str
  | .str x => [x]
  | _ => []

def demoTpl : Val → Bool
  | .str _ => true
  | _ => false

def demoInt : Val → Int
  | .int i => i
  | _ => 0

def demoSum : Getter where
  args := ["a".toList, "t".toList]
  fn := fun vs => match vs with
    | [x, y] => .ok (.int (demoInt x + demoInt y))
    | _ => .error .typeError

def demo (lazy : Bool) : Cls where
  props := ["a".toList, "t".toList, "s".toList]
  deps := [("s".toList, ["a".toList, "t".toList])]
  conv := demoConv
  getter := fun k => if k = "s".toList then some demoSum else none
  reads := demoReads
  tpl := demoTpl
  lazy := lazy

def demoRank (k : Str) : Nat := if k = "s".toList then 2 else if k = "t".toList then 1 else 0

def demoGood (k : Str) : Prop := k ∈ ["a".toList, "t".toList, "s".toList]

instance (k : Str) : Decidable (demoGood k) := inferInstanceAs (Decidable (_ ∈ _))

theorem demo_deps (z : Bool) {k x : Str} (h : x ∈ depsOf (demo z) k) :
    k = "s".toList ∧ (x = "a".toList ∨ x = "t".toList) := by
  simp only [depsOf, demo, AList.get?] at h
  split at h
  · rename_i e
    simp only [Option.getD_some, List.mem_cons, List.not_mem_nil, or_false] at h
    exact ⟨e.symm, h⟩
  · simp at h

theorem demo_getter (z : Bool) {k : Str} {g : Getter} (h : (demo z).getter k = some g) :
    k = "s".toList ∧ g = demoSum := by
  simp only [demo] at h
  split at h
  · rename_i e; exact ⟨e, (Option.some.inj h).symm⟩
  · cases h

theorem demo_conv {k : Str} {v w : Val} {e : Str → Option Val} (h : demoConv k v e = .ok w) :
    (w = .none ∧ v = .none) ∨ (v ≠ .none ∧ ∃ i, w = .int i) := by
  cases v with
  | none => left; cases h; exact ⟨rfl, rfl⟩
  | bool b => right; cases h; exact ⟨by simp, _, rfl⟩
  | int i => right; cases h; exact ⟨by simp, _, rfl⟩
  | str x =>
    right
    simp only [demoConv] at h
    split at h
    · cases h; exact ⟨by simp, _, rfl⟩
    · cases h; exact ⟨by simp, _, rfl⟩
    · cases h
  | list l => cases h
  | dict d => cases h

theorem demo_canon (z : Bool) {k : Str} {w : Val} (h : Canon (demo z) k w) : w = .none ∨ ∃ i, w = .int i := by
  obtain ⟨v, e, h⟩ := h
  exact (demo_conv (k := k) h).imp And.left And.right

theorem demo_acyclic (z : Bool) : Acyclic (demo z) demoRank where
  names x := by
    refine ⟨Nat.le_refl _, fun r hr => ?_⟩
    have hu : unalias (demo z) x = x := rfl
    rw [hu] at hr
    simp only [rawName, demo, translated, aliasOf, AList.get?, List.find?_nil, if_true] at hr
    split at hr <;> (cases hr; exact Nat.le_refl _)
  wf := by simp [AList.WF, demo, AList.keys]
  deps k x h := by
    obtain ⟨rfl, rfl | rfl⟩ := demo_deps z h <;> decide
  args k g x hg h := by
    obtain ⟨rfl, rfl⟩ := demo_getter z hg
    simp only [demoSum, List.mem_cons, List.not_mem_nil, or_false] at h
    rcases h with rfl | rfl <;> decide
  bound k := by
    show demoRank k < 100
    simp only [demoRank]
    split
    · omega
    · split <;> omega
  literal v h := by cases v <;> first | rfl | cases h
  result k g vs r hg h := by
    obtain ⟨_, rfl⟩ := demo_getter z hg
    simp only [demoSum] at h
    split at h
    · cases h; rfl
    · cases h
  converted k v e w _ _ h := by
    rcases demo_conv (k := k) h with ⟨rfl, _⟩ | ⟨_, i, rfl⟩ <;> rfl

theorem demo_alike (k : Str) (v w : Val) (e : Str → Option Val) (h : pyEq v w = true) :
    demoConv k v e = demoConv k w e ∧ demoReads v = demoReads w ∧ demoTpl v = demoTpl w := by
  cases v with
  | none => cases w <;> simp [pyEq] at h; exact ⟨rfl, rfl, rfl⟩
  | bool b =>
    cases w <;> simp [pyEq, Query.num] at h
    · exact ⟨by simp [demoConv, h], rfl, rfl⟩
    · exact ⟨by simp [demoConv, h], rfl, rfl⟩
  | int i =>
    cases w <;> simp [pyEq, Query.num] at h
    · subst h; exact ⟨rfl, rfl, rfl⟩
    · subst h; exact ⟨rfl, rfl, rfl⟩
  | str x => cases w <;> simp [pyEq] at h; subst h; exact ⟨rfl, rfl, rfl⟩
  | list l => cases w <;> simp [pyEq] at h; exact ⟨rfl, rfl, rfl⟩
  | dict d => cases w <;> simp [pyEq] at h; exact ⟨rfl, rfl, rfl⟩

theorem demo_good (z : Bool) : Good (demo z) demoGood where
  declared k h := h
  plainName k h := ⟨rfl, rfl⟩
  deps k x _ h := by
    obtain ⟨_, rfl | rfl⟩ := demo_deps z h <;> decide
  noDeps k hk hg := by
    simp only [demo] at hg
    split at hg
    · cases hg
    · rename_i hne
      simp only [depsOf, demo, AList.get?]
      rw [if_neg (fun e => hne e.symm)]
      rfl
  args k g x _ hg h := by
    obtain ⟨rfl, rfl⟩ := demo_getter z hg
    exact h
  computed k g _ hg env _ := by
    obtain ⟨_, rfl⟩ := demo_getter z hg
    exact ⟨_, _, rfl, by simp, fun _ => rfl⟩
  exact k a b _ ha hb := by
    rcases demo_canon z ha with rfl | ⟨i, rfl⟩ <;> rcases demo_canon z hb with rfl | ⟨j, rfl⟩
    · simp [pyEq]
    · simp [pyEq]
    · simp [pyEq, Query.num]
    · simp [pyEq, Query.num]; exact eq_comm
  onlyNone k v e w _ h := by
    rcases demo_conv (k := k) h with ⟨rfl, rfl⟩ | ⟨hv, i, rfl⟩
    · simp
    · simp [hv]
  noneOk k e _ := rfl
  idem k v e w e' _ _ h := by
    rcases demo_conv (k := k) h with ⟨rfl, _⟩ | ⟨_, i, rfl⟩ <;> rfl
  ctx k v e e' _ h := by
    cases v with
    | str x =>
      have := h rfl x (by simp [demo, demoReads])
      simp only [demo, demoConv, this]
    | _ => rfl
  alike k v w e _ h := demo_alike k v w e h

/-- Integers and None fit `a` and `t`, and so does the template reading `a` for `t`. -/
theorem demo_fits_int (z : Bool) (k : Str) (v : Val) (h : v = .none ∨ ∃ i, v = .int i) :
    Fits (demo z) demoRank demoGood k v := by
  refine ⟨fun _ x hx => ?_, fun e _ => ?_⟩
  · rcases h with rfl | ⟨i, rfl⟩ <;> cases hx
  · rcases h with rfl | ⟨i, rfl⟩ <;> exact ⟨_, rfl⟩

theorem demo_fits_template (z : Bool) : Fits (demo z) demoRank demoGood "t".toList (.str "a".toList) := by
  refine ⟨fun _ x hx => ?_, fun e he => ?_⟩
  · simp only [demo, demoReads, List.mem_cons, List.not_mem_nil, or_false] at hx
    subst hx; decide
  · obtain ⟨a, ha, hc⟩ := he rfl "a".toList (by simp [demo, demoReads])
    rcases demo_canon z hc with rfl | ⟨i, rfl⟩
    · exact ⟨.int 0, by simp only [demo, demoConv, ha]⟩
    · exact ⟨.int i, by simp only [demo, demoConv, ha]⟩

/-- The instance the examples start from: `a = 1`, `t` the template reading `a`. -/
def demoData : AList Str Val :=
  [("a".toList, .int 1), ("t".toList, .str "a".toList), ("s".toList, .none)]

theorem demo_starts (z : Bool) : Starts (demo z) demoRank demoGood demoData where
  present k hk := by
    simp only [demoGood, List.mem_cons, List.not_mem_nil, or_false] at hk
    rcases hk with rfl | rfl | rfl
    · exact ⟨.int 1, rfl, fun _ => demo_fits_int z _ _ (.inr ⟨1, rfl⟩), fun _ _ => rfl⟩
    · exact ⟨.str "a".toList, rfl, fun _ => demo_fits_template z, fun h => absurd rfl h⟩
    · exact ⟨.none, rfl, fun h => (by cases h), fun _ _ => rfl⟩
  ranked k v h := by
    have := AList.mem_of_get? h
    simp only [demoData, List.mem_cons, List.not_mem_nil, or_false, Prod.mk.injEq] at this
    rcases this with ⟨rfl, rfl⟩ | ⟨rfl, rfl⟩ | ⟨rfl, rfl⟩ <;> intro _ x hx
    · cases hx
    · simp only [demo, demoReads, List.mem_cons, List.not_mem_nil, or_false] at hx
      subst hx; decide
    · cases hx

/-- A history on it. -/
def demoOps : List Op :=
  [.get "s".toList, .set "a".toList (.int 5), .get "t".toList, .set "t".toList (.int 7), .set "t".toList (.str "a".toList),
   .set "x".toList (.int 0), .set "a".toList (.int 9)]

theorem demo_set_allowed (z : Bool) (k : Str) (v : Val) (hg : (demo z).getter k = none)
    (hf : Fits (demo z) demoRank demoGood k v) : Allowed (demo z) demoRank demoGood (.set k v) := by
  intro k' hr w hw
  have hk : k' = k := by
    simp only [rawName, demo, translated, aliasOf, AList.get?, List.find?_nil, if_true] at hr
    split at hr <;> (cases hr; rfl)
  subst hk
  have hv : w = v := by
    simp only [op, demo, AList.contains, AList.get?, Option.isSome_none, Bool.false_eq_true, if_false] at hw
    exact (Except.ok.inj hw).symm
  subst hv
  refine ⟨?_, fun _ => ⟨hg, hf⟩⟩
  split <;> exact fun hp x hx => (hf.reads hp x hx).2

theorem demo_allowed (z : Bool) : ∀ o ∈ demoOps, Allowed (demo z) demoRank demoGood o := by
  intro o ho
  simp only [demoOps, List.mem_cons, List.not_mem_nil, or_false] at ho
  rcases ho with rfl | rfl | rfl | rfl | rfl | rfl | rfl
  · trivial
  · exact demo_set_allowed z _ _ rfl (demo_fits_int z _ _ (.inr ⟨_, rfl⟩))
  · trivial
  · exact demo_set_allowed z _ _ rfl (demo_fits_int z _ _ (.inr ⟨_, rfl⟩))
  · exact demo_set_allowed z _ _ rfl (demo_fits_template z)
  · exact demo_set_allowed z _ _ rfl (demo_fits_int z _ _ (.inr ⟨_, rfl⟩))
  · exact demo_set_allowed z _ _ rfl (demo_fits_int z _ _ (.inr ⟨_, rfl⟩))

/-! ### C68: computed properties -/

/-- After any history of assignments, reads and deletions of other items, with or without lazy loading, and whatever
other properties raise: reading a property of the set (computed by a getter, given by a template, or plain) gives its
value computed from what has last been assigned, without any cache. Partial: see `Good` for what the set requires and the
violations below for what happens otherwise. -/
theorem C68_current_partial (c : Cls) (rank : Str → Nat) (good : Str → Prop) (ac : Acyclic c rank) (g : Good c good)
    (n : Nat) (hn : c.limit ≤ n) (data : AList Str Val) (hs : Starts c rank good data)
    (ops : List Op) (ho : ∀ o ∈ ops, Allowed c rank good o) (k : Str) (hk : good k) :
    ∃ v, value c (assigned c (fun x => data.get? x) ops) n k = some v ∧
      (getItem c n k (run c n (create c n data).2 ops)).1 = .ok v := by
  obtain ⟨hf0, h0⟩ := create_inv ac g hn data hs
  obtain ⟨hf, h⟩ := run_inv ac g hn ops _ ho hf0 h0
  have hr : rank k < n := by have := ac.bound k; omega
  refine ⟨_, (value_spec ac g hf k hk).1 n hr, ?_⟩
  exact ((getItem_reads ac g (vals_valOf ac g hf) n k hr _ h).2 hk).1

example : ∀ z, ∃ v, value (demo z) (assigned (demo z) (fun x => demoData.get? x) demoOps) 100 "s".toList = some v ∧
    (getItem (demo z) 100 "s".toList (run (demo z) 100 (create (demo z) 100 demoData).2 demoOps)).1 = .ok v :=
  fun z => C68_current_partial (demo z) demoRank demoGood (demo_acyclic z) (demo_good z) 100 (Nat.le_refl _) demoData
    (demo_starts z) demoOps (demo_allowed z) _ (by decide)

example : value (demo true) (assigned (demo true) (fun x => demoData.get? x) demoOps) 100 "s".toList = some (.int 18) := by
  decide +kernel
example : (getItem (demo true) 100 "s".toList (run (demo true) 100 (create (demo true) 100 demoData).2 demoOps)).1
    = .ok (.int 18) := by decide +kernel
example : (getItem (demo false) 100 "s".toList (run (demo false) 100 (create (demo false) 100 demoData).2 demoOps)).1
    = .ok (.int 18) := by decide +kernel

/-- Dropped exceptions, not covered above: `t` is the template reading `a` and cannot be converted when `a` is negative.
After `obj['a'] = -1`, assigning the same template again raises, but the inputs have already been recorded as the present
ones; reading `t` then gives the value computed from the former `a` instead of raising. -/
def partialConv (k : Str) (v : Val) (e : Str → Option Val) : Res Val :=
  match demoConv k v e with
  | .ok (.int i) => if k = "t".toList ∧ i < 0 then .error .valueError else .ok (.int i)
  | r => r

theorem C68_reassigned_violated :
    let c := { demo false with conv := partialConv }
    let s := (create c 100 demoData).2
    let s1 := step c 100 s (.set "a".toList (.int (-1)))
    (getItem c 100 "t".toList s1).1 = .error .valueError ∧
    (setItem c 100 "t".toList (.str "a".toList) s1).1 = .error .valueError ∧
    (getItem c 100 "t".toList (step c 100 s1 (.set "t".toList (.str "a".toList)))).1 = .ok (.int 1) := by
  decide +kernel

/-- Equal values, not covered above: `1 == True`, so replacing one by the other leaves the computed property as it was,
although its getter tells them apart. -/
def tellGetter : Getter where
  args := ["a".toList]
  fn := fun vs => match vs with
    | [.bool _] => .ok (.str "bool".toList)
    | [.int _] => .ok (.str "int".toList)
    | _ => .error .typeError

def tellCls : Cls where
  props := ["a".toList, "s".toList]
  deps := [("s".toList, ["a".toList])]
  conv := fun _ v _ => .ok v
  getter := fun k => if k = "s".toList then some tellGetter else none

theorem C68_equal_violated :
    let data : AList Str Val := [("a".toList, .int 1), ("s".toList, .none)]
    let ops := [Op.set "a".toList (.bool true)]
    value tellCls (assigned tellCls (fun x => data.get? x) ops) 100 "s".toList = some (.str "bool".toList) ∧
    (getItem tellCls 100 "s".toList (run tellCls 100 (create tellCls 100 data).2 ops)).1 = .ok (.str "int".toList) := by
  decide +kernel

/-- Dependencies declared for a property that is not computed, not covered above: `x`, assigned 5, depends on `y`, an
array computed from `t`, itself the template reading `a`. Changing `a` so that `y` is computed again to an equal value
makes `x` read as None: computing `y` drops the value of `x` while it is being read, after its inputs have been found
unchanged. -/
def lostGetter : Getter where
  args := ["t".toList]
  fn := fun vs => match vs with
    | [.int i] => .ok (.int (i % 2))
    | _ => .error .typeError

def lostCls : Cls where
  props := ["a".toList, "t".toList, "y".toList, "x".toList]
  deps := [("y".toList, ["t".toList]), ("x".toList, ["y".toList])]
  conv := demoConv
  getter := fun k => if k = "y".toList then some lostGetter else none
  prim := fun k => k ≠ "y".toList
  reads := demoReads
  tpl := demoTpl

theorem C68_lost_violated :
    let data : AList Str Val :=
      [("a".toList, .int 1), ("t".toList, .str "a".toList), ("y".toList, .none), ("x".toList, .int 5)]
    let s := (create lostCls 100 data).2
    (create lostCls 100 data).1 = .ok () ∧
    (getItem lostCls 100 "x".toList s).1 = .ok (.int 5) ∧
    (getItem lostCls 100 "x".toList (step lostCls 100 s (.set "a".toList (.int 3)))).1 = .ok .none := by
  decide +kernel

/-! ### C66: assigned properties -/

theorem assigned_append (c : Cls) (raw : Str → Option Val) (ops ops' : List Op) :
    assigned c raw (ops ++ ops') = assigned c (assigned c raw ops) ops' := by
  simp [assigned, List.foldl_append]

theorem assigned_kept (c : Cls) (raw : Str → Option Val) (k : Str) (ops : List Op)
    (h : ∀ o ∈ ops, ∀ v, wrote c o ≠ some (k, v)) : assigned c raw ops k = raw k := by
  induction ops generalizing raw with
  | nil => rfl
  | cons o ops ih =>
    have h1 := ih (assign c raw o) (fun o ho => h o (by simp [ho]))
    refine h1.trans ?_
    simp only [assign]
    cases hw : wrote c o with
    | none => rfl
    | some p =>
      obtain ⟨x, v⟩ := p
      have : k ≠ x := fun e => h o (by simp) v (by rw [hw, e])
      simp [this]

/-- The value of a property that has been assigned something other than a template. -/
theorem value_plain {c : Cls} {rank : Str → Nat} {good : Str → Prop} (ac : Acyclic c rank) (g : Good c good)
    {raw : Str → Option Val} {n : Nat} {k : Str} {v : Val} (hk : good k) (hg : c.getter k = none) (hv : raw k = some v)
    (ht : c.prim k = true → c.tpl v = false) (hn : rank k < n) :
    value c raw n k = (c.conv k v (fun _ => none)).toOption := by
  cases n with
  | zero => omega
  | succ n =>
    simp only [value, hg, hv, Option.bind_some]
    rw [g.ctx k v _ (fun _ => none) hk (fun hp x hx => by rw [ac.literal v (ht hp)] at hx; cases hx)]

/-- A property of the set, not read-only and not computed, to which a value that is not a template is assigned by its
name: from then on, as long as it is not assigned again, it reads as the conversion of that value, whatever else has been
and is done to the instance, with or without lazy loading. -/
theorem C66_read_partial (c : Cls) (rank : Str → Nat) (good : Str → Prop) (ac : Acyclic c rank) (g : Good c good)
    (n : Nat) (hn : c.limit ≤ n) (data : AList Str Val) (hs : Starts c rank good data)
    (ops ops' : List Op) (k : Str) (v : Val) (ho : ∀ o ∈ ops ++ .set k v :: ops', Allowed c rank good o)
    (hk : good k) (hr : k ∉ c.readOnly) (ht : c.prim k = true → c.tpl v = false)
    (hlast : ∀ o ∈ ops', ∀ w, wrote c o ≠ some (k, w)) :
    (getItem c n k (run c n (create c n data).2 (ops ++ .set k v :: ops'))).1 = c.conv k v (fun _ => none) := by
  have hp := g.declared k hk
  have hraw : rawName c k = some k := by simp [rawName, hp]
  have hop : op c k v = .ok v := by simp [op, (g.plainName k hk).2]
  have hw : wrote c (.set k v) = some (k, v) := by simp [wrote, hraw, hp, hr, hop, Except.toOption]
  have hall := ho (.set k v) (by simp) k hraw v hop
  obtain ⟨hg, _⟩ := hall.2 hk
  obtain ⟨w, h1, h2⟩ := C68_current_partial c rank good ac g n hn data hs _ ho k hk
  have hk' : assigned c (fun x => data.get? x) (ops ++ .set k v :: ops') k = some v := by
    rw [assigned_append]
    show assigned c (assign c _ (.set k v)) ops' k = some v
    rw [assigned_kept c _ k ops' hlast]
    simp [assign, hw]
  rw [value_plain ac g hk hg hk' ht (by have := ac.bound k; omega)] at h1
  rw [h2]
  cases hc : c.conv k v (fun _ => none) with
  | error e => rw [hc] at h1; cases h1
  | ok w' => rw [hc] at h1; cases h1; rfl

example : ∀ z, (getItem (demo z) 100 "a".toList (run (demo z) 100 (create (demo z) 100 demoData).2
      ([.get "s".toList] ++ .set "a".toList (.int 5) :: [.set "t".toList (.int 7), .get "s".toList]))).1 = .ok (.int 5) :=
  fun z => C66_read_partial (demo z) demoRank demoGood (demo_acyclic z) (demo_good z) 100 (Nat.le_refl _) demoData
    (demo_starts z) [.get "s".toList] [.set "t".toList (.int 7), .get "s".toList] "a".toList (.int 5)
    (by
      intro o ho
      simp only [List.cons_append, List.nil_append, List.mem_cons, List.not_mem_nil, or_false] at ho
      rcases ho with rfl | rfl | rfl | rfl
      · trivial
      · exact demo_set_allowed z _ _ rfl (demo_fits_int z _ _ (.inr ⟨_, rfl⟩))
      · exact demo_set_allowed z _ _ rfl (demo_fits_int z _ _ (.inr ⟨_, rfl⟩))
      · trivial)
    (by decide) (by simp [demo]) (fun _ => rfl)
    (by
      intro o ho w
      simp only [List.mem_cons, List.not_mem_nil, or_false] at ho
      rcases ho with rfl | rfl <;> cases z <;> simp [wrote, rawName, demo, op, AList.contains, AList.get?, Except.toOption])

theorem value_unused {c : Cls} {rank : Str → Nat} {good : Str → Prop} (ac : Acyclic c rank) (g : Good c good)
    {raw raw' : Str → Option Val} (hf : AllFit c rank good raw) {k : Str} (hd : ∀ x, x ≠ k → raw' x = raw x)
    (n : Nat) (y : Str) (hy : good y) (hu : ¬ Uses c raw y k) : value c raw' n y = value c raw n y := by
  induction n generalizing y with
  | zero => rfl
  | succ n ih =>
    have hne : y ≠ k := fun e => hu (e ▸ .refl y)
    simp only [value]
    cases hg : c.getter y with
    | some gt =>
      have : gt.args.mapM (value c raw' n) = gt.args.mapM (value c raw n) := by
        have hx : ∀ xs : List Str, (∀ x ∈ xs, value c raw' n x = value c raw n x) →
            xs.mapM (value c raw' n) = xs.mapM (value c raw n) := by
          intro xs
          induction xs with
          | nil => intro _; rfl
          | cons x xs ihx =>
            intro h
            rw [List.mapM_cons, List.mapM_cons, h x (by simp), ihx (fun y hy => h y (by simp [hy]))]
        exact hx _ (fun x hx => ih x (g.deps y x hy (g.args y gt x hy hg hx)) (fun h => hu (.getter hg hx h)))
      dsimp only
      rw [this]
    | none =>
      dsimp only
      rw [hd y hne]
      obtain ⟨r, hr, hfit⟩ := hf y hy hg
      simp only [hr, Option.bind_some]
      rw [g.ctx y r _ (fun x => value c raw n x) hy (fun hp x hx =>
        ih x (hfit.reads hp x hx).1 (fun h => hu (.template hg hr hp hx h)))]

/-- Assigning a property leaves the others of the set that are not computed from it, directly or not, as they were. -/
theorem C66_others_partial (c : Cls) (rank : Str → Nat) (good : Str → Prop) (ac : Acyclic c rank) (g : Good c good)
    (n : Nat) (hn : c.limit ≤ n) (data : AList Str Val) (hs : Starts c rank good data)
    (ops : List Op) (key : Str) (v : Val) (ho : ∀ o ∈ ops ++ [.set key v], Allowed c rank good o)
    (y : Str) (hy : good y)
    (hu : ∀ k w, wrote c (.set key v) = some (k, w) → ¬ Uses c (assigned c (fun x => data.get? x) ops) y k) :
    (getItem c n y (run c n (create c n data).2 (ops ++ [.set key v]))).1
      = (getItem c n y (run c n (create c n data).2 ops)).1 := by
  have ho1 : ∀ o ∈ ops, Allowed c rank good o := fun o h => ho o (by simp [h])
  obtain ⟨w1, h1, h1'⟩ := C68_current_partial c rank good ac g n hn data hs _ ho y hy
  obtain ⟨w2, h2, h2'⟩ := C68_current_partial c rank good ac g n hn data hs _ ho1 y hy
  obtain ⟨hf0, h0⟩ := create_inv ac g hn data hs
  obtain ⟨hf, _⟩ := run_inv ac g hn ops _ ho1 hf0 h0
  rw [h1', h2']
  rw [assigned_append] at h1
  have heq : value c (assigned c (assigned c (fun x => data.get? x) ops) [.set key v]) n y
      = value c (assigned c (fun x => data.get? x) ops) n y := by
    show value c (assign c _ _) n y = _
    simp only [assign]
    cases hw : wrote c (.set key v) with
    | none => rfl
    | some p =>
      obtain ⟨k, w⟩ := p
      exact value_unused ac g hf (k := k) (fun x hx => by simp [hx]) n y hy (hu k w hw)
  rw [heq, h2] at h1
  cases h1; rfl

example : ∀ z, (getItem (demo z) 100 "a".toList (run (demo z) 100 (create (demo z) 100 demoData).2
      ([.set "a".toList (.int 5)] ++ [.set "t".toList (.int 7)]))).1
    = (getItem (demo z) 100 "a".toList (run (demo z) 100 (create (demo z) 100 demoData).2 [.set "a".toList (.int 5)])).1 :=
  fun z => C66_others_partial (demo z) demoRank demoGood (demo_acyclic z) (demo_good z) 100 (Nat.le_refl _) demoData
    (demo_starts z) [.set "a".toList (.int 5)] "t".toList (.int 7)
    (by
      intro o ho
      simp only [List.cons_append, List.nil_append, List.mem_cons, List.not_mem_nil, or_false] at ho
      rcases ho with rfl | rfl
      · exact demo_set_allowed z _ _ rfl (demo_fits_int z _ _ (.inr ⟨_, rfl⟩))
      · exact demo_set_allowed z _ _ rfl (demo_fits_int z _ _ (.inr ⟨_, rfl⟩)))
    "a".toList (by decide)
    (by
      intro k w hw hu
      have hk : k = "t".toList := by
        have : wrote (demo z) (.set "t".toList (.int 7)) = some ("t".toList, .int 7) := by cases z <;> decide +kernel
        rw [this] at hw; cases hw; rfl
      subst hk
      have hraw : assigned (demo z) (fun x => demoData.get? x) [.set "a".toList (.int 5)] "a".toList = some (.int 5) := by
        cases z <;> decide +kernel
      cases hu with
      | getter hg _ _ => cases hg
      | template _ hr _ hx _ => rw [hraw] at hr; cases hr; cases hx)

/-- None, not covered above: with a default the conversion of None is the default. Assigning None gives the default, but
with lazy loading it gives None. -/
theorem C66_none_violated :
    let c := fun z => { demo z with conv := fun k v e => match v with | .none => .ok (.int 3) | v => demoConv k v e }
    let go := fun z => (getItem (c z) 100 "a".toList
      (run (c z) 100 (create (c z) 100 demoData).2 [.set "a".toList .none])).1
    go false = .ok (.int 3) ∧ go true = .ok .none := by
  decide +kernel

/-- Additional properties, not covered above: without lazy loading what is assigned is read back as it is, although the
type declared for additional properties would convert it (here True to 1), or refuse it. -/
theorem C66_additional_violated :
    let go := fun z v => (getItem (demo z) 100 "x".toList
      (run (demo z) 100 (create (demo z) 100 demoData).2 [.set "x".toList v])).1
    (demo false).conv "x".toList (.bool true) (fun _ => none) = .ok (.int 1) ∧
    go false (.bool true) = .ok (.bool true) ∧ go true (.bool true) = .ok (.int 1) ∧
    go false (.list []) = .ok (.list []) ∧ go true (.list []) = .error .typeError := by
  decide +kernel

/-! ### C67: read-only and required properties -/

/-- In every state: assigning a read-only property, by its name, its clean name or an alias, raises AttributeError and
changes nothing. (Through a negated alias, a value that is not a number raises TypeError first.) -/
theorem C67_readonly (c : Cls) (n : Nat) (s : Obj) (key k : Str) (v : Val) (hk : rawName c key = some k)
    (hp : k ∈ c.props) (hr : k ∈ c.readOnly) (hneg : c.negated.contains key = false) :
    setItem c n key v s = (.error .attributeError, s) := by
  simp [setItem, hk, hp, op, hneg, descSet, hr]

/-- Also through a negated alias: nothing is changed. -/
theorem C67_readonly_unchanged (c : Cls) (n : Nat) (s : Obj) (key k : Str) (v : Val) (hk : rawName c key = some k)
    (hp : k ∈ c.props) (hr : k ∈ c.readOnly) :
    (setItem c n key v s).2 = s ∧ ((setItem c n key v s).1 = .error .attributeError ∨
      (c.negated.contains key = true ∧ (setItem c n key v s).1 = .error .typeError)) := by
  simp only [setItem, hk, hp, if_true, op, descSet, hr]
  cases hneg : c.negated.contains key with
  | false => exact ⟨rfl, .inl rfl⟩
  | true =>
    cases v <;> simp [Types.negate]

def lockCls : Cls where
  props := ["a".toList, "b".toList, "my-c".toList]
  conv := fun _ v _ => .ok v
  readOnly := ["a".toList]
  required := ["b".toList, "my-c".toList]
  aliases := [("al".toList, "a".toList)]
  negated := [("neg".toList, "a".toList)]
  translation := [("my_c".toList, "my-c".toList)]

def lockObj : Obj :=
  (create lockCls 100 [("a".toList, .int 1), ("b".toList, .int 2), ("my-c".toList, .int 3)]).2

example : setItem lockCls 100 "al".toList (.int 5) lockObj = (.error .attributeError, lockObj) :=
  C67_readonly lockCls 100 lockObj _ "a".toList _ (by decide +kernel) (by decide +kernel) (by decide +kernel) (by decide +kernel)
example : setItem lockCls 100 "neg".toList (.str []) lockObj = (.error .typeError, lockObj) := by decide +kernel

/-- In every state: deleting the attribute of a required property raises AttributeError and changes nothing. -/
theorem C67_required_attribute (c : Cls) (s : Obj) (k : Str) (hr : k ∈ c.required) :
    delAttr c k s = (.error .attributeError, s) := by
  simp [delAttr, descDel, hr]

/-- So does deleting the item of a required property whose name is not an identifier. -/
theorem C67_required_translated (c : Cls) (s : Obj) (key clean k : Str) (ht : translated c key = some (clean, k))
    (hr : k ∈ c.required) : delItem c key s = (.error .attributeError, s) := by
  simp [delItem, ht, descDel, hr]

example : delAttr lockCls "b".toList lockObj = (.error .attributeError, lockObj) :=
  C67_required_attribute lockCls lockObj _ (by decide +kernel)
example : delItem lockCls "my-c".toList lockObj = (.error .attributeError, lockObj) :=
  C67_required_translated lockCls lockObj _ "my_c".toList "my-c".toList (by decide +kernel) (by decide +kernel)

/-- Not so for the item of a required property with an ordinary name: in every state where it is present it is
deleted. -/
theorem C67_required_item_violated (c : Cls) (s : Obj) (k : Str) (_hr : k ∈ c.required) (ht : translated c k = none)
    (h1 : s.data.contains k = true) (h2 : s.validated.contains k = true) (h3 : s.inputs.contains k = true) :
    (delItem c k s).1 = .ok () ∧ (delItem c k s).2.data.contains k = false := by
  have e : delItem c k s =
      (.ok (), Obj.mk (s.data.erase k) (s.validated.erase k) (s.inputs.erase k)) := by
    simp [delItem, ht, andThen, delData, delInputs, delValidated, h1, h2, h3]
  rw [e]
  exact ⟨rfl, by simp [AList.contains, AList.get?_erase]⟩

example : (delItem lockCls "b".toList lockObj).1 = .ok () ∧ (delItem lockCls "b".toList lockObj).2.data.contains "b".toList = false :=
  C67_required_item_violated lockCls lockObj _ (by decide +kernel) (by decide +kernel) (by decide +kernel) (by decide +kernel)
    (by decide +kernel)

/-! ### C69: aliases -/

/-- An alias of a property which is not itself an alias, a negated alias, a property name or a clean name. -/
structure IsAlias (c : Cls) (a p : Str) : Prop where
  alias : c.aliases.get? a = some p
  target : p ∈ c.props ∧ p ≠ [] ∧ c.aliases.get? p = none ∧ c.negated.get? p = none
  fresh : a ∉ c.props ∧ translated c a = none ∧ c.negated.get? a = none

/-- In every state, an alias reads and writes the same as the property: same results, same effects. -/
theorem C69_alias (c : Cls) (a p : Str) (h : IsAlias c a p) (n : Nat) (s : Obj) (v : Val) :
    getItem c n a s = getItem c n p s ∧ setItem c n a v s = setItem c n p v s := by
  obtain ⟨h1, ⟨h2, h3, h4, h5⟩, ⟨h6, h7, h8⟩⟩ := h
  have hne : p.isEmpty = false := by cases p <;> simp_all
  constructor
  · cases n with
    | zero => rfl
    | succ n => simp only [getItem, unalias, h1, h8, h4, h5, Option.getD_none, Option.getD_some]
  · have hr1 : rawName c a = some p := by simp [rawName, h6, h7, aliasOf, h1, hne]
    have hr2 : rawName c p = some p := by simp [rawName, h2]
    simp only [setItem, hr1, hr2, h2, if_true, op, AList.contains, h8, h5]

/-- A negated alias, likewise. -/
structure IsNegated (c : Cls) (a p : Str) : Prop where
  alias : c.negated.get? a = some p
  target : p ∈ c.props ∧ p ≠ [] ∧ c.aliases.get? p = none ∧ c.negated.get? p = none
  fresh : a ∉ c.props ∧ translated c a = none ∧ c.aliases.get? a = none

/-- In every state, assigning an integer to a negated alias assigns the opposite to the property. -/
theorem C69_negated_write (c : Cls) (a p : Str) (h : IsNegated c a p) (n : Nat) (s : Obj) (i : Int) :
    setItem c n a (.int i) s = setItem c n p (.int (-i)) s := by
  obtain ⟨h1, ⟨h2, h3, h4, h5⟩, ⟨h6, h7, h8⟩⟩ := h
  have hne : p.isEmpty = false := by cases p <;> simp_all
  have hr1 : rawName c a = some p := by simp [rawName, h6, h7, aliasOf, h1, h8, hne]
  have hr2 : rawName c p = some p := by simp [rawName, h2]
  simp [setItem, hr1, hr2, h2, op, AList.contains, h1, h5, Types.negate]

/-- But reading a negated alias gives the value of the property, not its opposite: in every state. (`op` looks at the
variable `key`, which has been replaced by the name of the property by then.) -/
theorem C69_negated_read_violated (c : Cls) (a p : Str) (h : IsNegated c a p) (n : Nat) (s : Obj) :
    getItem c n a s = getItem c n p s := by
  obtain ⟨h1, ⟨h2, h3, h4, h5⟩, ⟨h6, h7, h8⟩⟩ := h
  cases n with
  | zero => rfl
  | succ n => simp only [getItem, unalias, h1, h4, h5, Option.getD_none, Option.getD_some]

def aliasCls (z : Bool) : Cls :=
  { demo z with aliases := [("al".toList, "a".toList)], negated := [("neg".toList, "a".toList)] }

example (z : Bool) : IsAlias (aliasCls z) "al".toList "a".toList := by
  cases z <;> exact ⟨by decide +kernel, by decide +kernel, by decide +kernel⟩
example (z : Bool) : IsNegated (aliasCls z) "neg".toList "a".toList := by
  cases z <;> exact ⟨by decide +kernel, by decide +kernel, by decide +kernel⟩

/-- `obj['neg'] = 4`, then `obj['neg']` gives -4, and so does `obj['a']`. -/
theorem C69_negated_violated :
    let s := fun z => run (aliasCls z) 100 (create (aliasCls z) 100 demoData).2 [.set "neg".toList (.int 4)]
    ∀ z, (getItem (aliasCls z) 100 "neg".toList (s z)).1 = .ok (.int (-4)) ∧
      (getItem (aliasCls z) 100 "a".toList (s z)).1 = .ok (.int (-4)) := by
  decide +kernel

/-- An alias in use: `obj['al'] = 4`, then both read 4, and the computed property follows. -/
example : ∀ z, (getItem (aliasCls z) 100 "al".toList
      (run (aliasCls z) 100 (create (aliasCls z) 100 demoData).2 [.set "al".toList (.int 4)])).1 = .ok (.int 4) ∧
    (getItem (aliasCls z) 100 "s".toList
      (run (aliasCls z) 100 (create (aliasCls z) 100 demoData).2 [.set "al".toList (.int 4)])).1 = .ok (.int 8) := by
  decide +kernel

/-! ### C115: deletion -/

/-- In every state: a property that has been deleted cannot be assigned any more, KeyError. -/
theorem C115_deleted_violated (c : Cls) (n : Nat) (s : Obj) (k : Str) (v : Val) (hp : k ∈ c.props) (hr : k ∉ c.readOnly)
    (hneg : c.negated.contains k = false) (hd : (delItem c k s).1 = .ok ()) (ht : translated c k = none) :
    setItem c n k v (delItem c k s).2 = (.error .keyError, (delItem c k s).2) := by
  have h1 : (delItem c k s).2.data.get? k = none := by
    simp only [delItem, ht, andThen, delData, delInputs, delValidated] at hd ⊢
    by_cases h1 : s.data.contains k = true
    · by_cases h2 : s.inputs.contains k = true
      · by_cases h3 : s.validated.contains k = true
        · simp [h1, h2, h3, AList.get?_erase]
        · simp [h1, h2, h3] at hd
      · simp [h1, h2] at hd
    · simp [h1] at hd
  have hraw : rawName c k = some k := by simp [rawName, hp]
  simp [setItem, hraw, hp, op, hneg, descSet, hr, setData, h1]

example : ∀ z, (setItem (demo z) 100 "a".toList (.int 5) (delItem (demo z) "a".toList (create (demo z) 100 demoData).2).2).1
    = .error .keyError := fun z => by
  rw [C115_deleted_violated (demo z) 100 _ "a".toList (.int 5) (by cases z <;> decide +kernel) (by cases z <;> decide +kernel)
    (by cases z <;> decide +kernel) (by cases z <;> decide +kernel) (by cases z <;> decide +kernel)]

/-- What is not there cannot be read or deleted, a KeyError: a property without validated value is not read, and the object
stays as it is; deleting by attribute raises before anything is removed when the property is not there, and after the value
is removed when it has no validated value. -/
theorem C115_missing_violated (c : Cls) (rd : Str → Obj → Out Val) (k : Str) (s : Obj) :
    (s.validated.get? k = none → descGet c rd k s = (.error .keyError, s)) ∧
    (s.validated.get? k = some .none → s.data.get? k = none → descGet c rd k s = (.error .keyError, s)) ∧
    (k ∉ c.required → s.data.get? k = none → descDel c k s = (.error .keyError, s)) ∧
    (k ∉ c.required → (s.data.get? k).isSome → s.validated.get? k = none →
      descDel c k s = (.error .keyError, { s with data := s.data.erase k })) := by
  refine ⟨fun h => ?_, fun h h' => ?_, fun hr h => ?_, fun hr h h' => ?_⟩
  · simp [descGet, isOutdated, h]
  · simp [descGet, isOutdated, h, h']
  · simp [descDel, hr, andThen, delData, AList.contains, h]
  · simp [descDel, hr, andThen, delData, delValidated, AList.contains, h, h']

example : descGet (demo false) (fun _ s => (.ok .none, s)) "a".toList { data := [], validated := [], inputs := [] } =
    (.error .keyError, { data := [], validated := [], inputs := [] }) := (C115_missing_violated _ _ _ _).1 rfl

/-! ### C116: names -/

/-- Looking names up one after another with the cache of a class. -/
def lookups (c : Cls) (cache : AList Str Str) (names : List Str) : AList Str Str :=
  names.foldl (fun cache x => (rawNameCached c cache x).2) cache

/-- With a cache that only this class has filled, names are resolved as without it. -/
theorem C116_own_cache_partial (c : Cls) (names : List Str) (x : Str) :
    (rawNameCached c (lookups c [] names) x).1 = rawName c x := by
  have inv : ∀ (names : List Str) (cache : AList Str Str), (∀ y r, cache.get? y = some r → rawName c y = some r) →
      ∀ y r, (lookups c cache names).get? y = some r → rawName c y = some r := by
    intro names
    induction names with
    | nil => intro cache h; exact h
    | cons z names ih =>
      intro cache h
      refine ih _ ?_
      intro y r hy
      simp only [rawNameCached] at hy
      cases hc : cache.get? z with
      | some r' => rw [hc] at hy; exact h y r hy
      | none =>
        rw [hc] at hy
        cases hz : rawName c z with
        | none => rw [hz] at hy; exact h y r hy
        | some r' =>
          rw [hz] at hy
          simp only [AList.get?_set] at hy
          split at hy
          · rename_i e; cases hy; rw [← e]; exact hz
          · exact h y r hy
  have h := inv names [] (fun y r h => by cases h)
  simp only [rawNameCached]
  cases hc : (lookups c [] names).get? x with
  | some r => exact (h x r hc).symm
  | none => cases hz : rawName c x <;> rfl

example : (rawNameCached (aliasCls true) (lookups (aliasCls true) [] ["al".toList, "q".toList]) "al".toList).1
    = some "a".toList := by
  rw [C116_own_cache_partial]; decide +kernel

/-- But a class whose base class has been used looks names up in the dictionary of its base class: here the base class,
without aliases, has been asked for `al`; the alias of the derived class is then not found. -/
theorem C116_shared_cache_violated :
    rawName (aliasCls true) "al".toList = some "a".toList ∧
    (rawNameCached (aliasCls true) (lookups (demo true) [] ["al".toList]) "al".toList).1 = some "al".toList := by
  decide +kernel

/-! ### C117: iteration -/

/-- Iteration goes over `_dataValidated` (object_protocol.py 256-257). Declaring that `id` depends on `a` when `id` is not
a property makes iteration yield `id` once `a` has been assigned, and reading `obj['id']` then raises KeyError. -/
theorem C117_phantom_violated :
    let c := { demo false with deps := [("id".toList, ["a".toList])], getter := fun _ => none }
    let s := (create c 100 demoData).2
    let s' := step c 100 s (.set "a".toList (.int 2))
    s.validated.keys = ["a".toList, "t".toList, "s".toList] ∧
    s'.validated.keys = ["a".toList, "t".toList, "s".toList, "id".toList] ∧
    (getItem c 100 "id".toList s').1 = .error .keyError := by
  decide +kernel

/-- When what is declared to depend on something is in the data the instance is created from, iteration yields the names
of its data, after any history of reads and assignments. -/
theorem C117_keys_partial (c : Cls) (n : Nat) (data : AList Str Val)
    (hd : ∀ p ∈ c.deps, data.contains p.1 = true) (ops : List Op)
    (ho : ∀ o ∈ ops, (∃ k, o = .get k) ∨ ∃ k v, o = .set k v) (k : Str) :
    k ∈ (run c n (create c n data).2 ops).validated.keys ↔ k ∈ (run c n (create c n data).2 ops).data.keys := by
  have h0 := create_keys c n data hd
  have h := run_keys c n ops ho _ h0
  rw [← AList.contains_iff, ← AList.contains_iff, h.1 k]

example : (run (demo true) 100 (create (demo true) 100 demoData).2 demoOps).validated.keys
    = ["a".toList, "t".toList, "s".toList, "x".toList] := by decide +kernel
example : ∀ p ∈ (demo true).deps, demoData.contains p.1 = true := by decide +kernel

end Verif.Obj
