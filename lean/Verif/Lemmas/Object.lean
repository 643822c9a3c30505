import Verif.Spec.Object
/-
Lemmas on object instances: an invariant relating the caches of an instance to what has been assigned.
-/
namespace Verif.Obj
open Query (pyEq)

/-- What the value of a property of the set is read from. -/
def needOf (c : Cls) (raw : Str → Option Val) (k : Str) : List Str :=
  depsOf c k ++ (if c.getter k = none ∧ c.prim k = true then (match raw k with | some r => c.reads r | none => []) else [])

/-- The record of inputs made of given values. -/
def record (val : Str → Val) (xs : List Str) (m : AList Str Val) : AList Str Val :=
  xs.foldl (fun m x => m.set x (val x)) m

/-- `val` gives the values of the properties of the set. -/
structure Vals (c : Cls) (rank : Str → Nat) (good : Str → Prop) (raw : Str → Option Val) (val : Str → Val) : Prop where
  comp : ∀ k g, good k → c.getter k = some g →
    ∃ r, g.fn (g.args.map val) = .ok r ∧ val k ≠ .none ∧ ∀ e, c.conv k r e = .ok (val k)
  plain : ∀ k, good k → c.getter k = none → ∃ r, raw k = some r ∧ Fits c rank good k r ∧
    ∀ e, (c.prim k = true → ∀ x ∈ c.reads r, e x = some (val x)) → c.conv k r e = .ok (val k)
  canon : ∀ k, good k → Canon c k (val k)

/-- The data of a property of the set. -/
def Holds (c : Cls) (raw : Str → Option Val) (k : Str) (d : Val) : Prop :=
  (c.getter k ≠ none → c.prim k = true → c.reads d = []) ∧
  (c.getter k = none → ∃ r, raw k = some r ∧
    (d = r ∨ ((c.prim k = true → c.tpl r = false) ∧ ∃ e, c.conv k r e = .ok d)))

/-- A cached value is right for the recorded inputs. -/
def Recorded (c : Cls) (raw : Str → Option Val) (k : Str) (v : Val) (ins : AList Str Val) : Prop :=
  (∀ x ∈ needOf c raw k, ∃ a, ins.get? x = some a ∧ Canon c x a) ∧
  (∀ g, c.getter k = some g → ∃ (env : Str → Val) (r : Val), (∀ x ∈ g.args, ins.get? x = some (env x)) ∧
    g.fn (g.args.map env) = .ok r ∧ ∀ e, c.conv k r e = .ok v) ∧
  (c.getter k = none → ∀ r, raw k = some r → ∀ e, (c.prim k = true → ∀ x ∈ c.reads r, e x = ins.get? x) →
    c.conv k r e = .ok v)

structure Inv (c : Cls) (rank : Str → Nat) (good : Str → Prop) (raw : Str → Option Val) (s : Obj) : Prop where
  data : ∀ k, good k → ∃ d, s.data.get? k = some d ∧ Holds c raw k d
  cache : ∀ k, good k → ∃ v, s.validated.get? k = some v ∧
    (v ≠ .none → ∃ ins, s.inputs.get? k = some ins ∧ Recorded c raw k v ins)
  ranked : ∀ k d, s.data.get? k = some d → Ranked c rank k d

/-- A property that would be read from the cache, with everything it is computed from. -/
inductive Settled (c : Cls) (raw : Str → Option Val) (val : Str → Val) (s : Obj) : Str → Prop where
  | mk (k : Str) : (∀ x ∈ needOf c raw k, Settled c raw val s x) → s.validated.get? k = some (val k) →
      sameInputs ((s.inputs.get? k).getD []) (record val (needOf c raw k) []) = true →
      (val k = .none → s.data.get? k = some .none) → Settled c raw val s k

/-- The entries of a key are the same. -/
def Agree (s s' : Obj) (k : Str) : Prop :=
  s'.data.get? k = s.data.get? k ∧ s'.validated.get? k = s.validated.get? k ∧ s'.inputs.get? k = s.inputs.get? k

/-- The entries are the same, or the value of a property with dependencies has been dropped. -/
def Upper (c : Cls) (s s' : Obj) (k : Str) : Prop :=
  s'.data.get? k = s.data.get? k ∧
  ((s'.validated.get? k = s.validated.get? k ∧ s'.inputs.get? k = s.inputs.get? k) ∨
   (depsOf c k ≠ [] ∧ s'.validated.get? k = some .none ∧ s'.inputs.get? k = some []))

theorem Agree.refl (s : Obj) (k : Str) : Agree s s k := ⟨rfl, rfl, rfl⟩
theorem Agree.trans {s s' s'' : Obj} {k : Str} (h : Agree s s' k) (h' : Agree s' s'' k) : Agree s s'' k :=
  ⟨h'.1.trans h.1, h'.2.1.trans h.2.1, h'.2.2.trans h.2.2⟩
theorem Agree.upper {c : Cls} {s s' : Obj} {k : Str} (h : Agree s s' k) : Upper c s s' k := ⟨h.1, .inl h.2⟩

theorem Upper.trans {c : Cls} {s s' s'' : Obj} {k : Str} (h : Upper c s s' k) (h' : Upper c s' s'' k) :
    Upper c s s'' k := by
  refine ⟨h'.1.trans h.1, ?_⟩
  rcases h'.2 with h2 | h2
  · rcases h.2 with h1 | h1
    · exact .inl ⟨h2.1.trans h1.1, h2.2.trans h1.2⟩
    · exact .inr ⟨h1.1, h2.1.trans h1.2.1, h2.2.trans h1.2.2⟩
  · exact .inr h2

theorem Settled.agree {c : Cls} {raw : Str → Option Val} {val : Str → Val} {s s' : Obj}
    (h : ∀ k, Settled c raw val s k → Agree s s' k) : ∀ k, Settled c raw val s k → Settled c raw val s' k := by
  intro k hk
  have hk' := hk
  induction hk with
  | mk k hn hv hi hd ih =>
    have ha := h k hk'
    refine .mk k (fun x hx => ih x hx (hn x hx)) (ha.2.1.trans hv) ?_ (fun e => ha.1.trans (hd e))
    rw [ha.2.2]; exact hi

/-! ### Invalidation -/

/-- `z` depends on `k`, directly or not. -/
inductive Reach (c : Cls) (k : Str) : Str → Prop where
  | refl : Reach c k k
  | step {y z : Str} : Reach c k y → y ∈ depsOf c z → Reach c k z

theorem Reach.head {c : Cls} {k y z : Str} (h : k ∈ depsOf c y) (h' : Reach c y z) : Reach c k z := by
  induction h' with
  | refl => exact .step .refl h
  | step _ hy ih => exact .step ih hy

theorem reach_good {c : Cls} {good : Str → Prop} (g : Good c good) {k z : Str} (h : Reach c k z) :
    good z → good k := by
  induction h with
  | refl => exact id
  | step _ hy ih => exact fun hz => ih (g.deps _ _ hz hy)

theorem reach_settled {c : Cls} {raw : Str → Option Val} {val : Str → Val} {s : Obj} {k z : Str} (h : Reach c k z) :
    Settled c raw val s z → Settled c raw val s k := by
  induction h with
  | refl => exact id
  | step _ hy ih =>
    intro hz
    cases hz with
    | mk _ hn _ _ _ => exact ih (hn _ (List.mem_append_left _ hy))

theorem mem_dependents {c : Cls} (wf : c.deps.WF) {k y : Str} (h : y ∈ dependents c k) : k ∈ depsOf c y := by
  simp only [dependents, List.mem_map, List.mem_filter] at h
  obtain ⟨⟨y', xs⟩, ⟨hm, hk⟩, rfl⟩ := h
  have := AList.get?_of_mem wf hm
  simp only [depsOf, this, Option.getD_some]
  simpa using hk

/-- What invalidating `k` may have done. -/
def TouchRel (c : Cls) (k : Str) (s s' : Obj) : Prop :=
  s'.data = s.data ∧ ∀ y, (s'.validated.get? y = s.validated.get? y ∧ s'.inputs.get? y = s.inputs.get? y) ∨
    (Reach c k y ∧ s'.validated.get? y = some .none ∧ s'.inputs.get? y = some [])

theorem TouchRel.trans {c : Cls} {k : Str} {s s' s'' : Obj} (h : TouchRel c k s s') (h' : TouchRel c k s' s'') :
    TouchRel c k s s'' := by
  refine ⟨h'.1.trans h.1, fun y => ?_⟩
  rcases h'.2 y with h2 | h2
  · rcases h.2 y with h1 | h1
    · exact .inl ⟨h2.1.trans h1.1, h2.2.trans h1.2⟩
    · exact .inr ⟨h1.1, h2.1.trans h1.2.1, h2.2.trans h1.2.2⟩
  · exact .inr h2

theorem TouchRel.lift {c : Cls} {k y : Str} {s s' : Obj} (hk : k ∈ depsOf c y) (h : TouchRel c y s s') :
    TouchRel c k s s' :=
  ⟨h.1, fun z => (h.2 z).imp id (fun h => ⟨.head hk h.1, h.2⟩)⟩

theorem touchRel_reset (c : Cls) (k : Str) (s : Obj) : TouchRel c k s (reset k s) := by
  refine ⟨rfl, fun y => ?_⟩
  by_cases h : y = k
  · subst h; exact .inr ⟨.refl, AList.get?_set_self _ _ _, AList.get?_set_self _ _ _⟩
  · have h' : k ≠ y := fun e => h e.symm
    exact .inl ⟨AList.get?_set_ne _ _ h', AList.get?_set_ne _ _ h'⟩

theorem forEach_touchRel {c : Cls} {k : Str} (f : Str → Obj → Out Unit)
    (hf : ∀ y s, TouchRel c y s (f y s).2) (ys : List Str) (hys : ∀ y ∈ ys, k ∈ depsOf c y) (s : Obj) :
    TouchRel c k s (forEach f ys s).2 := by
  induction ys generalizing s with
  | nil => exact ⟨rfl, fun _ => .inl ⟨rfl, rfl⟩⟩
  | cons y ys ih =>
    have h1 := (hf y s).lift (hys y (by simp))
    simp only [forEach]
    cases he : f y s with
    | mk r s1 =>
      rw [he] at h1
      cases r with
      | ok u => cases u; exact h1.trans (ih (fun y hy => hys y (by simp [hy])) s1)
      | error e => exact h1

theorem touch_rel {c : Cls} (wf : c.deps.WF) (n : Nat) (k : Str) (s : Obj) : TouchRel c k s (touch c n k s).2 := by
  induction n generalizing k s with
  | zero => exact ⟨rfl, fun _ => .inl ⟨rfl, rfl⟩⟩
  | succ n ih =>
    simp only [touch]
    have hd : ∀ y ∈ dependents c k, k ∈ depsOf c y := fun y hy => mem_dependents wf hy
    have h1 := (touchRel_reset c k s).trans (forEach_touchRel (touch c n) ih _ hd (reset k s))
    cases he : forEach (touch c n) (dependents c k) (reset k s) with
    | mk r s1 =>
      rw [he] at h1
      cases r with
      | ok u => cases u; exact h1.trans (forEach_touchRel (touch c n) ih _ hd s1)
      | error e => exact h1

theorem forEach_ok (f : Str → Obj → Out Unit) (ys : List Str) (hf : ∀ y ∈ ys, ∀ s, (f y s).1 = .ok ()) (s : Obj) :
    (forEach f ys s).1 = .ok () := by
  induction ys generalizing s with
  | nil => rfl
  | cons y ys ih =>
    have h1 := hf y (by simp) s
    simp only [forEach]
    cases he : f y s with
    | mk r s1 =>
      rw [he] at h1
      cases r with
      | ok u => exact ih (fun y hy => hf y (by simp [hy])) s1
      | error e => cases h1

theorem touch_ok {c : Cls} {rank : Str → Nat} (ac : Acyclic c rank) (n : Nat) (k : Str) (s : Obj)
    (h : c.limit ≤ n + rank k) : (touch c n k s).1 = .ok () := by
  induction n generalizing k s with
  | zero => have := ac.bound k; omega
  | succ n ih =>
    have hd : ∀ y ∈ dependents c k, ∀ s, (touch c n y s).1 = .ok () := fun y hy s => by
      have := ac.deps _ _ (mem_dependents ac.wf hy)
      exact ih y s (by omega)
    simp only [touch]
    have h1 := forEach_ok _ _ hd (reset k s)
    cases he : forEach (touch c n) (dependents c k) (reset k s) with
    | mk r s1 =>
      rw [he] at h1
      cases r with
      | ok u => exact forEach_ok _ _ hd s1
      | error e => cases h1

/-- The value of the property itself is dropped. -/
theorem touch_self {c : Cls} {rank : Str → Nat} (ac : Acyclic c rank) (k : Str) (s : Obj) :
    (touch c c.limit k s).2.validated.get? k = some .none := by
  have hb := ac.bound k
  cases hn : c.limit with
  | zero => omega
  | succ n =>
    simp only [touch]
    have hd : ∀ y ∈ dependents c k, k ∈ depsOf c y := fun y hy => mem_dependents ac.wf hy
    have keep : ∀ s', s'.validated.get? k = some Val.none →
        (forEach (touch c n) (dependents c k) s').2.validated.get? k = some .none := by
      intro s' h
      have := (forEach_touchRel (touch c n) (touch_rel ac.wf n) _ hd s').2 k
      rcases this with h1 | h1
      · exact h1.1.trans h
      · exact h1.2.1
    have h1 := keep (reset k s) (AList.get?_set_self _ _ _)
    cases he : forEach (touch c n) (dependents c k) (reset k s) with
    | mk r s1 =>
      rw [he] at h1
      cases r with
      | ok u => exact keep s1 h1
      | error e => exact h1

/-! ### Steps -/

section
variable (c : Cls) (rank : Str → Nat) (good : Str → Prop) (raw : Str → Option Val) (val : Str → Val)

/-- What reading may do to an instance. -/
structure Step (b : Nat) (s s' : Obj) : Prop where
  inv : Inv c rank good raw s'
  kept : ∀ y, good y → Settled c raw val s y → Settled c raw val s' y
  upper : ∀ y, b ≤ rank y → Upper c s s' y

variable {c rank good raw val}

theorem Step.refl {b : Nat} {s : Obj} (h : Inv c rank good raw s) : Step c rank good raw val b s s :=
  ⟨h, fun _ _ h => h, fun y _ => (Agree.refl s y).upper⟩

theorem Step.trans {b : Nat} {s s' s'' : Obj} (h : Step c rank good raw val b s s')
    (h' : Step c rank good raw val b s' s'') : Step c rank good raw val b s s'' :=
  ⟨h'.inv, fun y hy hs => h'.kept y hy (h.kept y hy hs), fun y hb => (h.upper y hb).trans (h'.upper y hb)⟩

theorem Step.mono {b b' : Nat} {s s' : Obj} (h : Step c rank good raw val b s s') (hb : b ≤ b') :
    Step c rank good raw val b' s s' :=
  ⟨h.inv, h.kept, fun y hy => h.upper y (by omega)⟩

/-- What a property of the set is read from belongs to the set. -/
theorem need_good (g : Good c good) (vs : Vals c rank good raw val) {k x : Str} (hk : good k)
    (hx : x ∈ needOf c raw k) : good x := by
  simp only [needOf, List.mem_append] at hx
  rcases hx with hx | hx
  · exact g.deps k x hk hx
  · split at hx
    · rename_i h
      obtain ⟨r, hr, hf, _⟩ := vs.plain k hk h.1
      rw [hr] at hx
      exact (hf.reads h.2 x hx).1
    · cases hx

/-- Entries of keys outside the set do not matter. -/
theorem inv_of_agree {s s' : Obj} (h : Inv c rank good raw s) (ha : ∀ y, good y → Agree s s' y)
    (hr : ∀ k d, s'.data.get? k = some d → Ranked c rank k d) : Inv c rank good raw s' := by
  refine ⟨fun k hk => ?_, fun k hk => ?_, hr⟩
  · obtain ⟨d, hd, hh⟩ := h.data k hk
    exact ⟨d, (ha k hk).1.trans hd, hh⟩
  · obtain ⟨v, hv, hh⟩ := h.cache k hk
    refine ⟨v, (ha k hk).2.1.trans hv, fun hne => ?_⟩
    obtain ⟨ins, hi, hrec⟩ := hh hne
    exact ⟨ins, (ha k hk).2.2.trans hi, hrec⟩

theorem settled_agree_good (g : Good c good) (vs : Vals c rank good raw val) {s s' : Obj}
    (h : ∀ y, good y → Settled c raw val s y → Agree s s' y) :
    ∀ y, good y → Settled c raw val s y → Settled c raw val s' y := by
  intro k hk hs
  induction hs with
  | mk k hn hv hi hd ih =>
    have ha := h k hk (.mk k hn hv hi hd)
    refine .mk k (fun x hx => ih x hx (need_good g vs hk hx)) (ha.2.1.trans hv) ?_ (fun e => ha.1.trans (hd e))
    rw [ha.2.2]; exact hi

/-- Changes to the entries of a key outside the set, of rank at most `b`. -/
theorem step_outside (g : Good c good) (vs : Vals c rank good raw val) {b : Nat} {k : Str} {s s' : Obj}
    (h : Inv c rank good raw s) (hk : ¬ good k) (hb : rank k < b) (ha : ∀ y, y ≠ k → Agree s s' y)
    (hr : ∀ d, s'.data.get? k = some d → Ranked c rank k d) : Step c rank good raw val b s s' := by
  have hne : ∀ y, good y → y ≠ k := fun y hy e => hk (e ▸ hy)
  refine ⟨inv_of_agree h (fun y hy => ha y (hne y hy)) ?_, ?_, ?_⟩
  · intro x d hd
    by_cases hx : x = k
    · subst hx; exact hr d hd
    · rw [(ha x hx).1] at hd; exact h.ranked x d hd
  · exact settled_agree_good g vs (fun y hy _ => ha y (hne y hy))
  · intro y hy
    exact (ha y (fun e => by subst e; omega)).upper

/-- Invalidating a property that is not settled. -/
theorem step_touch (g : Good c good) (vs : Vals c rank good raw val) {b : Nat} {k : Str} {s s' : Obj}
    (h : Inv c rank good raw s) (hb : rank k < b) (hk : ¬ (good k ∧ Settled c raw val s k)) (ht : TouchRel c k s s') :
    Step c rank good raw val b s s' := by
  refine ⟨⟨fun y hy => ?_, fun y hy => ?_, fun y d hd => ?_⟩, ?_, ?_⟩
  · rw [ht.1]; exact h.data y hy
  · rcases ht.2 y with h1 | h1
    · rw [h1.1, h1.2]; exact h.cache y hy
    · exact ⟨.none, h1.2.1, fun e => absurd rfl e⟩
  · rw [ht.1] at hd; exact h.ranked y d hd
  · refine settled_agree_good g vs (fun y hy hs => ?_)
    rcases ht.2 y with h1 | h1
    · exact ⟨by rw [ht.1], h1⟩
    · exact absurd ⟨reach_good g h1.1 hy, reach_settled h1.1 hs⟩ hk
  · intro y hy
    refine ⟨by rw [ht.1], ?_⟩
    rcases ht.2 y with h1 | h1
    · exact .inl h1
    · refine .inr ⟨?_, h1.2⟩
      cases h1.1 with
      | refl => omega
      | step _ hm => exact List.ne_nil_of_mem hm

/-! ### Reading inputs -/

/-- Reading the names of a list behaves. -/
def ReadsWell (c : Cls) (rank : Str → Nat) (good : Str → Prop) (raw : Str → Option Val) (val : Str → Val)
    (rd : Str → Obj → Out Val) (m : Nat) : Prop :=
  ∀ x, rank x < m → ∀ s, Inv c rank good raw s → Step c rank good raw val (rank x + 1) s (rd x s).2 ∧
    (good x → (rd x s).1 = .ok (val x) ∧ Settled c raw val (rd x s).2 x)

variable {rd : Str → Obj → Out Val} {m : Nat}

theorem collect_step (hrd : ReadsWell c rank good raw val rd m) {b : Nat} (hb : b ≤ m) (xs : List Str)
    (hxs : ∀ x ∈ xs, rank x < b) (ins : AList Str Val) (s : Obj) (h : Inv c rank good raw s) :
    Step c rank good raw val b s (collect rd xs ins s).2 := by
  induction xs generalizing ins s with
  | nil => exact .refl h
  | cons x xs ih =>
    have hx := hxs x (by simp)
    have h1 := ((hrd x (by omega) s h).1).mono (b' := b) (by omega)
    simp only [collect]
    cases he : rd x s with
    | mk r s1 =>
      rw [he] at h1
      cases r with
      | ok v => exact h1.trans (ih (fun x hx => hxs x (by simp [hx])) _ s1 h1.inv)
      | error e => exact h1.trans (ih (fun x hx => hxs x (by simp [hx])) _ s1 h1.inv)

theorem collect_good (hrd : ReadsWell c rank good raw val rd m) {b : Nat} (hb : b ≤ m) (xs : List Str)
    (hxs : ∀ x ∈ xs, rank x < b ∧ good x) (ins : AList Str Val) (s : Obj) (h : Inv c rank good raw s) :
    (collect rd xs ins s).1 = record val xs ins ∧ ∀ x ∈ xs, Settled c raw val (collect rd xs ins s).2 x := by
  induction xs generalizing ins s with
  | nil => exact ⟨rfl, fun x hx => by cases hx⟩
  | cons x xs ih =>
    have hx := hxs x (by simp)
    have h1 := hrd x (by omega) s h
    have h2 := h1.2 hx.2
    have h1 := h1.1
    simp only [collect]
    cases he : rd x s with
    | mk r s1 =>
      rw [he] at h1 h2
      obtain ⟨hv, hs⟩ := h2
      have hv' : r = .ok (val x) := hv
      subst hv'
      have hxs' : ∀ y ∈ xs, rank y < b ∧ good y := fun y hy => hxs y (by simp [hy])
      have h3 := ih hxs' (ins.set x (val x)) s1 h1.inv
      have h4 := collect_step hrd hb xs (fun y hy => (hxs' y hy).1) (ins.set x (val x)) s1 h1.inv
      refine ⟨h3.1, fun y hy => ?_⟩
      rcases List.mem_cons.mp hy with e | hy
      · subst e; exact h4.kept y hx.2 hs
      · exact h3.2 y hy

theorem inputsOf_step (ac : Acyclic c rank) (hrd : ReadsWell c rank good raw val rd m) {k : Str} (hk : rank k ≤ m)
    (s : Obj) (h : Inv c rank good raw s) : Step c rank good raw val (rank k) s (inputsOf c rd k s).2 := by
  have h1 := collect_step hrd hk (depsOf c k) (fun x hx => ac.deps k x hx) [] s h
  simp only [inputsOf]
  cases he : collect rd (depsOf c k) [] s with
  | mk ins s1 =>
    rw [he] at h1
    dsimp only
    split
    · rename_i hp
      cases hd : s1.data.get? k with
      | none => exact h1
      | some d =>
        dsimp only
        exact h1.trans (collect_step hrd hk (c.reads d) (h1.inv.ranked k d hd hp) ins s1 h1.inv)
    · exact h1

theorem record_append (xs ys : List Str) (ins : AList Str Val) :
    record val (xs ++ ys) ins = record val ys (record val xs ins) := by
  simp [record, List.foldl_append]

/-- The names the data of a property of the set mentions. -/
theorem reads_data (ac : Acyclic c rank) {k : Str} {d : Val}
    (hh : Holds c raw k d) (hp : c.prim k = true) : depsOf c k ++ c.reads d = needOf c raw k := by
  cases hg : c.getter k with
  | some gt =>
    have := hh.1 (by simp [hg]) hp
    simp [needOf, hg, this]
  | none =>
    obtain ⟨r, hr, hd⟩ := hh.2 hg
    have : c.reads d = c.reads r := by
      rcases hd with rfl | ⟨ht, e, he⟩
      · rfl
      · rw [ac.converted k r e d hp (ht hp) he, ac.literal r (ht hp)]
    simp [needOf, hg, hp, hr, this]

theorem inputsOf_good (ac : Acyclic c rank) (g : Good c good) (vs : Vals c rank good raw val)
    (hrd : ReadsWell c rank good raw val rd m) {k : Str} (hk : rank k ≤ m) (hgood : good k)
    (s : Obj) (h : Inv c rank good raw s) :
    (inputsOf c rd k s).1 = .ok (record val (needOf c raw k) []) ∧
      ∀ x ∈ needOf c raw k, Settled c raw val (inputsOf c rd k s).2 x := by
  have hdeps : ∀ x ∈ depsOf c k, rank x < rank k ∧ good x := fun x hx => ⟨ac.deps k x hx, g.deps k x hgood hx⟩
  have h1 := collect_step hrd hk (depsOf c k) (fun x hx => ac.deps k x hx) [] s h
  have h2 := collect_good hrd hk (depsOf c k) hdeps [] s h
  simp only [inputsOf]
  cases he : collect rd (depsOf c k) [] s with
  | mk ins s1 =>
    rw [he] at h1 h2
    obtain ⟨h2, h2s⟩ := h2
    have h2' : ins = record val (depsOf c k) [] := h2
    subst h2'
    dsimp only
    cases hp : c.prim k with
    | true =>
      obtain ⟨d, hd, hh⟩ := h1.inv.data k hgood
      have hneed := reads_data ac hh hp
      have hreads : ∀ x ∈ c.reads d, rank x < rank k ∧ good x := fun x hx =>
        ⟨h1.inv.ranked k d hd hp x hx, need_good g vs hgood (hneed ▸ List.mem_append_right _ hx)⟩
      have h3 := collect_step hrd hk (c.reads d) (fun x hx => (hreads x hx).1)
        (record val (depsOf c k) []) s1 h1.inv
      have h4 := collect_good hrd hk (c.reads d) hreads (record val (depsOf c k) []) s1 h1.inv
      simp only [hd, if_true]
      refine ⟨?_, ?_⟩
      · rw [h4.1, ← record_append, hneed]
      · intro x hx
        rw [← hneed] at hx
        rcases List.mem_append.mp hx with hx | hx
        · exact h3.kept x (g.deps k x hgood hx) (h2s x hx)
        · exact h4.2 x hx
    | false =>
      have hneed : needOf c raw k = depsOf c k := by simp [needOf, hp]
      simp only [Bool.false_eq_true, if_false]
      rw [hneed]
      exact ⟨rfl, h2s⟩

theorem readArgs_step (hrd : ReadsWell c rank good raw val rd m) {b : Nat} (hb : b ≤ m) (xs : List Str)
    (hxs : ∀ x ∈ xs, rank x < b) (s : Obj) (h : Inv c rank good raw s) :
    Step c rank good raw val b s (readArgs rd xs s).2 := by
  induction xs generalizing s with
  | nil => exact .refl h
  | cons x xs ih =>
    have hx := hxs x (by simp)
    have h1 := ((hrd x (by omega) s h).1).mono (b' := b) (by omega)
    simp only [readArgs]
    cases he : rd x s with
    | mk r s1 =>
      rw [he] at h1
      cases r with
      | error e => exact h1
      | ok v =>
        have h2 := h1.trans (ih (fun x hx => hxs x (by simp [hx])) s1 h1.inv)
        dsimp only
        cases he2 : readArgs rd xs s1 with
        | mk r2 s2 =>
          rw [he2] at h2
          cases r2 <;> exact h2

theorem readArgs_good (hrd : ReadsWell c rank good raw val rd m) {b : Nat} (hb : b ≤ m) (xs : List Str)
    (hxs : ∀ x ∈ xs, rank x < b ∧ good x) (s : Obj) (h : Inv c rank good raw s) :
    (readArgs rd xs s).1 = .ok (xs.map val) := by
  induction xs generalizing s with
  | nil => rfl
  | cons x xs ih =>
    have hx := hxs x (by simp)
    have h1 := hrd x (by omega) s h
    have h2 := (h1.2 hx.2).1
    simp only [readArgs]
    cases he : rd x s with
    | mk r s1 =>
      rw [he] at h1 h2
      have h2' : r = .ok (val x) := h2
      subst h2'
      have h3 := ih (fun x hx => hxs x (by simp [hx])) s1 h1.1.inv
      dsimp only
      cases he2 : readArgs rd xs s1 with
      | mk r2 s2 =>
        rw [he2] at h3
        have h3' : r2 = .ok (xs.map val) := h3
        subst h3'
        rfl

/-! ### Outside the set -/

theorem get?_set' {υ : Type} (d : AList Str υ) {k y : Str} (v : υ) (h : y ≠ k) : (d.set k v).get? y = d.get? y :=
  AList.get?_set_ne _ _ (fun e => h e.symm)

theorem ranked_result (ac : Acyclic c rank) {k : Str} {gt : Getter} {vs : List Val} {r : Val}
    (hg : c.getter k = some gt) (hr : gt.fn vs = .ok r) : Ranked c rank k r := by
  intro _ x hx
  rw [ac.result k gt vs r hg hr] at hx
  cases hx

theorem setData_out (ac : Acyclic c rank) (g : Good c good) (vs : Vals c rank good raw val) {k : Str} (hk : ¬ good k)
    (v : Val) (hv : Ranked c rank k v) (s : Obj) (h : Inv c rank good raw s) :
    Step c rank good raw val (rank k + 1) s (setData c k v s).2 := by
  have put : ∀ s', Inv c rank good raw s' → Step c rank good raw val (rank k + 1) s' { s' with data := s'.data.set k v } := by
    intro s' h'
    refine step_outside g vs h' hk (Nat.lt_succ_self _) (fun y hy => ⟨get?_set' _ _ hy, rfl, rfl⟩) (fun d hd => ?_)
    simp only [AList.get?_set_self, Option.some.injEq] at hd
    exact hd ▸ hv
  simp only [setData]
  cases hd : s.data.get? k with
  | none => exact .refl h
  | some orig =>
    dsimp only
    split
    · exact put s h
    · have h1 := step_touch (b := rank k + 1) g vs h (Nat.lt_succ_self _) (fun e => hk e.1) (touch_rel ac.wf c.limit k s)
      cases he : touch c c.limit k s with
      | mk r s1 =>
        rw [he] at h1
        cases r with
        | error e => exact h1
        | ok u => exact h1.trans (put s1 h1.inv)

theorem store_out (ac : Acyclic c rank) (g : Good c good) (vs : Vals c rank good raw val) {k : Str} (hk : ¬ good k)
    (s : Obj) (h : Inv c rank good raw s) : Step c rank good raw val (rank k + 1) s (store c k s).2 := by
  simp only [store, evaluate]
  cases hd : s.data.get? k with
  | none => exact .refl h
  | some d =>
    dsimp only
    cases hc : c.conv k d (fun x => s.validated.get? x) with
    | error e => exact .refl h
    | ok w =>
      simp only [setValidated, hd]
      cases hp : c.prim k with
      | true =>
        refine step_outside g vs h hk (Nat.lt_succ_self _) (fun y hy => ⟨?_, get?_set' _ _ hy, rfl⟩) (fun d' hd' => ?_)
        · simp only [if_true]; split
          · rfl
          · exact get?_set' _ _ hy
        · simp only [if_true] at hd'
          cases ht : c.tpl d with
          | true => rw [ht] at hd'; exact h.ranked k d' hd'
          | false =>
            rw [ht] at hd'
            simp only [Bool.false_eq_true, if_false, AList.get?_set_self, Option.some.injEq] at hd'
            subst hd'
            intro _ x hx
            rw [ac.converted k d _ w hp ht hc] at hx
            cases hx
      | false =>
        refine step_outside g vs h hk (Nat.lt_succ_self _) (fun y hy => ⟨get?_set' _ _ hy, get?_set' _ _ hy, rfl⟩)
          (fun d' hd' hp' => ?_)
        rw [hp] at hp'; cases hp'

theorem setInputs_out (g : Good c good) (vs : Vals c rank good raw val) {k : Str} (hk : ¬ good k)
    (ins : AList Str Val) (s : Obj) (h : Inv c rank good raw s) :
    Step c rank good raw val (rank k + 1) s { s with inputs := s.inputs.set k ins } :=
  step_outside g vs h hk (Nat.lt_succ_self _) (fun _ hy => ⟨rfl, rfl, get?_set' _ _ hy⟩) (fun d hd => h.ranked k d hd)

theorem runGetter_out (ac : Acyclic c rank) (g : Good c good) (vs : Vals c rank good raw val)
    (hrd : ReadsWell c rank good raw val rd m) {k : Str} (hm : rank k ≤ m) (hk : ¬ good k)
    (s : Obj) (h : Inv c rank good raw s) : Step c rank good raw val (rank k + 1) s (runGetter c rd k s).2 := by
  simp only [runGetter]
  cases hg : c.getter k with
  | none => exact .refl h
  | some gt =>
    have h1 := (readArgs_step hrd hm gt.args (fun x hx => ac.args k gt x hg hx) s h).mono (Nat.le_succ _)
    dsimp only
    cases he : readArgs rd gt.args s with
    | mk r s1 =>
      rw [he] at h1
      cases r with
      | error e => exact h1
      | ok as =>
        dsimp only
        cases hf : gt.fn as with
        | error e => exact h1
        | ok v => exact h1.trans (setData_out ac g vs hk v (ranked_result ac hg hf) s1 h1.inv)

theorem refresh_out (ac : Acyclic c rank) (g : Good c good) (vs : Vals c rank good raw val)
    (hrd : ReadsWell c rank good raw val rd m) {k : Str} (hm : rank k ≤ m) (hk : ¬ good k)
    (s : Obj) (h : Inv c rank good raw s) : Step c rank good raw val (rank k + 1) s (refresh c rd k s).2 := by
  have h1 := (inputsOf_step ac hrd hm s h).mono (Nat.le_succ _)
  simp only [refresh]
  cases he : inputsOf c rd k s with
  | mk r s1 =>
    rw [he] at h1
    cases r with
    | error e => exact h1
    | ok ins =>
      have h2 := h1.trans (runGetter_out ac g vs hrd hm hk s1 h1.inv)
      dsimp only
      cases he2 : runGetter c rd k s1 with
      | mk r2 s2 =>
        rw [he2] at h2
        cases r2 with
        | error e => exact h2
        | ok u =>
          have h3 := h2.trans (store_out ac g vs hk s2 h2.inv)
          dsimp only
          cases he3 : store c k s2 with
          | mk r3 s3 =>
            rw [he3] at h3
            cases r3 with
            | error e => exact h3
            | ok u => exact h3.trans (setInputs_out g vs hk ins s3 h3.inv)

theorem reload_out (ac : Acyclic c rank) (g : Good c good) (vs : Vals c rank good raw val)
    (hrd : ReadsWell c rank good raw val rd m) {k : Str} (hm : rank k ≤ m) (hk : ¬ good k)
    (s : Obj) (h : Inv c rank good raw s) : Step c rank good raw val (rank k + 1) s (reload c rd k s).2 := by
  have h1 := (inputsOf_step ac hrd hm s h).mono (Nat.le_succ _)
  simp only [reload]
  cases he : inputsOf c rd k s with
  | mk r s1 =>
    rw [he] at h1
    cases r with
    | error e => exact h1
    | ok ins =>
      have h2 := h1.trans (setInputs_out g vs hk ins s1 h1.inv)
      exact h2.trans (store_out ac g vs hk _ h2.inv)

theorem isOutdated_step (ac : Acyclic c rank) (hrd : ReadsWell c rank good raw val rd m) {k : Str} (hm : rank k ≤ m)
    (s : Obj) (h : Inv c rank good raw s) : Step c rank good raw val (rank k + 1) s (isOutdated c rd k s).2 := by
  have hch : Step c rank good raw val (rank k + 1) s (inputsChanged c rd k s).2 := by
    have h1 := (inputsOf_step ac hrd hm s h).mono (Nat.le_succ _)
    simp only [inputsChanged]
    cases he : inputsOf c rd k s with
    | mk r s1 =>
      rw [he] at h1
      cases r <;> exact h1
  simp only [isOutdated]
  split
  · exact .refl h
  · split
    · exact .refl h
    · exact hch
    · exact .refl h
  · exact hch

theorem validatedOf_snd (k : Str) (s : Obj) : (validatedOf k s).2 = s := by
  simp only [validatedOf]; split <;> rfl

theorem through_snd (c : Cls) (k : Str) (r : Out Val) : (through c k r).2 = r.2 := by
  simp only [through]; split <;> rfl

theorem descGet_out (ac : Acyclic c rank) (g : Good c good) (vs : Vals c rank good raw val)
    (hrd : ReadsWell c rank good raw val rd m) {k : Str} (hm : rank k ≤ m) (hk : ¬ good k)
    (s : Obj) (h : Inv c rank good raw s) : Step c rank good raw val (rank k + 1) s (descGet c rd k s).2 := by
  have h1 := isOutdated_step ac hrd hm s h
  simp only [descGet]
  cases he : isOutdated c rd k s with
  | mk r s1 =>
    rw [he] at h1
    cases r with
    | error e => exact h1
    | ok o =>
      dsimp only
      split
      · have h2 := h1.trans (refresh_out ac g vs hrd hm hk s1 h1.inv)
        cases he2 : refresh c rd k s1 with
        | mk r2 s2 =>
          rw [he2] at h2
          cases r2 with
          | error e => exact h2
          | ok u => dsimp only; rw [validatedOf_snd]; exact h2
      · rw [validatedOf_snd]; exact h1

theorem plainGet_out (ac : Acyclic c rank) (g : Good c good) (vs : Vals c rank good raw val)
    (hrd : ReadsWell c rank good raw val rd m) {k : Str} (hm : rank k ≤ m) (hk : ¬ good k)
    (s : Obj) (h : Inv c rank good raw s) : Step c rank good raw val (rank k + 1) s (plainGet c rd k s).2 := by
  have h1 : Step c rank good raw val (rank k + 1) s
      (if c.lazy then (.ok true, s) else isOutdated c rd k s : Out Bool).2 := by
    split
    · exact .refl h
    · exact isOutdated_step ac hrd hm s h
  simp only [plainGet]
  cases he : (if c.lazy then (.ok true, s) else isOutdated c rd k s : Out Bool) with
  | mk r s1 =>
    rw [he] at h1
    cases r with
    | error e => exact h1
    | ok o =>
      dsimp only
      split
      · have h2 := h1.trans (reload_out ac g vs hrd hm hk s1 h1.inv)
        cases he2 : reload c rd k s1 with
        | mk r2 s2 =>
          rw [he2] at h2
          cases r2 with
          | error e => exact h2
          | ok u => dsimp only; rw [validatedOf_snd]; exact h2
      · rw [validatedOf_snd]; exact h1

/-! ### In the set -/

/-- A property that will be computed again. -/
def Dead (c : Cls) (raw : Str → Option Val) (val : Str → Val) (s : Obj) (k : Str) : Prop :=
  (s.validated.get? k = some .none ∧ (c.getter k ≠ none ∨ s.data.get? k ≠ some .none)) ∨
  sameInputs ((s.inputs.get? k).getD []) (record val (needOf c raw k) []) = false

theorem Dead.unsettled (vs : Vals c rank good raw val) {s : Obj} {k : Str} (hk : good k) (h : Dead c raw val s k) :
    ¬ Settled c raw val s k := by
  intro hs
  cases hs with
  | mk _ hn hv hi hd =>
    rcases h with ⟨h1, h2⟩ | h
    · rw [h1] at hv
      have hv' : val k = .none := (Option.some.inj hv).symm
      rcases h2 with h2 | h2
      · cases hg : c.getter k with
        | none => exact h2 hg
        | some gt =>
          obtain ⟨_, _, hne, _⟩ := vs.comp k gt hk hg
          exact hne hv'
      · exact h2 (hd hv')
    · rw [hi] at h; cases h

theorem Dead.upper (g : Good c good) {s s' : Obj} {k : Str} (hk : good k) (h : Dead c raw val s k)
    (hu : Upper c s s' k) : Dead c raw val s' k := by
  rcases hu.2 with h1 | h1
  · rcases h with ⟨h2, h3⟩ | h
    · exact .inl ⟨h1.1.trans h2, h3.imp id (fun h => by rw [hu.1]; exact h)⟩
    · exact .inr (by rw [h1.2]; exact h)
  · exact .inl ⟨h1.2.1, .inl (fun hg => h1.1 (g.noDeps k hk hg))⟩

theorem get?_record (xs : List Str) (ins : AList Str Val) (x : Str) :
    (record val xs ins).get? x = if x ∈ xs then some (val x) else ins.get? x := by
  induction xs generalizing ins with
  | nil => simp [record]
  | cons y ys ih =>
    have : record val (y :: ys) ins = record val ys (ins.set y (val y)) := rfl
    rw [this, ih]
    by_cases hx : x ∈ ys
    · simp [hx]
    · by_cases hy : x = y
      · subst hy; simp [hx, AList.get?_set_self]
      · simp [hx, hy, get?_set' _ _ hy]

theorem keys_record_nodup (xs : List Str) (ins : AList Str Val) (h : ins.WF) : (record val xs ins).WF := by
  induction xs generalizing ins with
  | nil => exact h
  | cons y ys ih => exact ih _ (AList.wf_set h _ _)

theorem sameInputs_get {a b : AList Str Val} (h : sameInputs a b = true) {x : Str} {v : Val}
    (hx : a.get? x = some v) : ∃ w, b.get? x = some w ∧ pyEq v w = true := by
  simp only [sameInputs, Bool.and_eq_true, List.all_eq_true] at h
  have := h.2 (x, v) (AList.mem_of_get? hx)
  dsimp only at this
  split at this
  · rename_i w hw; exact ⟨w, hw, this⟩
  · cases this

/-- A record of the present values is up to date. -/
theorem sameInputs_record (g : Good c good) (vs : Vals c rank good raw val) {xs : List Str} (hxs : ∀ x ∈ xs, good x) :
    sameInputs (record val xs []) (record val xs []) = true := by
  simp only [sameInputs, Bool.and_eq_true, List.all_eq_true, beq_self_eq_true, true_and]
  rintro ⟨x, v⟩ hm
  have hg := AList.get?_of_mem (keys_record_nodup xs [] AList.wf_nil) hm
  dsimp only
  rw [hg]
  dsimp only
  rw [get?_record] at hg
  split at hg
  · rename_i hx
    have := vs.canon x (hxs x hx)
    cases Option.some.inj hg
    exact (g.exact x _ _ (hxs x hx) this this).mpr rfl
  · cases hg

/-- A cached value whose recorded inputs are the present ones is the present value. -/
theorem recorded_val (g : Good c good) (vs : Vals c rank good raw val) {k : Str} (hk : good k) {v : Val}
    {ins : AList Str Val} (hr : Recorded c raw k v ins)
    (hs : sameInputs ins (record val (needOf c raw k) []) = true) : v = val k := by
  have hcur : ∀ x ∈ needOf c raw k, ins.get? x = some (val x) := by
    intro x hx
    obtain ⟨a, ha, hca⟩ := hr.1 x hx
    obtain ⟨w, hw, he⟩ := sameInputs_get hs ha
    rw [get?_record, if_pos hx] at hw
    cases Option.some.inj hw
    have hx' := need_good g vs hk hx
    rw [ha, (g.exact x a _ hx' hca (vs.canon x hx')).mp he]
  cases hg : c.getter k with
  | some gt =>
    obtain ⟨env, r, henv, hr1, hr2⟩ := hr.2.1 gt hg
    obtain ⟨r', hr1', _, hr2'⟩ := vs.comp k gt hk hg
    have : gt.args.map env = gt.args.map val := by
      refine List.map_congr_left (fun x hx => ?_)
      have h1 := henv x hx
      rw [hcur x (List.mem_append_left _ (g.args k gt x hk hg hx))] at h1
      exact (Option.some.inj h1).symm
    rw [this, hr1'] at hr1
    cases hr1
    have := hr2 (fun _ => none)
    rw [hr2'] at this
    exact (Except.ok.inj this).symm
  | none =>
    obtain ⟨r, hr1, _, hr2⟩ := vs.plain k hk hg
    have h1 := hr.2.2 hg r hr1 (fun x => ins.get? x) (fun _ _ _ => rfl)
    have h2 := hr2 (fun x => ins.get? x) (fun hp x hx => hcur x (by simp [needOf, hg, hp, hr1, hx]))
    rw [h1] at h2
    exact Except.ok.inj h2

/-- The record of the present values, with the present value. -/
theorem recorded_now (g : Good c good) (vs : Vals c rank good raw val) {k : Str} (hk : good k) :
    Recorded c raw k (val k) (record val (needOf c raw k) []) := by
  refine ⟨fun x hx => ⟨val x, by rw [get?_record, if_pos hx], vs.canon x (need_good g vs hk hx)⟩, ?_, ?_⟩
  · intro gt hg
    obtain ⟨r, hr, _, hc⟩ := vs.comp k gt hk hg
    refine ⟨val, r, fun x hx => ?_, hr, hc⟩
    have hx' : x ∈ needOf c raw k := List.mem_append_left _ (g.args k gt x hk hg hx)
    rw [get?_record, if_pos hx']
  · intro hg r hr e he
    obtain ⟨r', hr', _, hc⟩ := vs.plain k hk hg
    rw [hr] at hr'; cases Option.some.inj hr'
    refine hc e (fun hp x hx => ?_)
    rw [he hp x hx, get?_record, if_pos (by simp [needOf, hg, hp, hr, hx])]

/-- What is in the data converts to the present value. -/
theorem data_conv (ac : Acyclic c rank) (g : Good c good) (vs : Vals c rank good raw val) {k : Str} (hk : good k)
    (hg : c.getter k = none) {d : Val} (hh : Holds c raw k d) (e : Str → Option Val)
    (he : ∀ x ∈ needOf c raw k, e x = some (val x)) :
    c.conv k d e = .ok (val k) ∧ ∃ r, raw k = some r ∧ (val k = .none → d = .none) ∧
      (d ≠ r → val k = d) ∧ c.conv k r e = .ok (val k) := by
  obtain ⟨r, hr, hd⟩ := hh.2 hg
  obtain ⟨r', hr', _, hc⟩ := vs.plain k hk hg
  rw [hr] at hr'; cases Option.some.inj hr'
  have hce : c.conv k r e = .ok (val k) :=
    hc e (fun hp x hx => he x (by simp [needOf, hg, hp, hr, hx]))
  have hnone : val k = .none → r = .none := fun h => (g.onlyNone k r e (val k) hk hce).mp h
  rcases hd with rfl | ⟨ht, e0, he0⟩
  · exact ⟨hce, d, hr, hnone, fun h => absurd rfl h, hce⟩
  · have h1 : c.conv k r e = c.conv k r e0 := g.ctx k r e e0 hk (fun hp x hx => by
      rw [ac.literal r (ht hp)] at hx; cases hx)
    rw [he0, hce] at h1
    have h2 : val k = d := Except.ok.inj h1
    refine ⟨?_, r, hr, fun h => h2 ▸ h, fun _ => h2, hce⟩
    rw [h2]
    exact g.idem k r e0 d e hk ht he0

/-- Writing the entries of a property that is not settled. -/
theorem step_write (g : Good c good) (vs : Vals c rank good raw val) {b : Nat} {k : Str} {s s' : Obj}
    (h : Inv c rank good raw s) (hb : rank k < b) (hk : ¬ Settled c raw val s k) (ha : ∀ y, y ≠ k → Agree s s' y)
    (h1 : ∃ d, s'.data.get? k = some d ∧ Holds c raw k d ∧ Ranked c rank k d)
    (h2 : ∃ v, s'.validated.get? k = some v ∧
      (v ≠ .none → ∃ ins, s'.inputs.get? k = some ins ∧ Recorded c raw k v ins)) :
    Step c rank good raw val b s s' := by
  refine ⟨⟨fun y hy => ?_, fun y hy => ?_, fun y d hd => ?_⟩, ?_, ?_⟩
  · by_cases e : y = k
    · subst e; obtain ⟨d, hd, hh, _⟩ := h1; exact ⟨d, hd, hh⟩
    · rw [(ha y e).1]; exact h.data y hy
  · by_cases e : y = k
    · subst e; exact h2
    · rw [(ha y e).2.1, (ha y e).2.2]; exact h.cache y hy
  · by_cases e : y = k
    · subst e; obtain ⟨d', hd', _, hr⟩ := h1
      rw [hd'] at hd; cases Option.some.inj hd; exact hr
    · rw [(ha y e).1] at hd; exact h.ranked y d hd
  · refine settled_agree_good g vs (fun y hy hs => ha y (fun e => hk (e ▸ hs)))
  · intro y hy
    exact (ha y (fun e => by subst e; omega)).upper

/-- The data after `_set_dataValidated`. -/
def storedData (c : Cls) (k : Str) (d w : Val) (data : AList Str Val) : AList Str Val :=
  if c.prim k && c.tpl d then data else data.set k w

theorem store_eq {k : Str} {d w : Val} {s : Obj} (hd : s.data.get? k = some d)
    (hc : c.conv k d (fun x => s.validated.get? x) = .ok w) :
    store c k s = (.ok (), { s with data := storedData c k d w s.data, validated := s.validated.set k w }) := by
  simp only [store, evaluate, hd, hc, setValidated, storedData]
  cases c.prim k <;> cases c.tpl d <;> rfl

theorem get?_storedData {k : Str} {d w : Val} {data : AList Str Val} (hd : data.get? k = some d) :
    (storedData c k d w data).get? k = some (if c.prim k && c.tpl d then d else w) := by
  simp only [storedData]
  split
  · exact hd
  · exact AList.get?_set_self _ _ _

theorem get?_storedData_ne {k y : Str} {d w : Val} {data : AList Str Val} (h : y ≠ k) :
    (storedData c k d w data).get? y = data.get? y := by
  simp only [storedData]
  split
  · rfl
  · exact get?_set' _ _ h

/-- What storing the present value leaves in the data. -/
theorem holds_stored (ac : Acyclic c rank) (g : Good c good) (vs : Vals c rank good raw val) {k : Str} (hk : good k)
    {d : Val} (hh : Holds c raw k d) (hr : Ranked c rank k d) (e : Str → Option Val)
    (he : ∀ x ∈ needOf c raw k, e x = some (val x)) (hc : c.conv k d e = .ok (val k)) :
    Holds c raw k (if c.prim k && c.tpl d then d else val k) ∧
      Ranked c rank k (if c.prim k && c.tpl d then d else val k) ∧
      (val k = .none → (if c.prim k && c.tpl d then d else val k) = .none) := by
  have hrk : Ranked c rank k (if c.prim k && c.tpl d then d else val k) := by
    intro hp
    cases ht : c.tpl d with
    | true => simp only [hp, Bool.and_self, if_true]; exact hr hp
    | false =>
      simp only [Bool.and_false, Bool.false_eq_true, if_false]
      intro x hx
      rw [ac.converted k d e _ hp ht hc] at hx
      cases hx
  cases hg : c.getter k with
  | some gt =>
    obtain ⟨_, _, hne, _⟩ := vs.comp k gt hk hg
    refine ⟨⟨fun _ hp => ?_, fun h => by rw [hg] at h; cases h⟩, hrk, fun h => absurd h hne⟩
    cases ht : c.tpl d with
    | true => simp only [hp, Bool.and_self, if_true]; exact hh.1 (by simp [hg]) hp
    | false =>
      simp only [Bool.and_false, Bool.false_eq_true, if_false]
      exact ac.converted k d e _ hp ht hc
  | none =>
    obtain ⟨_, r, hraw, hn, hne, hcr⟩ := data_conv ac g vs hk hg hh e he
    refine ⟨⟨fun h => absurd hg h, fun _ => ⟨r, hraw, ?_⟩⟩, hrk, fun h => ?_⟩
    · split
      · obtain ⟨r', hraw', hd⟩ := hh.2 hg
        rw [hraw] at hraw'; cases Option.some.inj hraw'; exact hd
      · rename_i hpt
        by_cases hdr : d = r
        · refine .inr ⟨fun hp => ?_, e, hcr⟩
          subst hdr
          simp only [hp, Bool.true_and] at hpt
          simpa using hpt
        · obtain ⟨r', hraw', hd⟩ := hh.2 hg
          rw [hraw] at hraw'; cases Option.some.inj hraw'
          rw [hne hdr]; exact hd
    · rw [hn h, h]; split <;> rfl

/-- Computing a property again. -/
theorem refresh_good (ac : Acyclic c rank) (g : Good c good) (vs : Vals c rank good raw val)
    (hrd : ReadsWell c rank good raw val rd m) {k : Str} (hm : rank k ≤ m) (hk : good k)
    (s : Obj) (h : Inv c rank good raw s) (hdead : Dead c raw val s k) :
    (refresh c rd k s).1 = .ok () ∧ Step c rank good raw val (rank k + 1) s (refresh c rd k s).2 ∧
      Settled c raw val (refresh c rd k s).2 k := by
  have h1 := inputsOf_step ac hrd hm s h
  have h1g := inputsOf_good ac g vs hrd hm hk s h
  -- after the getter
  have key : ∀ s1, Step c rank good raw val (rank k) s s1 →
      (∀ x ∈ needOf c raw k, Settled c raw val s1 x) →
      ∃ s3 d, runGetter c rd k s1 = (.ok (), s3) ∧ Step c rank good raw val (rank k + 1) s1 s3 ∧ Dead c raw val s3 k ∧
        s3.data.get? k = some d ∧ Holds c raw k d ∧ Ranked c rank k d ∧
        ∀ e, (∀ x ∈ needOf c raw k, e x = some (val x)) → c.conv k d e = .ok (val k) := by
    intro s1 hs1 hset
    have hd1 := hdead.upper g hk (hs1.upper k (Nat.le_refl _))
    cases hg : c.getter k with
    | none =>
      obtain ⟨d, hd, hh⟩ := hs1.inv.data k hk
      refine ⟨s1, d, by simp only [runGetter, hg], .refl hs1.inv, hd1, hd, hh, hs1.inv.ranked k d hd,
        fun e he => (data_conv ac g vs hk hg hh e he).1⟩
    | some gt =>
      have hargs : ∀ x ∈ gt.args, rank x < rank k ∧ good x := fun x hx =>
        ⟨ac.args k gt x hg hx, g.deps k x hk (g.args k gt x hk hg hx)⟩
      have h2 := readArgs_step hrd hm gt.args (fun x hx => (hargs x hx).1) s1 hs1.inv
      have h2g := readArgs_good hrd hm gt.args hargs s1 hs1.inv
      obtain ⟨r, hr, hne, hconv⟩ := vs.comp k gt hk hg
      cases he : readArgs rd gt.args s1 with
      | mk ra s2 =>
        rw [he] at h2 h2g
        have h2g' : ra = .ok (gt.args.map val) := h2g
        subst h2g'
        have hd2 := hd1.upper g hk (h2.upper k (Nat.le_refl _))
        obtain ⟨d0, hd0, _⟩ := h2.inv.data k hk
        have hrun : runGetter c rd k s1 = setData c k r s2 := by
          simp only [runGetter, hg, he, hr]
        have hholds : Holds c raw k r :=
          ⟨fun _ _ => ac.result k gt _ r hg hr, fun h => by rw [hg] at h; cases h⟩
        have hranked := ranked_result (rank := rank) ac hg hr
        have put : ∀ s', Inv c rank good raw s' → Dead c raw val s' k →
            Step c rank good raw val (rank k + 1) s' { s' with data := s'.data.set k r } ∧
            Dead c raw val { s' with data := s'.data.set k r } k := by
          intro s' hi' hd'
          refine ⟨step_write g vs hi' (Nat.lt_succ_self _) (hd'.unsettled vs hk)
            (fun y hy => ⟨get?_set' _ _ hy, rfl, rfl⟩) ⟨r, AList.get?_set_self _ _ _, hholds, hranked⟩
            (hi'.cache k hk), ?_⟩
          rcases hd' with hd' | hd'
          · exact .inl ⟨hd'.1, .inl (by simp [hg])⟩
          · exact .inr hd'
        rw [hrun]
        simp only [setData, hd0]
        split
        · have hp := put s2 h2.inv hd2
          exact ⟨_, r, rfl, (h2.mono (Nat.le_succ _)).trans hp.1, hp.2, AList.get?_set_self _ _ _, hholds, hranked,
            fun e _ => hconv e⟩
        · have ht := step_touch (b := rank k + 1) g vs h2.inv (Nat.lt_succ_self _)
            (fun e => hd2.unsettled vs hk e.2) (touch_rel ac.wf c.limit k s2)
          have hok := touch_ok ac c.limit k s2 (Nat.le_add_right _ _)
          have hself := touch_self ac k s2
          cases hto : touch c c.limit k s2 with
          | mk rt s2' =>
            rw [hto] at ht hok hself
            have hok' : rt = .ok () := hok
            subst hok'
            have hp := put s2' ht.inv (.inl ⟨hself, .inl (by simp [hg])⟩)
            exact ⟨_, r, rfl, ((h2.mono (Nat.le_succ _)).trans ht).trans hp.1, hp.2, AList.get?_set_self _ _ _, hholds,
              hranked, fun e _ => hconv e⟩
  simp only [refresh]
  cases he : inputsOf c rd k s with
  | mk r1 s1 =>
    rw [he] at h1 h1g
    obtain ⟨h1r, hset⟩ := h1g
    have h1r' : r1 = .ok (record val (needOf c raw k) []) := h1r
    subst h1r'
    obtain ⟨s3, d, hrun, hst, hdead3, hd3, hh3, hrk3, hc3⟩ := key s1 h1 hset
    dsimp only
    rw [hrun]
    dsimp only
    have hset3 : ∀ x ∈ needOf c raw k, Settled c raw val s3 x := fun x hx =>
      hst.kept x (need_good g vs hk hx) (hset x hx)
    have henv : ∀ x ∈ needOf c raw k, s3.validated.get? x = some (val x) := fun x hx => by
      cases hset3 x hx with
      | mk _ _ hv _ _ => exact hv
    have hc := hc3 (fun x => s3.validated.get? x) henv
    rw [store_eq hd3 hc]
    dsimp only
    obtain ⟨hh', hrk', hn'⟩ := holds_stored ac g vs hk hh3 hrk3 _ henv hc
    have hw : Step c rank good raw val (rank k + 1) s3
        (Obj.mk (storedData c k d (val k) s3.data) (s3.validated.set k (val k))
          (s3.inputs.set k (record val (needOf c raw k) []))) := by
      refine step_write g vs hst.inv (Nat.lt_succ_self _) (hdead3.unsettled vs hk)
        (fun y hy => ⟨get?_storedData_ne hy, get?_set' _ _ hy, get?_set' _ _ hy⟩)
        ⟨_, get?_storedData hd3, hh', hrk'⟩
        ⟨val k, AList.get?_set_self _ _ _, fun _ => ⟨_, AList.get?_set_self _ _ _, recorded_now g vs hk⟩⟩
    refine ⟨rfl, ((h1.mono (Nat.le_succ _)).trans hst).trans hw, ?_⟩
    refine .mk k (fun x hx => hw.kept x (need_good g vs hk hx) (hset3 x hx)) (AList.get?_set_self _ _ _) ?_ ?_
    · simp only [AList.get?_set_self, Option.getD_some]
      exact sameInputs_record g vs (fun x hx => need_good g vs hk hx)
    · intro hn
      rw [get?_storedData hd3, hn' hn]

theorem settled_read {k : Str} {s : Obj} (h : Settled c raw val s k) : validatedOf k s = (.ok (val k), s) := by
  cases h with
  | mk _ _ hv _ _ => simp only [validatedOf, hv]

theorem descGet_good (ac : Acyclic c rank) (g : Good c good) (vs : Vals c rank good raw val)
    (hrd : ReadsWell c rank good raw val rd m) {k : Str} (hm : rank k ≤ m) (hk : good k)
    (s : Obj) (h : Inv c rank good raw s) :
    (descGet c rd k s).1 = .ok (val k) ∧ Step c rank good raw val (rank k + 1) s (descGet c rd k s).2 ∧
      Settled c raw val (descGet c rd k s).2 k := by
  -- computing again from a state where the property is not up to date
  have again : ∀ s1, Step c rank good raw val (rank k + 1) s s1 → Dead c raw val s1 k →
      ((match refresh c rd k s1 with
        | (.error e, s) => (.error e, s)
        | (.ok (), s) => validatedOf k s : Out Val)).1 = .ok (val k) ∧
      Step c rank good raw val (rank k + 1) s (match refresh c rd k s1 with
        | (.error e, s) => (.error e, s)
        | (.ok (), s) => validatedOf k s : Out Val).2 ∧
      Settled c raw val (match refresh c rd k s1 with
        | (.error e, s) => (.error e, s)
        | (.ok (), s) => validatedOf k s : Out Val).2 k := by
    intro s1 hs1 hd1
    have h2 := refresh_good ac g vs hrd hm hk s1 hs1.inv hd1
    cases he : refresh c rd k s1 with
    | mk r s2 =>
      rw [he] at h2
      obtain ⟨h2r, h2s, h2t⟩ := h2
      have h2r' : r = .ok () := h2r
      subst h2r'
      dsimp only
      rw [settled_read h2t]
      exact ⟨rfl, hs1.trans h2s, h2t⟩
  obtain ⟨v, hv, hrec⟩ := h.cache k hk
  obtain ⟨d, hd, hh⟩ := h.data k hk
  -- comparing the inputs
  have hch : isOutdated c rd k s = inputsChanged c rd k s → (v ≠ .none ∨ d = .none) →
      (descGet c rd k s).1 = .ok (val k) ∧ Step c rank good raw val (rank k + 1) s (descGet c rd k s).2 ∧
      Settled c raw val (descGet c rd k s).2 k := by
    intro hio hvd
    have h1 := inputsOf_step ac hrd hm s h
    have h1g := inputsOf_good ac g vs hrd hm hk s h
    have hup := h1.upper k (Nat.le_refl _)
    have hi1 := h1.mono (Nat.le_succ _)
    cases he : inputsOf c rd k s with
    | mk r1 s1 =>
      rw [he] at h1 h1g hup hi1
      obtain ⟨h1r, hset⟩ := h1g
      have h1r' : r1 = .ok (record val (needOf c raw k) []) := h1r
      subst h1r'
      have hout : isOutdated c rd k s =
          (.ok (!sameInputs ((s.inputs.get? k).getD []) (record val (needOf c raw k) [])), s1) := by
        rw [hio]; simp only [inputsChanged, he]
      simp only [descGet, hout]
      cases hsame : sameInputs ((s.inputs.get? k).getD []) (record val (needOf c raw k) []) with
      | false =>
        have : Dead c raw val s k := .inr hsame
        exact again s1 hi1 (this.upper g hk hup)
      | true =>
        simp only [Bool.not_true, Bool.false_or]
        by_cases hcase : ((c.getter k).isSome && noValue k s1) = true
        · rw [if_pos hcase]
          simp only [Bool.and_eq_true] at hcase
          refine again s1 hi1 (.inl ⟨?_, .inl (by cases hg : c.getter k <;> simp_all)⟩)
          have h3 := hcase.2
          simp only [noValue, beq_iff_eq] at h3
          obtain ⟨v1, hv1, _⟩ := h1.inv.cache k hk
          rw [hv1] at h3 ⊢
          exact congrArg some h3
        · rw [if_neg hcase]
          have hsettled : Settled c raw val s1 k := by
            rcases hup.2 with hsm | hrs
            · -- the entries are the same
              have hv1 : s1.validated.get? k = some v := hsm.1.trans hv
              by_cases hvn : v = .none
              · subst hvn
                have hdn : d = .none := by
                  rcases hvd with hvd | hvd
                  · exact absurd rfl hvd
                  · exact hvd
                subst hdn
                cases hg : c.getter k with
                | some gt =>
                  exfalso; apply hcase
                  simp [hg, noValue, hv1]
                | none =>
                  have hval : val k = .none := by
                    obtain ⟨r, hr, hdr⟩ := hh.2 hg
                    obtain ⟨r', hr', hfit, hc⟩ := vs.plain k hk hg
                    rw [hr] at hr'; cases Option.some.inj hr'
                    have hrn : r = .none := by
                      rcases hdr with e | ⟨_, e, hce⟩
                      · exact e.symm
                      · exact (g.onlyNone k r e .none hk hce).mp rfl
                    subst hrn
                    have h4 := hc (fun x => some (val x)) (fun _ _ _ => rfl)
                    rw [g.noneOk k _ hk] at h4
                    exact (Except.ok.inj h4).symm
                  refine .mk k hset (by rw [hv1, hval]) (by rw [hsm.2]; exact hsame) (fun _ => ?_)
                  rw [hup.1, hd]
              · obtain ⟨ins, hins, hr⟩ := hrec hvn
                rw [hins] at hsame
                have hval := recorded_val g vs hk hr hsame
                refine .mk k hset (by rw [hv1, hval]) (by rw [hsm.2, hins]; exact hsame) (fun e => ?_)
                exact absurd (hval.trans e) hvn
            · -- it has been invalidated: then it is computed, and has no value
              exfalso; apply hcase
              have : c.getter k ≠ none := fun hg => hrs.1 (g.noDeps k hk hg)
              cases hg : c.getter k with
              | none => exact absurd hg this
              | some gt => simp [noValue, hrs.2.1]
          rw [settled_read hsettled]
          exact ⟨rfl, hi1, hsettled⟩
  by_cases hvn : v = .none
  · subst hvn
    by_cases hdn : d = .none
    · subst hdn
      exact hch (by simp only [isOutdated, hv, hd]) (.inr rfl)
    · have hio : isOutdated c rd k s = (.ok true, s) := by
        simp only [isOutdated, hv, hd]
      simp only [descGet, hio, Bool.true_or, if_true]
      refine again s (.refl h) (.inl ⟨hv, .inr (fun e => ?_)⟩)
      rw [hd] at e; exact hdn (Option.some.inj e)
  · refine hch ?_ (.inl hvn)
    simp only [isOutdated, hv]

/-- Reading any item, within the recursion limit. -/
theorem getItem_reads (ac : Acyclic c rank) (g : Good c good) (vs : Vals c rank good raw val) (n : Nat) :
    ReadsWell c rank good raw val (getItem c n) n := by
  induction n with
  | zero => intro x hx; omega
  | succ n ih =>
    intro x hx s h
    obtain ⟨hk1, hk2⟩ := ac.names x
    have inGood : good x → (getItem c (n + 1) x s).1 = .ok (val x) ∧
        Step c rank good raw val (rank x + 1) s (getItem c (n + 1) x s).2 ∧
        Settled c raw val (getItem c (n + 1) x s).2 x := by
      intro hgx
      obtain ⟨hu, hneg⟩ := g.plainName x hgx
      have hp := g.declared x hgx
      have hraw : rawName c x = some x := by simp [rawName, hp]
      obtain ⟨d, hd, _⟩ := h.data x hgx
      have hcont : s.data.contains x = true := by simp [AList.contains, hd]
      have h1 := descGet_good ac g vs ih (by omega) hgx s h
      simp only [getItem, hu, hraw, hcont, hp, Bool.not_true, Bool.false_eq_true, if_false, if_true]
      cases he : descGet c (getItem c n) x s with
      | mk r s1 =>
        rw [he] at h1
        obtain ⟨h1r, h1s, h1t⟩ := h1
        have h1r' : r = .ok (val x) := h1r
        subst h1r'
        refine ⟨?_, h1s, h1t⟩
        simp only [through, op, hneg, Bool.false_eq_true, if_false]
    by_cases hgx : good x
    · obtain ⟨h1, h2, h3⟩ := inGood hgx
      exact ⟨h2, fun _ => ⟨h1, h3⟩⟩
    · refine ⟨?_, fun h => absurd h hgx⟩
      simp only [getItem]
      cases hraw : rawName c (unalias c x) with
      | none => exact .refl h
      | some k =>
        have hrk := hk2 k hraw
        dsimp only
        split
        · exact .refl h
        · split
          · rw [through_snd]
            by_cases hgk : good k
            · exact ((descGet_good ac g vs ih (by omega) hgk s h).2.1).mono (by omega)
            · exact (descGet_out ac g vs ih (by omega) hgk s h).mono (by omega)
          · rename_i hnp
            rw [through_snd]
            have hgk : ¬ good (unalias c x) := fun hg => by
              have hp := g.declared _ hg
              have : rawName c (unalias c x) = some (unalias c x) := by simp [rawName, hp]
              rw [hraw] at this
              cases Option.some.inj this
              exact hnp hp
            exact (plainGet_out ac g vs ih (by omega) hgk s h).mono (by omega)

/-! ### Values -/

/-- Something that fits has been assigned to every property of the set that is not computed. -/
def AllFit (c : Cls) (rank : Str → Nat) (good : Str → Prop) (raw : Str → Option Val) : Prop :=
  ∀ k, good k → c.getter k = none → ∃ r, raw k = some r ∧ Fits c rank good k r

/-- The value of a property, the bound being large enough. -/
def valOf (c : Cls) (rank : Str → Nat) (raw : Str → Option Val) (k : Str) : Val :=
  (value c raw (rank k + 1) k).getD .none

theorem mapM_some {f : Str → Option Val} {v : Str → Val} (xs : List Str) (h : ∀ x ∈ xs, f x = some (v x)) :
    xs.mapM f = some (xs.map v) := by
  induction xs with
  | nil => rfl
  | cons x xs ih =>
    rw [List.mapM_cons, h x (by simp), ih (fun y hy => h y (by simp [hy]))]
    rfl

theorem value_spec (ac : Acyclic c rank) (g : Good c good) (hf : AllFit c rank good raw) (k : Str) (hk : good k) :
    (∀ n, rank k < n → value c raw n k = some (valOf c rank raw k)) ∧ Canon c k (valOf c rank raw k) := by
  have main : ∀ b k, rank k < b → good k →
      (∀ n, rank k < n → value c raw n k = some (valOf c rank raw k)) ∧ Canon c k (valOf c rank raw k) := by
    intro b
    induction b with
    | zero => intro k h; omega
    | succ b ih =>
      intro k hkb hk
      suffices h : ∃ w, Canon c k w ∧ ∀ n, rank k < n → value c raw n k = some w by
        obtain ⟨w, hw, hv⟩ := h
        have : valOf c rank raw k = w := by
          simp [valOf, hv (rank k + 1) (Nat.lt_succ_self _)]
        rw [this]; exact ⟨hv, hw⟩
      cases hg : c.getter k with
      | some gt =>
        have hx : ∀ x ∈ gt.args, rank x < rank k ∧ good x := fun x hx =>
          ⟨ac.args k gt x hg hx, g.deps k x hk (g.args k gt x hk hg hx)⟩
        obtain ⟨r, w, hr, _, hc⟩ := g.computed k gt hk hg (valOf c rank raw)
          (fun x hx' => (ih x (by have := (hx x hx').1; omega) (hx x hx').2).2)
        refine ⟨w, ⟨r, _, hc (fun _ => none)⟩, fun n hn => ?_⟩
        cases n with
        | zero => omega
        | succ n =>
          have hm := mapM_some (f := value c raw n) (v := valOf c rank raw) gt.args (fun x hx' =>
            (ih x (by have := (hx x hx').1; omega) (hx x hx').2).1 n (by have := (hx x hx').1; omega))
          simp only [value, hg, hm, Option.bind_some, hr, Except.toOption, hc]
      | none =>
        obtain ⟨r, hr, hfit⟩ := hf k hk hg
        obtain ⟨w, hw⟩ := hfit.conv (fun x => some (valOf c rank raw x)) (fun hp x hx =>
          ⟨_, rfl, (ih x (by have := (hfit.reads hp x hx).2; omega) (hfit.reads hp x hx).1).2⟩)
        refine ⟨w, ⟨r, _, hw⟩, fun n hn => ?_⟩
        cases n with
        | zero => omega
        | succ n =>
          have hc : c.conv k r (fun x => value c raw n x) = .ok w := by
            rw [← hw]
            refine g.ctx k r _ _ hk (fun hp x hx => ?_)
            have h1 := hfit.reads hp x hx
            exact (ih x (by omega) h1.1).1 n (by omega)
          simp only [value, hg, hr, Option.bind_some, hc, Except.toOption]
  exact main (rank k + 1) k (Nat.lt_succ_self _) hk

theorem vals_valOf (ac : Acyclic c rank) (g : Good c good) (hf : AllFit c rank good raw) :
    Vals c rank good raw (valOf c rank raw) := by
  refine ⟨?_, ?_, fun k hk => (value_spec ac g hf k hk).2⟩
  · intro k gt hk hg
    have hx : ∀ x ∈ gt.args, rank x < rank k ∧ good x := fun x hx =>
      ⟨ac.args k gt x hg hx, g.deps k x hk (g.args k gt x hk hg hx)⟩
    obtain ⟨r, w, hr, hne, hc⟩ := g.computed k gt hk hg (valOf c rank raw)
      (fun x hx' => (value_spec ac g hf x (hx x hx').2).2)
    have hm := mapM_some (f := value c raw (rank k)) (v := valOf c rank raw) gt.args (fun x hx' =>
      (value_spec ac g hf x (hx x hx').2).1 _ (hx x hx').1)
    have : valOf c rank raw k = w := by
      simp only [valOf, value, hg, hm, Option.bind_some, hr, Except.toOption, hc, Option.getD_some]
    exact ⟨r, hr, this ▸ hne, fun e => this ▸ hc e⟩
  · intro k hk hg
    obtain ⟨r, hr, hfit⟩ := hf k hk hg
    refine ⟨r, hr, hfit, fun e he => ?_⟩
    have h1 := (value_spec ac g hf k hk).1 (rank k + 1) (Nat.lt_succ_self _)
    simp only [value, hg, hr, Option.bind_some] at h1
    have h2 : c.conv k r (fun x => value c raw (rank k) x) = c.conv k r e := by
      refine g.ctx k r _ _ hk (fun hp x hx => ?_)
      have h3 := hfit.reads hp x hx
      rw [he hp x hx]
      exact (value_spec ac g hf x h3.1).1 _ h3.2
    rw [h2] at h1
    cases hc : c.conv k r e with
    | error e => rw [hc] at h1; cases h1
    | ok w => rw [hc] at h1; exact congrArg Except.ok (Option.some.inj h1)

/-! ### Assignments -/

theorem needOf_congr {raw' : Str → Option Val} {k : Str} (h : raw' k = raw k) : needOf c raw' k = needOf c raw k := by
  simp only [needOf, h]

theorem inv_congr {raw' : Str → Option Val} {s : Obj} (h : ∀ k, good k → raw' k = raw k)
    (hi : Inv c rank good raw s) : Inv c rank good raw' s := by
  refine ⟨fun k hk => ?_, fun k hk => ?_, hi.ranked⟩
  · obtain ⟨d, hd, hh⟩ := hi.data k hk
    refine ⟨d, hd, hh.1, fun hg => ?_⟩
    rw [h k hk]; exact hh.2 hg
  · obtain ⟨v, hv, hh⟩ := hi.cache k hk
    refine ⟨v, hv, fun hne => ?_⟩
    obtain ⟨ins, hins, hr⟩ := hh hne
    refine ⟨ins, hins, ?_, hr.2.1, ?_⟩
    · rw [needOf_congr (h k hk)]; exact hr.1
    · rw [h k hk]; exact hr.2.2

/-- Assigning a property of the set: the data. -/
theorem setData_good (ac : Acyclic c rank) (g : Good c good) {k : Str} (hk : good k)
    (hg : c.getter k = none) (v : Val) (hv : Fits c rank good k v) (s : Obj) (h : Inv c rank good raw s) :
    (setData c k v s).1 = .ok () ∧ Inv c rank good (fun x => if x = k then some v else raw x) (setData c k v s).2 ∧
      (setData c k v s).2.data.get? k = some v := by
  obtain ⟨d, hd, hh⟩ := h.data k hk
  have hrk : Ranked c rank k v := fun hp x hx => (hv.reads hp x hx).2
  -- the entries of the other properties
  have finish : ∀ s' : Obj, s'.data = s.data →
      (∀ y, good y → y ≠ k → ∃ v, s'.validated.get? y = some v ∧
        (v ≠ .none → ∃ ins, s'.inputs.get? y = some ins ∧ Recorded c raw y v ins)) →
      (∃ v0, s'.validated.get? k = some v0 ∧ (v0 ≠ .none → ∃ ins, s'.inputs.get? k = some ins ∧
        Recorded c (fun x => if x = k then some v else raw x) k v0 ins)) →
      Inv c rank good (fun x => if x = k then some v else raw x) { s' with data := s'.data.set k v } := by
    intro s' hs' hother hself
    refine ⟨fun y hy => ?_, fun y hy => ?_, fun y d' hd' => ?_⟩
    · by_cases e : y = k
      · subst e
        exact ⟨v, AList.get?_set_self _ _ _, fun h => absurd hg h, fun _ => ⟨v, by simp, .inl rfl⟩⟩
      · obtain ⟨d', hd', hh'⟩ := h.data y hy
        refine ⟨d', ?_, hh'.1, ?_⟩
        · simp only [get?_set' _ _ e, hs']; exact hd'
        · simp only [e, if_false]; exact hh'.2
    · by_cases e : y = k
      · subst e; exact hself
      · obtain ⟨v', hv', hh'⟩ := hother y hy e
        refine ⟨v', hv', fun hne => ?_⟩
        obtain ⟨ins, hins, hr⟩ := hh' hne
        refine ⟨ins, hins, ?_, hr.2.1, ?_⟩
        · rw [needOf_congr (raw := raw) (by simp [e])]; exact hr.1
        · simp only [e, if_false]; exact hr.2.2
    · by_cases e : y = k
      · subst e
        simp only [AList.get?_set_self, Option.some.injEq] at hd'
        exact hd' ▸ hrk
      · simp only [get?_set' _ _ e, hs'] at hd'
        exact h.ranked y d' hd'
  simp only [setData, hd]
  split
  · rename_i heq
    simp only [Bool.and_eq_true] at heq
    have hal := fun e => g.alike k v d e hk heq.2
    refine ⟨rfl, finish s rfl (fun y hy _ => h.cache y hy) ?_, AList.get?_set_self _ _ _⟩
    obtain ⟨v0, hv0, hr0⟩ := h.cache k hk
    refine ⟨v0, hv0, fun hne => ?_⟩
    obtain ⟨ins, hins, hr⟩ := hr0 hne
    obtain ⟨r, hr1, hdr⟩ := hh.2 hg
    have hreads : c.reads v = c.reads r := by
      rw [(hal (fun _ => none)).2.1]
      rcases hdr with rfl | ⟨ht, e, he⟩
      · rfl
      · rw [ac.converted k r e d heq.1 (ht heq.1) he, ac.literal r (ht heq.1)]
    refine ⟨ins, hins, ?_, fun gt hgt => (by rw [hg] at hgt; cases hgt), ?_⟩
    · intro x hx
      apply hr.1 x
      simpa [needOf, hg, heq.1, hr1, hreads] using hx
    · intro _ r' hr' e he
      simp only [if_true, Option.some.injEq] at hr'
      subst hr'
      rw [(hal e).1]
      have h1 := hr.2.2 hg r hr1 e (fun hp x hx => he hp x (hreads ▸ hx))
      rcases hdr with rfl | ⟨ht, e0, he0⟩
      · exact h1
      · have h2 : c.conv k r e = c.conv k r e0 := g.ctx k r e e0 hk (fun hp x hx => by
          rw [ac.literal r (ht hp)] at hx; cases hx)
        rw [h1, he0] at h2
        cases h2
        exact g.idem k r e0 _ e hk ht he0
  · have ht := touch_rel ac.wf c.limit k s
    have hok := touch_ok ac c.limit k s (Nat.le_add_right _ _)
    have hself := touch_self ac k s
    cases hto : touch c c.limit k s with
    | mk rt s' =>
      rw [hto] at ht hok hself
      have hok' : rt = .ok () := hok
      subst hok'
      refine ⟨rfl, finish s' ht.1 (fun y hy _ => ?_) ⟨.none, hself, fun e => absurd rfl e⟩, AList.get?_set_self _ _ _⟩
      rcases ht.2 y with h1 | h1
      · rw [h1.1, h1.2]; exact h.cache y hy
      · exact ⟨.none, h1.2.1, fun e => absurd rfl e⟩

/-- Reading the inputs and converting, for a property of the set. -/
theorem reload_good (ac : Acyclic c rank) (g : Good c good) (vs : Vals c rank good raw val)
    (hrd : ReadsWell c rank good raw val rd m) {k : Str} (hm : rank k ≤ m) (hk : good k) (hg : c.getter k = none)
    (s : Obj) (h : Inv c rank good raw s) :
    (reload c rd k s).1 = .ok () ∧ Inv c rank good raw (reload c rd k s).2 := by
  have h1 := inputsOf_step ac hrd hm s h
  have h1g := inputsOf_good ac g vs hrd hm hk s h
  simp only [reload]
  cases he : inputsOf c rd k s with
  | mk r1 s1 =>
    rw [he] at h1 h1g
    obtain ⟨h1r, hset⟩ := h1g
    have h1r' : r1 = .ok (record val (needOf c raw k) []) := h1r
    subst h1r'
    dsimp only
    obtain ⟨d, hd, hh⟩ := h1.inv.data k hk
    have henv : ∀ x ∈ needOf c raw k, s1.validated.get? x = some (val x) := fun x hx => by
      cases hset x hx with
      | mk _ _ hv _ _ => exact hv
    have hc := (data_conv ac g vs hk hg hh (fun x => s1.validated.get? x) henv).1
    obtain ⟨hh', hrk', _⟩ := holds_stored ac g vs hk hh (h1.inv.ranked k d hd) _ henv hc
    rw [store_eq (s := { s1 with inputs := s1.inputs.set k (record val (needOf c raw k) []) }) hd hc]
    refine ⟨rfl, ⟨fun y hy => ?_, fun y hy => ?_, fun y d' hd' => ?_⟩⟩
    · by_cases e : y = k
      · subst e; exact ⟨_, get?_storedData hd, hh'⟩
      · obtain ⟨d', hd', hh''⟩ := h1.inv.data y hy
        exact ⟨d', by simp only [get?_storedData_ne e]; exact hd', hh''⟩
    · by_cases e : y = k
      · subst e
        exact ⟨val y, AList.get?_set_self _ _ _, fun _ => ⟨_, AList.get?_set_self _ _ _, recorded_now g vs hk⟩⟩
      · simp only [get?_set' _ _ e]; exact h1.inv.cache y hy
    · by_cases e : y = k
      · subst e
        have := (get?_storedData (c := c) (w := val y) hd).symm.trans hd'
        rw [← Option.some.inj this]; exact hrk'
      · simp only [get?_storedData_ne e] at hd'
        exact h1.inv.ranked y d' hd'

/-- An operation of a history. -/
theorem step_inv (ac : Acyclic c rank) (g : Good c good) {n : Nat} (hn : c.limit ≤ n) (s : Obj) (o : Op)
    (ho : Allowed c rank good o) (hf : AllFit c rank good raw) (h : Inv c rank good raw s) :
    AllFit c rank good (assign c raw o) ∧ Inv c rank good (assign c raw o) (step c n s o) := by
  have vs := vals_valOf ac g hf
  have rk : ∀ k, rank k ≤ n := fun k => by have := ac.bound k; omega
  cases o with
  | get k =>
    exact ⟨hf, ((getItem_reads ac g vs n k (by have := ac.bound k; omega) s h).1).inv⟩
  | del key =>
    refine ⟨hf, ?_⟩
    have erase : ∀ k, ¬ good k → ∀ s', Inv c rank good raw s' →
        Inv c rank good raw (delData k s').2 ∧ Inv c rank good raw (delValidated k s').2 ∧
        Inv c rank good raw (delInputs k s').2 := by
      intro k hk s' h'
      have ne : ∀ y, good y → y ≠ k := fun y hy e => hk (e ▸ hy)
      refine ⟨?_, ?_, ?_⟩
      · simp only [delData]; split
        · refine inv_of_agree h' (fun y hy => ⟨?_, rfl, rfl⟩) (fun y d hd => ?_)
          · simp [AList.get?_erase, ne y hy]
          · simp only [AList.get?_erase] at hd
            split at hd
            · cases hd
            · exact h'.ranked y d hd
        · exact h'
      · simp only [delValidated]; split
        · refine inv_of_agree h' (fun y hy => ⟨rfl, ?_, rfl⟩) h'.ranked
          simp [AList.get?_erase, ne y hy]
        · exact h'
      · simp only [delInputs]; split
        · refine inv_of_agree h' (fun y hy => ⟨rfl, rfl, ?_⟩) h'.ranked
          simp [AList.get?_erase, ne y hy]
        · exact h'
    have seq : ∀ (a : Out Unit) (f : Obj → Out Unit), Inv c rank good raw a.2 →
        (∀ s', Inv c rank good raw s' → Inv c rank good raw (f s').2) → Inv c rank good raw (andThen a f).2 := by
      intro a f ha hf'
      simp only [andThen]
      split
      · exact hf' _ ha
      · exact ha
    simp only [Allowed] at ho
    show Inv c rank good raw (delItem c key s).2
    simp only [delItem]
    cases htr : translated c key with
    | some p =>
      rw [htr] at ho
      simp only [descDel]
      split
      · exact h
      · exact seq _ _ (seq _ _ (erase _ ho s h).1 (fun s' h' => (erase _ ho s' h').2.1))
          (fun s' h' => (erase _ ho s' h').2.2)
    | none =>
      rw [htr] at ho
      exact seq _ _ (seq _ _ (erase _ ho s h).1 (fun s' h' => (erase _ ho s' h').2.2))
          (fun s' h' => (erase _ ho s' h').2.1)
  | delAttr k =>
    refine ⟨hf, ?_⟩
    have ne : ∀ y, good y → y ≠ k := fun y hy e => ho (e ▸ hy)
    show Inv c rank good raw (descDel c k s).2
    simp only [descDel]
    split
    · exact h
    · have h1 : ∀ s', Inv c rank good raw s' → Inv c rank good raw (delData k s').2 := by
        intro s' h'
        simp only [delData]; split
        · refine inv_of_agree h' (fun y hy => ⟨?_, rfl, rfl⟩) (fun y d hd => ?_)
          · simp [AList.get?_erase, ne y hy]
          · simp only [AList.get?_erase] at hd
            split at hd
            · cases hd
            · exact h'.ranked y d hd
        · exact h'
      have h2 : ∀ s', Inv c rank good raw s' → Inv c rank good raw (delValidated k s').2 := by
        intro s' h'
        simp only [delValidated]; split
        · refine inv_of_agree h' (fun y hy => ⟨rfl, ?_, rfl⟩) h'.ranked
          simp [AList.get?_erase, ne y hy]
        · exact h'
      have h3 : ∀ s', Inv c rank good raw s' → Inv c rank good raw (delInputs k s').2 := by
        intro s' h'
        simp only [delInputs]; split
        · refine inv_of_agree h' (fun y hy => ⟨rfl, rfl, ?_⟩) h'.ranked
          simp [AList.get?_erase, ne y hy]
        · exact h'
      have seq : ∀ (a : Out Unit) (f : Obj → Out Unit), Inv c rank good raw a.2 →
          (∀ s', Inv c rank good raw s' → Inv c rank good raw (f s').2) → Inv c rank good raw (andThen a f).2 := by
        intro a f ha hf'
        simp only [andThen]
        split
        · exact hf' _ ha
        · exact ha
      exact seq _ _ (seq _ _ (h1 s h) h2) h3
  | set key v =>
    show AllFit c rank good (assign c raw (.set key v)) ∧
      Inv c rank good (assign c raw (.set key v)) (setItem c n key v s).2
    simp only [Allowed] at ho
    simp only [setItem, assign, wrote]
    cases hraw : rawName c key with
    | none => exact ⟨hf, h⟩
    | some k =>
      have ho := ho k hraw
      dsimp only
      by_cases hp : k ∈ c.props
      · simp only [hp, if_true, true_and]
        cases hop : op c key v with
        | error e =>
          have : ∀ (P : Prop) [Decidable P], (if P then (Except.error e : Res Val).toOption.map (fun v => (k, v)) else none)
              = (none : Option (Str × Val)) := by intro P _; split <;> rfl
          rw [this]
          exact ⟨hf, h⟩
        | ok w =>
          obtain ⟨hrk, hgood⟩ := ho w hop
          simp only [hp, if_true] at hrk
          simp only [descSet]
          by_cases hro : k ∈ c.readOnly
          · simp only [hro, not_true_eq_false, if_false, if_true]
            exact ⟨hf, h⟩
          · simp only [hro, not_false_eq_true, if_true, if_false, Except.toOption, Option.map_some]
            by_cases hgk : good k
            · obtain ⟨hgt, hfit⟩ := hgood hgk
              have hf' : AllFit c rank good (fun x => if x = k then some w else raw x) := by
                intro y hy hgy
                by_cases e : y = k
                · subst e; exact ⟨w, by simp, hfit⟩
                · simp only [e, if_false]; exact hf y hy hgy
              refine ⟨hf', ?_⟩
              obtain ⟨h1, h2, _⟩ := setData_good ac g hgk hgt w hfit s h
              cases he : setData c k w s with
              | mk r s1 =>
                rw [he] at h1 h2
                have h1' : r = .ok () := h1
                subst h1'
                dsimp only
                split
                · exact h2
                · have vs' := vals_valOf ac g hf'
                  exact (reload_good ac g vs' (getItem_reads ac g vs' n) (rk k) hgk hgt s1 h2).2
            · have hcongr : ∀ y, good y → (fun x => if x = k then some w else raw x) y = raw y := by
                intro y hy
                have : y ≠ k := fun e => hgk (e ▸ hy)
                simp [this]
              refine ⟨?_, inv_congr hcongr ?_⟩
              · intro y hy hgy
                rw [hcongr y hy]; exact hf y hy hgy
              · have h1 := setData_out ac g vs hgk w hrk s h
                cases he : setData c k w s with
                | mk r s1 =>
                  rw [he] at h1
                  cases r with
                  | error e => exact h1.inv
                  | ok u =>
                    dsimp only
                    split
                    · exact h1.inv
                    · exact (reload_out ac g vs (getItem_reads ac g vs n) (rk k) hgk s1 h1.inv).inv
      · simp only [hp, if_false, false_and]
        refine ⟨hf, ?_⟩
        split
        · exact h
        · cases hop : op c key v with
          | error e => exact h
          | ok w =>
            obtain ⟨hrk, _⟩ := ho w hop
            simp only [hp, if_false] at hrk
            have hgk : ¬ good key := fun hg => by
              have hp' := g.declared _ hg
              have : rawName c key = some key := by simp [rawName, hp']
              rw [hraw] at this
              cases Option.some.inj this
              exact hp hp'
            refine (step_outside (b := rank key + 1) (s' := Obj.mk (s.data.set key w) (s.validated.set key w) s.inputs)
              g vs h hgk (Nat.lt_succ_self _)
              (fun y hy => ⟨get?_set' _ _ hy, get?_set' _ _ hy, rfl⟩) (fun d hd => ?_)).inv
            simp only [AList.get?_set_self, Option.some.injEq] at hd
            exact hd ▸ hrk

theorem run_inv (ac : Acyclic c rank) (g : Good c good) {n : Nat} (hn : c.limit ≤ n) (ops : List Op) (s : Obj)
    (ho : ∀ o ∈ ops, Allowed c rank good o) (hf : AllFit c rank good raw) (h : Inv c rank good raw s) :
    AllFit c rank good (assigned c raw ops) ∧ Inv c rank good (assigned c raw ops) (run c n s ops) := by
  induction ops generalizing s raw with
  | nil => exact ⟨hf, h⟩
  | cons o ops ih =>
    have h1 := step_inv ac g hn s o (ho o (by simp)) hf h
    exact ih (s := step c n s o) (raw := assign c raw o) (fun o ho' => ho o (by simp [ho'])) h1.1 h1.2

theorem get?_map_const {υ : Type} (data : AList Str Val) (u : υ) (k : Str) :
    AList.get? (data.map (fun p => (p.1, u))) k = (data.get? k).map (fun _ => u) := by
  induction data with
  | nil => rfl
  | cons p d ih =>
    simp only [List.map_cons, AList.get?]
    split
    · rfl
    · exact ih

theorem create_inv (ac : Acyclic c rank) (g : Good c good) {n : Nat} (hn : c.limit ≤ n) (data : AList Str Val)
    (hs : Starts c rank good data) :
    AllFit c rank good (fun k => data.get? k) ∧ Inv c rank good (fun k => data.get? k) (create c n data).2 := by
  have hf : AllFit c rank good (fun k => data.get? k) := by
    intro k hk hg
    obtain ⟨v, hv, hfit, _⟩ := hs.present k hk
    exact ⟨v, hv, hfit hg⟩
  have h0 : Inv c rank good (fun k => data.get? k) (touched data) := by
    refine ⟨fun k hk => ?_, fun k hk => ?_, hs.ranked⟩
    · obtain ⟨v, hv, _, hr⟩ := hs.present k hk
      exact ⟨v, hv, hr, fun hg => ⟨v, hv, .inl rfl⟩⟩
    · obtain ⟨v, hv, _⟩ := hs.present k hk
      exact ⟨.none, by simp [touched, get?_map_const, hv], fun e => absurd rfl e⟩
  refine ⟨hf, ?_⟩
  have vs := vals_valOf ac g hf
  have hall : ∀ ks s, Inv c rank good (fun k => data.get? k) s →
      Inv c rank good (fun k => data.get? k) (readAll c n ks s).2 := by
    intro ks
    induction ks with
    | nil => intro s h; exact h
    | cons k ks ih =>
      intro s h
      have h1 := ((getItem_reads ac g vs n k (by have := ac.bound k; omega) s h).1).inv
      simp only [readAll]
      cases he : getItem c n k s with
      | mk r s1 =>
        rw [he] at h1
        cases r with
        | ok v => exact ih s1 h1
        | error e => exact h1
  simp only [create]
  split
  · exact h0
  · exact hall _ _ h0

end

/-! ### Names in use -/

/-- `_data` and `_dataValidated` have the same names, among them those with dependencies. -/
def SameKeys (c : Cls) (s : Obj) : Prop :=
  (∀ k, s.validated.contains k = s.data.contains k) ∧ ∀ p ∈ c.deps, s.data.contains p.1 = true

theorem contains_set' {υ : Type} (d : AList Str υ) (k y : Str) (v : υ) :
    (d.set k v).contains y = (d.contains y || decide (k = y)) := by
  simp only [AList.contains, AList.get?_set]
  by_cases h : k = y
  · simp [h]
  · simp [h]

theorem contains_get? {υ : Type} {d : AList Str υ} {k : Str} {v : υ} (h : d.get? k = some v) : d.contains k = true := by
  simp [AList.contains, h]

theorem dependents_deps {c : Cls} {k y : Str} (h : y ∈ dependents c k) : ∃ p ∈ c.deps, p.1 = y := by
  simp only [dependents, List.mem_map, List.mem_filter] at h
  obtain ⟨p, ⟨hm, _⟩, rfl⟩ := h
  exact ⟨p, hm, rfl⟩

theorem reset_keys {c : Cls} {k : Str} {s : Obj} (hk : s.data.contains k = true) (h : SameKeys c s) :
    SameKeys c (reset k s) := by
  refine ⟨fun y => ?_, h.2⟩
  simp only [reset, contains_set', h.1 y]
  by_cases e : k = y
  · subst e; simp [hk]
  · simp [e]

theorem forEach_keys {c : Cls} {f : Str → Obj → Out Unit} {ys : List Str} (hys : ∀ y ∈ ys, ∃ p ∈ c.deps, p.1 = y)
    (hf : ∀ y s, s.data.contains y = true → SameKeys c s → SameKeys c (f y s).2) (s : Obj) (h : SameKeys c s) :
    SameKeys c (forEach f ys s).2 := by
  induction ys generalizing s with
  | nil => exact h
  | cons y ys ih =>
    obtain ⟨p, hp, rfl⟩ := hys y (by simp)
    have h1 := hf p.1 s (h.2 p hp) h
    simp only [forEach]
    cases he : f p.1 s with
    | mk r s1 =>
      rw [he] at h1
      cases r with
      | ok u => exact ih (fun y hy => hys y (by simp [hy])) s1 h1
      | error e => exact h1

theorem touch_keys {c : Cls} (n : Nat) (k : Str) (s : Obj) (hk : s.data.contains k = true) (h : SameKeys c s) :
    SameKeys c (touch c n k s).2 := by
  induction n generalizing k s with
  | zero => exact h
  | succ n ih =>
    have hd : ∀ y ∈ dependents c k, ∃ p ∈ c.deps, p.1 = y := fun y hy => dependents_deps hy
    have h1 := forEach_keys hd ih (reset k s) (reset_keys hk h)
    simp only [touch]
    cases he : forEach (touch c n) (dependents c k) (reset k s) with
    | mk r s1 =>
      rw [he] at h1
      cases r with
      | ok u => exact forEach_keys hd ih s1 h1
      | error e => exact h1

theorem forEach_data {f : Str → Obj → Out Unit} (hf : ∀ y s, (f y s).2.data = s.data) (ys : List Str) (s : Obj) :
    (forEach f ys s).2.data = s.data := by
  induction ys generalizing s with
  | nil => rfl
  | cons y ys ih =>
    have h1 := hf y s
    simp only [forEach]
    cases he : f y s with
    | mk r s1 =>
      rw [he] at h1
      cases r with
      | ok u => exact (ih s1).trans h1
      | error e => exact h1

theorem touch_data (c : Cls) (n : Nat) (k : Str) (s : Obj) : (touch c n k s).2.data = s.data := by
  induction n generalizing k s with
  | zero => rfl
  | succ n ih =>
    have h1 := forEach_data ih (dependents c k) (reset k s)
    simp only [touch]
    cases he : forEach (touch c n) (dependents c k) (reset k s) with
    | mk r s1 =>
      rw [he] at h1
      cases r with
      | ok u => exact (forEach_data ih _ s1).trans h1
      | error e => exact h1

theorem putData_keys {c : Cls} {k : Str} {v : Val} {s : Obj} (hk : s.data.contains k = true) (h : SameKeys c s) :
    SameKeys c { s with data := s.data.set k v } := by
  refine ⟨fun y => ?_, fun p hp => ?_⟩
  · simp only [contains_set', h.1 y]
    by_cases e : k = y
    · subst e; simp [hk]
    · simp [e]
  · simp only [contains_set', h.2 p hp, Bool.true_or]

theorem setData_keys {c : Cls} {k : Str} {v : Val} {s : Obj} (h : SameKeys c s) : SameKeys c (setData c k v s).2 := by
  simp only [setData]
  cases hd : s.data.get? k with
  | none => exact h
  | some o =>
    have hk := contains_get? hd
    dsimp only
    split
    · exact putData_keys hk h
    · have h1 := touch_keys (c := c) c.limit k s hk h
      have h2 := touch_data c c.limit k s
      cases he : touch c c.limit k s with
      | mk r s1 =>
        rw [he] at h1 h2
        cases r with
        | error e => exact h1
        | ok u =>
          refine putData_keys ?_ h1
          have h2' : s1.data = s.data := h2
          rw [h2']; exact hk

theorem putBoth_keys {c : Cls} {k : Str} {v w : Val} {s : Obj} (h : SameKeys c s) :
    SameKeys c { s with data := s.data.set k v, validated := s.validated.set k w } := by
  refine ⟨fun y => ?_, fun p hp => ?_⟩
  · simp only [contains_set', h.1 y]
  · simp only [contains_set', h.2 p hp, Bool.true_or]

theorem store_keys {c : Cls} {k : Str} {s : Obj} (h : SameKeys c s) : SameKeys c (store c k s).2 := by
  simp only [store, evaluate]
  cases hd : s.data.get? k with
  | none => exact h
  | some d =>
    dsimp only
    cases hc : c.conv k d (fun x => s.validated.get? x) with
    | error e => exact h
    | ok w =>
      dsimp only
      simp only [setValidated, hd]
      split
      · cases ht : c.tpl d with
        | true =>
          refine ⟨fun y => ?_, h.2⟩
          simp only [contains_set', h.1 y, if_true]
          by_cases e : k = y
          · subst e; simp [contains_get? hd]
          · simp [e]
        | false => exact putBoth_keys h
      · exact putBoth_keys h

/-- Reading keeps the names. -/
def ReadsKeys (c : Cls) (rd : Str → Obj → Out Val) : Prop := ∀ x s, SameKeys c s → SameKeys c (rd x s).2

theorem collect_keys {c : Cls} {rd : Str → Obj → Out Val} (hrd : ReadsKeys c rd) (xs : List Str) (m : AList Str Val)
    (s : Obj) (h : SameKeys c s) : SameKeys c (collect rd xs m s).2 := by
  induction xs generalizing m s with
  | nil => exact h
  | cons x xs ih =>
    have h1 := hrd x s h
    simp only [collect]
    cases he : rd x s with
    | mk r s1 =>
      rw [he] at h1
      cases r <;> exact ih _ s1 h1

theorem inputsOf_keys {c : Cls} {rd : Str → Obj → Out Val} (hrd : ReadsKeys c rd) (k : Str)
    (s : Obj) (h : SameKeys c s) : SameKeys c (inputsOf c rd k s).2 := by
  have h1 := collect_keys hrd (depsOf c k) [] s h
  simp only [inputsOf]
  cases he : collect rd (depsOf c k) [] s with
  | mk m s1 =>
    rw [he] at h1
    dsimp only
    split
    · cases hd : s1.data.get? k with
      | none => exact h1
      | some d => exact collect_keys hrd (c.reads d) m s1 h1
    · exact h1

theorem readArgs_keys {c : Cls} {rd : Str → Obj → Out Val} (hrd : ReadsKeys c rd) (xs : List Str)
    (s : Obj) (h : SameKeys c s) : SameKeys c (readArgs rd xs s).2 := by
  induction xs generalizing s with
  | nil => exact h
  | cons x xs ih =>
    have h1 := hrd x s h
    simp only [readArgs]
    cases he : rd x s with
    | mk r s1 =>
      rw [he] at h1
      cases r with
      | error e => exact h1
      | ok v =>
        have h2 := ih s1 h1
        dsimp only
        cases he2 : readArgs rd xs s1 with
        | mk r2 s2 => rw [he2] at h2; cases r2 <;> exact h2

theorem isOutdated_keys {c : Cls} {rd : Str → Obj → Out Val} (hrd : ReadsKeys c rd) (k : Str)
    (s : Obj) (h : SameKeys c s) : SameKeys c (isOutdated c rd k s).2 := by
  have hch : SameKeys c (inputsChanged c rd k s).2 := by
    have h1 := inputsOf_keys hrd k s h
    simp only [inputsChanged]
    cases he : inputsOf c rd k s with
    | mk r s1 => rw [he] at h1; cases r <;> exact h1
  simp only [isOutdated]
  split
  · exact h
  · split
    · exact h
    · exact hch
    · exact h
  · exact hch

theorem runGetter_keys {c : Cls} {rd : Str → Obj → Out Val} (hrd : ReadsKeys c rd) (k : Str)
    (s : Obj) (h : SameKeys c s) : SameKeys c (runGetter c rd k s).2 := by
  simp only [runGetter]
  cases hg : c.getter k with
  | none => exact h
  | some gt =>
    have h1 := readArgs_keys hrd gt.args s h
    dsimp only
    cases he : readArgs rd gt.args s with
    | mk r s1 =>
      rw [he] at h1
      cases r with
      | error e => exact h1
      | ok vs =>
        dsimp only
        cases gt.fn vs with
        | error e => exact h1
        | ok v => exact setData_keys h1

theorem reload_keys {c : Cls} {rd : Str → Obj → Out Val} (hrd : ReadsKeys c rd) (k : Str)
    (s : Obj) (h : SameKeys c s) : SameKeys c (reload c rd k s).2 := by
  have h1 := inputsOf_keys hrd k s h
  simp only [reload]
  cases he : inputsOf c rd k s with
  | mk r s1 =>
    rw [he] at h1
    cases r with
    | error e => exact h1
    | ok ins => exact store_keys (s := { s1 with inputs := s1.inputs.set k ins }) h1

theorem refresh_keys {c : Cls} {rd : Str → Obj → Out Val} (hrd : ReadsKeys c rd) (k : Str)
    (s : Obj) (h : SameKeys c s) : SameKeys c (refresh c rd k s).2 := by
  have h1 := inputsOf_keys hrd k s h
  simp only [refresh]
  cases he : inputsOf c rd k s with
  | mk r s1 =>
    rw [he] at h1
    cases r with
    | error e => exact h1
    | ok ins =>
      have h2 := runGetter_keys hrd k s1 h1
      dsimp only
      cases he2 : runGetter c rd k s1 with
      | mk r2 s2 =>
        rw [he2] at h2
        cases r2 with
        | error e => exact h2
        | ok u =>
          have h3 := store_keys (k := k) h2
          dsimp only at h3 ⊢
          cases he3 : store c k s2 with
          | mk r3 s3 => rw [he3] at h3; cases r3 <;> exact h3

theorem getItem_keys (c : Cls) (n : Nat) : ReadsKeys c (getItem c n) := by
  induction n with
  | zero => intro x s h; exact h
  | succ n ih =>
    intro x s h
    simp only [getItem]
    cases rawName c (unalias c x) with
    | none => exact h
    | some k =>
      dsimp only
      split
      · exact h
      · split
        · rw [through_snd]
          have h1 := isOutdated_keys ih k s h
          simp only [descGet]
          cases he : isOutdated c (getItem c n) k s with
          | mk r s1 =>
            rw [he] at h1
            cases r with
            | error e => exact h1
            | ok o =>
              dsimp only
              split
              · have h2 := refresh_keys ih k s1 h1
                cases he2 : refresh c (getItem c n) k s1 with
                | mk r2 s2 =>
                  rw [he2] at h2
                  cases r2 with
                  | error e => exact h2
                  | ok u => dsimp only; rw [validatedOf_snd]; exact h2
              · rw [validatedOf_snd]; exact h1
        · rw [through_snd]
          have h1 : SameKeys c (if c.lazy then (.ok true, s) else isOutdated c (getItem c n) (unalias c x) s : Out Bool).2 := by
            split
            · exact h
            · exact isOutdated_keys ih _ s h
          simp only [plainGet]
          cases he : (if c.lazy then (.ok true, s) else isOutdated c (getItem c n) (unalias c x) s : Out Bool) with
          | mk r s1 =>
            rw [he] at h1
            cases r with
            | error e => exact h1
            | ok o =>
              dsimp only
              split
              · have h2 := reload_keys ih (unalias c x) s1 h1
                cases he2 : reload c (getItem c n) (unalias c x) s1 with
                | mk r2 s2 =>
                  rw [he2] at h2
                  cases r2 with
                  | error e => exact h2
                  | ok u => dsimp only; rw [validatedOf_snd]; exact h2
              · rw [validatedOf_snd]; exact h1

theorem setItem_keys (c : Cls) (n : Nat) (key : Str) (v : Val) (s : Obj) (h : SameKeys c s) :
    SameKeys c (setItem c n key v s).2 := by
  simp only [setItem]
  cases rawName c key with
  | none => exact h
  | some k =>
    dsimp only
    split
    · cases op c key v with
      | error e => exact h
      | ok w =>
        simp only [descSet]
        split
        · exact h
        · have h1 := setData_keys (c := c) (k := k) (v := w) h
          cases he : setData c k w s with
          | mk r s1 =>
            rw [he] at h1
            cases r with
            | error e => exact h1
            | ok u =>
              dsimp only
              split
              · exact h1
              · exact reload_keys (getItem_keys c n) k s1 h1
    · split
      · exact h
      · cases op c key v with
        | error e => exact h
        | ok w => exact putBoth_keys h

theorem create_keys (c : Cls) (n : Nat) (data : AList Str Val) (hd : ∀ p ∈ c.deps, data.contains p.1 = true) :
    SameKeys c (create c n data).2 := by
  have h0 : SameKeys c (touched data) := by
    refine ⟨fun k => ?_, hd⟩
    simp only [touched, AList.contains, get?_map_const]
    cases data.get? k <;> rfl
  have hall : ∀ ks s, SameKeys c s → SameKeys c (readAll c n ks s).2 := by
    intro ks
    induction ks with
    | nil => intro s h; exact h
    | cons k ks ih =>
      intro s h
      have h1 := getItem_keys c n k s h
      simp only [readAll]
      cases he : getItem c n k s with
      | mk r s1 =>
        rw [he] at h1
        cases r with
        | ok v => exact ih s1 h1
        | error e => exact h1
  simp only [create]
  split
  · exact h0
  · exact hall _ _ h0

theorem run_keys (c : Cls) (n : Nat) (ops : List Op) (ho : ∀ o ∈ ops, (∃ k, o = .get k) ∨ ∃ k v, o = .set k v)
    (s : Obj) (h : SameKeys c s) : SameKeys c (run c n s ops) := by
  induction ops generalizing s with
  | nil => exact h
  | cons o ops ih =>
    refine ih (fun o h => ho o (by simp [h])) (step c n s o) ?_
    rcases ho o (by simp) with ⟨k, rfl⟩ | ⟨k, v, rfl⟩
    · exact getItem_keys c n k s h
    · exact setItem_keys c n k v s h

end Verif.Obj
