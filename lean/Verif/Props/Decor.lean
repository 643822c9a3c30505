import Verif.Lemmas.Decor
/-
C31 take_arrays; C32 memoized_property; C85 assert_arg; C86 assert_prop; C87 memoized_method.
-/
namespace Verif.Decor

/-! ### C31 -/

/-- A list for the lifted argument, no second lifted argument: the list of the results on each element,
in order, each call made once. -/
theorem C31_elementwise {α ρ : Type} (f : List (Arg α) → Res ρ) (iter : ρ → Option (List ρ)) (n1 : Nat)
    (args : List (Arg α)) (l : List (Arg α)) (rs : List ρ) (h : args[n1]? = some (.seq l))
    (hf : Results f (l.map (fun v => args.set n1 v)) rs) :
    takeArrays f iter n1 none false args = (l.map (fun v => args.set n1 v), .ok (.many rs)) := by
  simp [takeArrays, h, callAll_ok f _ rs hf, finish]

/-- The same with flattening: the results, which are lists, are put end to end. -/
theorem C31_flatten {α ρ : Type} (f : List (Arg α) → Res ρ) (iter : ρ → Option (List ρ)) (n1 : Nat)
    (args : List (Arg α)) (l : List (Arg α)) (rs : List ρ) (lists : List (List ρ))
    (h : args[n1]? = some (.seq l)) (hf : Results f (l.map (fun v => args.set n1 v)) rs)
    (hi : rs.mapM iter = some lists) :
    takeArrays f iter n1 none true args =
      (l.map (fun v => args.set n1 v), .ok (.many lists.flatten)) := by
  simp [takeArrays, h, callAll_ok f _ rs hf, finish, hi]

/-- Two lists of the same length: element by element. -/
theorem C31_zipped {α ρ : Type} (f : List (Arg α) → Res ρ) (iter : ρ → Option (List ρ)) (n1 n2 : Nat)
    (args : List (Arg α)) (l1 l2 : List (Arg α)) (rs : List ρ) (h1 : args[n1]? = some (.seq l1))
    (h2 : args[n2]? = some (.seq l2)) (hlen : l1.length = l2.length) (hne : l2.length ≠ 1)
    (hf : Results f ((l1.zip l2).map (fun v => (args.set n1 v.1).set n2 v.2)) rs) :
    takeArrays f iter n1 (some n2) false args =
      ((l1.zip l2).map (fun v => (args.set n1 v.1).set n2 v.2), .ok (.many rs)) := by
  simp [takeArrays, h1, h2, hlen, hne, callAll_ok f _ rs hf, finish]

/-- A second argument that is a scalar, or a list of one element, is passed as it is to every call. -/
theorem C31_broadcast {α ρ : Type} (f : List (Arg α) → Res ρ) (iter : ρ → Option (List ρ)) (n1 n2 : Nat)
    (args : List (Arg α)) (l1 : List (Arg α)) (second : Arg α) (rs : List ρ)
    (h1 : args[n1]? = some (.seq l1)) (h2 : args[n2]? = some second)
    (hs : (∃ a, second = .scalar a) ∨ ∃ a, second = .seq [a])
    (hf : Results f (l1.map (fun v => args.set n1 v)) rs) :
    takeArrays f iter n1 (some n2) false args =
      (l1.map (fun v => args.set n1 v), .ok (.many rs)) := by
  rcases hs with ⟨a, rfl⟩ | ⟨a, rfl⟩ <;>
    simp [takeArrays, h1, h2, callAll_ok f _ rs hf, finish]

/-- Two lists of different lengths, the second not of length one: refused, and the function is not
called. -/
theorem C31_mismatch {α ρ : Type} (f : List (Arg α) → Res ρ) (iter : ρ → Option (List ρ)) (n1 n2 : Nat)
    (flatten : Bool) (args : List (Arg α)) (l1 l2 : List (Arg α)) (h1 : args[n1]? = some (.seq l1))
    (h2 : args[n2]? = some (.seq l2)) (hlen : l1.length ≠ l2.length) (hne : l2.length ≠ 1) :
    takeArrays f iter n1 (some n2) flatten args = ([], .error .invalidValue) := by
  simp [takeArrays, h1, h2, hlen, hne]

/-- A scalar: the call goes through unchanged, whatever the second argument. -/
theorem C31_scalar {α ρ : Type} (f : List (Arg α) → Res ρ) (iter : ρ → Option (List ρ)) (n1 : Nat)
    (n2 : Option Nat) (flatten : Bool) (args : List (Arg α)) (a : α) (h : args[n1]? = some (.scalar a)) :
    (takeArrays f iter n1 n2 flatten args).1 = [args] ∧
    (takeArrays f iter n1 n2 flatten args).2 = (match f args with
      | .ok r => .ok (.single r)
      | .error e => .error e) := by
  simp only [takeArrays, h]
  cases f args <;> simp

/-- An exception on one element escapes, and later elements are not tried. -/
theorem C31_exception {α ρ : Type} (f : List (Arg α) → Res ρ) (iter : ρ → Option (List ρ)) (n1 : Nat)
    (flatten : Bool) (args : List (Arg α)) (before after : List (Arg α)) (v : Arg α) (rs : List ρ)
    (e : Exc) (h : args[n1]? = some (.seq (before ++ v :: after)))
    (hb : Results f (before.map (fun v => args.set n1 v)) rs) (hv : f (args.set n1 v) = .error e) :
    takeArrays f iter n1 none flatten args =
      (before.map (fun v => args.set n1 v) ++ [args.set n1 v], .error e) := by
  simp only [takeArrays, h, List.map_append, List.map_cons]
  rw [callAll_fail f _ rs hb _ e hv]
  rfl

example : takeArrays (α := Nat) (ρ := Nat)
    (fun args => match args with | [.scalar a, .scalar b] => .ok (a + b) | _ => .error .typeError)
    (fun _ => none) 0 (some 1) false
    [.seq [.scalar 1, .scalar 2], .seq [.scalar 10, .scalar 20]] =
      ([[.scalar 1, .scalar 10], [.scalar 2, .scalar 20]], .ok (.many [11, 22])) := rfl

/-! ### C32 -/

/-- Between two resets all reads return the value of the first, and the getter runs no more. -/
theorem C32_stable {σ ρ : Type} (fget : σ → Res ρ × σ) (m : Memo σ ρ) (v : ρ) (ops : List (MemoOp σ))
    (hr : (m.read fget).1 = .ok v) (hn : NoReset ops) :
    (∀ r ∈ ((m.read fget).2.run fget ops).1, r = .ok v) ∧
    ((m.read fget).2.run fget ops).2.calls = (m.read fget).2.calls := by
  have hc : (m.read fget).2.cache = some v := by
    unfold Memo.read at hr ⊢
    split
    · rename_i h; rw [h] at hr; simp at hr; rw [h, hr]
    · rename_i h; rw [h] at hr; simp only at hr
      cases hf : fget m.env with
      | mk a env =>
        rw [hf] at hr
        cases a with
        | ok r => simp at hr; simp [hr]
        | error e => simp at hr
  have := run_cached fget ops hn _ v hc
  exact ⟨this.1, this.2.2⟩

/-- Over any history the getter (when it does not raise) runs once per run of reads between resets. -/
theorem C32_runs_once {σ ρ : Type} (fget : σ → Res ρ × σ) (hok : ∀ s, ∃ r, (fget s).1 = .ok r)
    (ops : List (MemoOp σ)) (env : σ) :
    ((⟨none, env, 0⟩ : Memo σ ρ).run fget ops).2.calls = runsOfReads false ops := by
  simpa using run_calls fget hok ops ⟨none, env, 0⟩

/-- After a reset the next read runs the getter on the state at that time. -/
theorem C32_fresh_after_reset {σ ρ : Type} (fget : σ → Res ρ × σ) (m : Memo σ ρ) :
    (m.reset.read fget).1 = (fget m.env).1 ∧ (m.reset.read fget).2.calls = m.calls + 1 := by
  simp only [Memo.reset, Memo.read]
  cases hf : fget m.env with
  | mk a env => cases a <;> simp

example : ((⟨none, 0, 0⟩ : Memo Nat Nat).run (fun s => (.ok s, s + 10))
    [.read, .change (· + 1), .read, .reset, .read]).1 = [.ok 0, .ok 0, .ok 11] := by decide +kernel

/-! ### C85 -/

/-- A refused value is told as such by the library of classes (its ValidationError); other errors pass. -/
def told (e : Exc) : Exc := if e = .invalidValue then .user 1 else e

theorem told_eq (e : Exc) :
    (if e = pjoValidationError ∨ e = .invalidValue then pjoValidationError else e) = told e := by
  unfold told pjoValidationError
  by_cases h1 : e = .invalidValue
  · simp [h1]
  · by_cases h2 : e = .user 1
    · simp [h2]
    · simp [h1, h2]

/-- The full statement: the declared argument, passed by position or by name, reaches the body converted
and validated, and a value that is refused stops the call. -/
def AssertArgStatement (inst : Option Bool) : Prop :=
  ∀ (i : Nat) (name : Nat) (validator : Nat → Res Nat) (c : Call Nat Nat),
    (inst.isSome = true → 1 ≤ i) →
    (∀ v, AList.get? c.kwargs name = some v →
      (∀ w, validator v = .ok w → assertArg (some i) name validator inst true c =
        .ok ⟨c.args, AList.set c.kwargs name w⟩) ∧
      (∀ e, validator v = .error e → assertArg (some i) name validator inst true c = .error (told e))) ∧
    (∀ v, AList.get? c.kwargs name = none → c.args[position inst.isSome i]? = some v →
      (∀ w, validator v = .ok w → assertArg (some i) name validator inst true c =
        .ok ⟨c.args.set (position inst.isSome i) w, c.kwargs⟩) ∧
      (∀ e, validator v = .error e → assertArg (some i) name validator inst true c = .error (told e)))

/-- It holds for plain functions. -/
theorem C85_function_partial : AssertArgStatement none := by
  intro i name validator c hi
  refine ⟨?_, ?_⟩
  · intro v hv
    refine ⟨fun w hw => by simp [assertArg, hv, hw], fun e he => by simp only [assertArg, hv, he, ← told_eq]; rfl⟩
  · intro v hk hv
    simp only [Option.isSome_none, position, Bool.false_eq_true, if_false] at hv ⊢
    obtain ⟨hlt, rfl⟩ := List.getElem?_eq_some_iff.1 hv
    refine ⟨fun w hw => by simp [assertArg, hk, hlt, hw],
      fun e he => by simp [assertArg, hk, hlt, he, told_eq]⟩

/-- It holds for methods of an instance that counts as true. -/
theorem C85_method_partial : AssertArgStatement (some true) := by
  intro i name validator c hi
  have hi := hi rfl
  refine ⟨?_, ?_⟩
  · intro v hv
    refine ⟨fun w hw => by simp [assertArg, hv, hw], fun e he => by simp only [assertArg, hv, he, ← told_eq]; rfl⟩
  · intro v hk hv
    simp only [Option.isSome_some, position, if_true] at hv ⊢
    obtain ⟨hlt, rfl⟩ := List.getElem?_eq_some_iff.1 hv
    have h1 : (i : Int) - 1 < c.args.length := by omega
    have h2 : (1 : Int) ≤ (i : Int) := by omega
    have h3 : ((i : Int) - 1).toNat = i - 1 := by omega
    refine ⟨fun w hw => by simp [assertArg, hk, h1, h2, h3, hlt, hw],
      fun e he => by simp [assertArg, hk, h1, h2, h3, hlt, he, told_eq]⟩

/-- It fails for methods of an instance that counts as false (an empty collection, say): the argument
is not looked at. -/
theorem C85_empty_instance_violated : ¬ AssertArgStatement (some false) := by
  intro h
  have he := ((h 1 0 (fun _ => .error .invalidValue) ⟨[7], []⟩ (by decide)).2 7 rfl rfl).2 _ rfl
  have hc : assertArg (some 1) 0 (fun _ => .error .invalidValue) (some false) true ⟨[7], []⟩ =
      .ok (⟨[7], []⟩ : Call Nat Nat) := by decide +kernel
  rw [hc] at he; cases he

/-- With `assert_args=False` the call goes through unchanged. -/
theorem C85_switched_off {κ υ : Type} [DecidableEq κ] (i : Option Nat) (name : κ)
    (validator : υ → Res υ) (inst : Option Bool) (c : Call κ υ) :
    assertArg i name validator inst false c = .ok c := rfl

example : assertArg (some 1) 0 (fun (v : Nat) => .ok (v + 1)) (some true) true ⟨[7, 8], [(3, 4)]⟩ =
    .ok ⟨[8, 8], [(3, 4)]⟩ := by decide +kernel

/-! ### C86 -/

/-- The call goes through exactly when every listed property is defined; otherwise AttributeError. -/
theorem C86_assert_prop {υ : Type} (attr : Nat → Option υ) (props : List Nat) :
    (assertProp attr props = .ok () ↔ ∀ p ∈ props, attr p ≠ none) ∧
    (assertProp attr props = .error .attributeError ↔ ∃ p ∈ props, attr p = none) := by
  induction props with
  | nil => simp [assertProp]
  | cons p ps ih =>
    rw [assertProp]
    cases h : attr p with
    | none => simp [h]
    | some v => simp [h, ih.1, ih.2]

example : assertProp (fun p => if p = 2 then none else some p) [1, 2, 3] = .error .attributeError := by
  decide +kernel

/-! ### C87 -/

/-- Any number of calls on any instances: each returns what the method returns for that instance and
those arguments (for a method whose result depends on nothing else). -/
theorem C87_transparent {ι κ ρ : Type} [DecidableEq ι] [DecidableEq κ] (cap : Option Nat)
    (f : ι → κ → Res ρ) (history : List (ι × κ)) (self : ι) (k : κ) :
    (memoCall cap f (history.foldl (fun c ik => (memoCall cap f c ik.1 ik.2).2.2) (fun _ => none))
      self k).1 = f self k := by
  have hs : ∀ (h : List (ι × κ)) (c0 : ι → Option (Lru κ ρ)),
      (∀ i c, c0 i = some c → c.Sound (f i)) →
      ∀ i c, (h.foldl (fun c ik => (memoCall cap f c ik.1 ik.2).2.2) c0) i = some c → c.Sound (f i) := by
    intro h
    induction h with
    | nil => intro c0 h0; exact h0
    | cons ik h ih =>
      intro c0 h0
      rw [List.foldl_cons]
      apply ih
      intro i c hc
      simp only [memoCall] at hc
      split at hc
      · rename_i hi; subst hi
        simp only [Option.some.injEq] at hc
        subst hc
        refine (Lru.call_sound ?_ ik.2).2
        cases hc0 : c0 ik.1 with
        | none => intro kr hkr; simp at hkr
        | some c' => exact h0 _ _ hc0
      · exact h0 i c hc
  have := hs history (fun _ => none) (by simp) self
  generalize history.foldl (fun c ik => (memoCall cap f c ik.1 ik.2).2.2) (fun _ => none) = G at this ⊢
  simp only [memoCall]
  refine (Lru.call_sound ?_ k).1
  cases hc : G self with
  | none => intro kr hkr; simp at hkr
  | some c => exact this c hc

/-- Calls on one instance never touch the cache of another. -/
theorem C87_separate {ι κ ρ : Type} [DecidableEq ι] [DecidableEq κ] (cap : Option Nat)
    (f : ι → κ → Res ρ) (caches : ι → Option (Lru κ ρ)) (self other : ι) (k : κ) (h : other ≠ self) :
    (memoCall cap f caches self k).2.2 other = caches other := by
  simp [memoCall, h]

/-- A failure is not remembered: the method runs again at each call, and the cache is left as it was. -/
theorem C87_failures_run_again {ι κ ρ : Type} [DecidableEq ι] [DecidableEq κ] (cap : Option Nat)
    (f : ι → κ → Res ρ) (history : List (ι × κ)) (self : ι) (k : κ) (e : Exc) (h : f self k = .error e) :
    (memoCall cap f (history.foldl (fun c ik => (memoCall cap f c ik.1 ik.2).2.2) (fun _ => none))
      self k).1 = .error e ∧
    (memoCall cap f (history.foldl (fun c ik => (memoCall cap f c ik.1 ik.2).2.2) (fun _ => none))
      self k).2.1 = true := by
  have h1 := (C87_transparent cap f history self k).trans h
  refine ⟨h1, ?_⟩
  generalize history.foldl (fun c ik => (memoCall cap f c ik.1 ik.2).2.2) (fun _ => none) = c at h1
  simp only [memoCall] at h1 ⊢
  unfold Lru.call at h1 ⊢
  cases hg : AList.get? ((c self).getD ⟨cap, []⟩).entries k with
  | some r => rw [hg] at h1; simp at h1
  | none => simp [h]

/-- A value just returned is still held, without running the method again, after any calls with fewer
than `maxsize` other arguments (no bound: after any calls). -/
theorem C87_remembered {κ ρ : Type} [DecidableEq κ] (f : κ → Res ρ) (c : Lru κ ρ)
    (wf : (c.entries.map Prod.fst).Nodup) (hpos : c.cap ≠ some 0) (k : κ) (v : ρ)
    (hk : (c.call f k).1 = .ok v) (others : List κ) (calls : List κ)
    (hc : ∀ j ∈ calls, j = k ∨ j ∈ others) (hcap : ∀ n, c.cap = some n → others.length < n) :
    ((calls.foldl (fun c j => (c.call f j).2.2) (c.call f k).2.2).call f k).1 = .ok v ∧
    ((calls.foldl (fun c j => (c.call f j).2.2) (c.call f k).2.2).call f k).2.1 = false := by
  have h0 : ((c.call f k).2.2).Recent k v others := by
    unfold Lru.call at hk ⊢
    cases hg : AList.get? c.entries k with
    | some r =>
      rw [hg] at hk; simp at hk; subst hk
      refine ⟨?_, [], _, rfl, by simp⟩
      simp only [AList.WF, AList.keys, List.map_cons, List.nodup_cons]
      refine ⟨?_, AList.wf_erase wf k⟩
      intro hm
      have : k ∈ AList.keys (AList.erase c.entries k) := hm
      rw [AList.keys_erase] at this
      simp at this
    | none =>
      rw [hg] at hk
      have hkn : k ∉ AList.keys c.entries := AList.get?_eq_none.1 hg
      have hwf : AList.WF ((k, v) :: c.entries) := by
        simp only [AList.WF, AList.keys, List.map_cons, List.nodup_cons]
        exact ⟨hkn, wf⟩
      cases hf : f k with
      | error e => rw [hf] at hk; simp at hk
      | ok r =>
        rw [hf] at hk; simp at hk; subst hk
        simp only
        cases hcp : c.cap with
        | none => exact ⟨hwf, [], _, rfl, by simp⟩
        | some n =>
          cases n with
          | zero => exact absurd hcp hpos
          | succ n =>
            refine ⟨?_, [], c.entries.take n, rfl, by simp⟩
            simp only [AList.WF, AList.keys]
            rw [List.map_take]
            exact List.Nodup.sublist (List.take_sublist _ _) hwf
  have hcap0 : (c.call f k).2.2.cap = c.cap := Lru.call_cap f c k
  have key : ∀ (calls : List κ), (∀ j ∈ calls, j = k ∨ j ∈ others) → ∀ c0 : Lru κ ρ,
      c0.cap = c.cap → c0.Recent k v others →
      (calls.foldl (fun c j => (c.call f j).2.2) c0).Recent k v others := by
    intro calls
    induction calls with
    | nil => intro _ c0 _ h; exact h
    | cons j calls ih =>
      intro hj c0 hcp h
      rw [List.foldl_cons]
      exact ih (fun i hi => hj i (by simp [hi])) _ (by rw [Lru.call_cap, hcp])
        (Lru.call_recent h j others (hj j (by simp)) (fun x hx => hx) (fun n hn => hcap n (hcp ▸ hn)))
  obtain ⟨hwf, a, b, e, _⟩ := key calls hc _ hcap0 h0
  have hg : AList.get? (calls.foldl (fun c j => (c.call f j).2.2) (c.call f k).2.2).entries k = some v :=
    AList.get?_of_mem hwf (by rw [e]; simp)
  generalize calls.foldl (fun c j => (c.call f j).2.2) (c.call f k).2.2 = c1 at hg ⊢
  simp [Lru.call, hg]

example : let f : Nat → Res Nat := fun k => .ok (k * k);
    let c : Lru Nat Nat := ⟨some 2, []⟩;
    let c1 := (c.call f 3).2.2;
    let c2 := (c1.call f 4).2.2;
    (c2.call f 3).2.1 = false ∧ ((c2.call f 5).2.2.call f 3).2.1 = true := by decide +kernel

end Verif.Decor
