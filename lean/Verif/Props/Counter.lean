import Verif.Lemmas.Counter
/-
C23: the shared counter under every schedule.
-/
namespace Verif.Counter

/-! ### C23 -/

/-- Whatever the number of threads and the schedule, no value is returned twice. -/
theorem C23_distinct (n : Nat) (init : Int) (sched : List Nat) :
    (run (start n init) sched).returned.Nodup := by
  obtain ⟨m, _, hp⟩ := (inv_run (inv_start init n) sched).values
  have := hp.nodup_iff.2 (consecutive_nodup init m)
  exact (List.nodup_append.1 this).1

/-- When no call is in progress, the values returned are exactly as many consecutive integers from the
initial value, and the lock is free. -/
theorem C23_quiet (n : Nat) (init : Int) (sched : List Nat) (hq : Quiet (run (start n init) sched)) :
    (run (start n init) sched).returned.Perm
      (consecutive init (run (start n init) sched).returned.length) ∧
    (run (start n init) sched).lock = none := by
  have hi := inv_run (inv_start init n) sched
  obtain ⟨m, _, hp⟩ := hi.values
  constructor
  · have : inflight (run (start n init) sched).threads = [] := by
      rw [inflight, List.filterMap_eq_nil_iff]
      intro a ha; rw [hq a ha]; rfl
    rw [this, List.append_nil] at hp
    have hl := hp.length_eq
    simp only [consecutive, List.length_map, List.length_range] at hl
    rw [hl]; exact hp
  · cases h : (run (start n init) sched).lock with
    | none => rfl
    | some t =>
      obtain ⟨pc, hpc⟩ := hi.exists_holder t h
      have := (hi.holder t pc hpc).2 h
      rw [hq pc (List.mem_of_getElem? hpc)] at this; cases this

/-- At every moment the values returned lie in the interval counted so far. -/
theorem C23_range (n : Nat) (init : Int) (sched : List Nat) (v : Int)
    (hv : v ∈ (run (start n init) sched).returned) :
    init ≤ v ∧ v < (run (start n init) sched).counter := by
  obtain ⟨m, hm, hp⟩ := (inv_run (inv_start init n) sched).values
  have := hp.mem_iff.1 (List.mem_append.2 (.inl hv))
  rw [mem_consecutive] at this; omega

/-- Never a deadlock: when some thread is inside a call, some thread inside a call can take a step. -/
theorem C23_no_deadlock (n : Nat) (init : Int) (sched : List Nat)
    (hb : ¬ Quiet (run (start n init) sched)) :
    ∃ t pc s', (run (start n init) sched).threads[t]? = some pc ∧ pc ≠ .idle ∧
      step (run (start n init) sched) t = some s' := by
  have hi := inv_run (inv_start init n) sched
  generalize run (start n init) sched = s at hi hb ⊢
  cases hl : s.lock with
  | some t =>
    obtain ⟨pc, hpc⟩ := hi.exists_holder t hl
    have hin := (hi.holder t pc hpc).2 hl
    refine ⟨t, pc, ?_⟩
    cases pc with
    | idle => cases hin
    | acquire => cases hin
    | read => exact ⟨_, hpc, by simp, by simp only [step, hpc]; rfl⟩
    | write v => exact ⟨_, hpc, by simp, by simp only [step, hpc]; rfl⟩
    | release v => exact ⟨_, hpc, by simp, by simp only [step, hpc]; rfl⟩
    | ret v => cases hin
  | none =>
    have : ∃ pc ∈ s.threads, pc ≠ .idle := by
      apply Classical.byContradiction
      intro hn
      apply hb
      intro pc hpc
      apply Classical.byContradiction
      intro hne
      exact hn ⟨pc, hpc, hne⟩
    obtain ⟨pc, hpc, hne⟩ := this
    obtain ⟨t, ht⟩ := List.mem_iff_getElem?.1 hpc
    refine ⟨t, pc, ?_⟩
    cases pc with
    | idle => exact absurd rfl hne
    | acquire => exact ⟨_, ht, hne, by simp only [step, ht, hl]; rfl⟩
    | read => exact ⟨_, ht, hne, by simp only [step, ht]; rfl⟩
    | write v => exact ⟨_, ht, hne, by simp only [step, ht]; rfl⟩
    | release v => exact ⟨_, ht, hne, by simp only [step, ht]; rfl⟩
    | ret v => exact ⟨_, ht, hne, by simp only [step, ht]; rfl⟩

/-- Numbers grow in real time: a call begun after another one returned gets a larger number. -/
theorem C23_real_time (n : Nat) (init : Int) (before after : List Nat) (t : Nat) (v w : Int)
    (hidle : (run (start n init) before).threads[t]? = some .idle)
    (hv : v ∈ (run (start n init) before).returned)
    (hw : (run (start n init) (before ++ after)).threads[t]? = some (.ret w)) : v < w := by
  have hi := inv_run (inv_start init n) before
  have ha : After (run (start n init) before).counter t (run (start n init) before) := by
    refine ⟨Int.le_refl _, ?_⟩
    intro v hv; rw [hidle] at hv; simp at hv
  have := after_run hi ha after
  have e : run (start n init) (before ++ after) = run (run (start n init) before) after := by
    simp [run]
  rw [e] at hw
  have h1 := this.mine w (.inr hw)
  have h2 := (C23_range n init before v hv).2
  omega

/-- Two threads whose steps interleave: both get through, with different numbers. -/
example : let s := run (start 2 1) [0, 1, 0, 1, 0, 0, 0, 1, 1, 1, 1, 1, 0];
    s.returned = [2, 1] ∧ s.threads = [.idle, .idle] ∧ s.lock = none ∧ s.counter = 3 := by
  decide +kernel

end Verif.Counter
