import Verif.Spec.Living
/-
C361.
-/
namespace Verif.Living
open Living.Spec

/-- Numbers are positive and below the next one; nobody holds the number of a session, or that of another thread. -/
structure Inv {σ : Type} (s : St σ) : Prop where
  pos : 0 < s.next
  held : ∀ t n, s.held t = some n → 0 < n ∧ n < s.next ∧ AList.get? s.alive n = none
  alive : ∀ n o, AList.get? s.alive n = some o → 0 < n ∧ n < s.next
  apart : ∀ t t' n, s.held t = some n → s.held t' = some n → t = t'
  wf : AList.WF s.alive

theorem inv_start {σ : Type} : Inv (start : St σ) :=
  ⟨Nat.one_pos, by simp [start], by simp [start, AList.get?], by simp [start], by simp [start, AList.WF, AList.keys]⟩

theorem wf_erase {κ υ : Type} [DecidableEq κ] {d : AList κ υ} (h : AList.WF d) (k : κ) : AList.WF (AList.erase d k) := by
  unfold AList.WF AList.keys at *
  induction d with
  | nil => simpa [AList.erase] using h
  | cons p d ih =>
    simp only [List.map_cons, List.nodup_cons] at h
    have hs : ∀ x, x ∈ (AList.erase d k).map Prod.fst → x ∈ d.map Prod.fst := by
      intro x hx
      have h1 := AList.get?_isSome.mpr (show x ∈ AList.keys (AList.erase d k) from hx)
      rw [AList.get?_erase] at h1
      split at h1
      · simp at h1
      · exact AList.get?_isSome.mp h1
    unfold AList.erase at *
    grind

theorem inv_step {σ : Type} {s : St σ} (h : Inv s) (e : Step σ) : Inv (step s e) := by
  cases e with
  | take t =>
    refine ⟨Nat.succ_pos _, ?_, ?_, ?_, h.wf⟩
    · intro t' n hn
      simp only [step] at hn ⊢
      split at hn
      · cases hn
        refine ⟨h.pos, by omega, ?_⟩
        cases ha : AList.get? s.alive s.next with
        | none => rfl
        | some o => have := (h.alive _ _ ha).2; omega
      · obtain ⟨a, b, c⟩ := h.held _ _ hn
        exact ⟨a, by omega, c⟩
    · intro n o hn
      obtain ⟨a, b⟩ := h.alive n o hn
      exact ⟨a, by simp only [step]; omega⟩
    · intro t1 t2 n h1 h2
      simp only [step] at h1 h2
      split at h1 <;> split at h2
      · simp_all
      · cases h1
        have := (h.held _ _ h2).2.1
        omega
      · cases h2
        have := (h.held _ _ h1).2.1
        omega
      · exact h.apart _ _ _ h1 h2
  | put t o =>
    cases ht : s.held t with
    | none => simpa [step, ht] using h
    | some n =>
      simp only [step, ht]
      obtain ⟨a, b, c⟩ := h.held _ _ ht
      refine ⟨h.pos, ?_, ?_, ?_, AList.wf_set h.wf _ _⟩
      · intro t' m hm
        dsimp only at hm ⊢
        split at hm
        · cases hm
        next hne =>
          obtain ⟨a', b', c'⟩ := h.held _ _ hm
          refine ⟨a', b', ?_⟩
          rw [AList.get?_set, if_neg, c']
          rintro rfl
          exact hne (h.apart _ _ _ hm ht)
      · intro m x hm
        dsimp only at hm ⊢
        rw [AList.get?_set] at hm
        split at hm
        next he => subst he; exact ⟨a, b⟩
        · exact h.alive _ _ hm
      · intro t1 t2 m h1 h2
        dsimp only at h1 h2
        split at h1
        · cases h1
        · split at h2
          · cases h2
          · exact h.apart _ _ _ h1 h2
  | collect n =>
    refine ⟨h.pos, ?_, ?_, h.apart, wf_erase h.wf n⟩
    · intro t m hm
      obtain ⟨a, b, c⟩ := h.held _ _ hm
      refine ⟨a, b, ?_⟩
      simp only [step, AList.get?_erase, c, ite_self]
    · intro m o hm
      simp only [step, AList.get?_erase] at hm
      split at hm
      · cases hm
      · exact h.alive _ _ hm

theorem inv_run {σ : Type} (l : List (Step σ)) : {s : St σ} → Inv s → Inv (run s l) := by
  induction l with
  | nil => exact id
  | cons e l ih => intro s h; exact ih (inv_step h e)

theorem run_append {σ : Type} (s : St σ) (a b : List (Step σ)) : run s (a ++ b) = run (run s a) b := by
  simp [run]

/-- Nothing but collecting it takes the session away from a number. -/
theorem kept_run {σ : Type} (n : Nat) (o : σ) (l : List (Step σ)) : {s : St σ} → Inv s →
    AList.get? s.alive n = some o → ¬ Collected n l → AList.get? (run s l).alive n = some o := by
  induction l with
  | nil => intro s _ h _; exact h
  | cons e l ih =>
    intro s hi h hc
    refine ih (inv_step hi e) ?_ (fun ⟨x, hx, he⟩ => hc ⟨x, by simp [hx], he⟩)
    cases e with
    | take t => exact h
    | put t x =>
      cases ht : s.held t with
      | none => simpa [step, ht] using h
      | some m =>
        simp only [step, ht, AList.get?_set]
        rw [if_neg, h]
        rintro rfl
        rw [(hi.held _ _ ht).2.2] at h
        cases h
    | collect m =>
      simp only [step, AList.get?_erase]
      rw [if_neg, h]
      rintro rfl
      exact hc ⟨_, by simp, rfl⟩

/-- A number that was given out, that nobody holds and under which there is no session, stays so. -/
theorem gone_run {σ : Type} (n : Nat) (l : List (Step σ)) : {s : St σ} → n < s.next → (∀ t, s.held t ≠ some n) →
    AList.get? s.alive n = none → AList.get? (run s l).alive n = none := by
  induction l with
  | nil => intro s _ _ h; exact h
  | cons e l ih =>
    intro s hn hh h
    cases e with
    | take t =>
      refine ih (s := step s (.take t)) (by simp only [step]; omega) (fun t' => ?_) h
      simp only [step]
      split
      · simp; omega
      · exact hh t'
    | put t x =>
      cases ht : s.held t with
      | none =>
        have : step s (.put t x) = s := by simp [step, ht]
        show AList.get? (run (step s (.put t x)) l).alive n = none
        rw [this]
        exact ih hn hh h
      | some m =>
        refine ih (s := step s (.put t x)) (by simp only [step, ht]; exact hn) (fun t' => ?_) ?_
        · simp only [step, ht]
          split
          · simp
          · exact hh t'
        · simp only [step, ht, AList.get?_set]
          rw [if_neg, h]
          rintro rfl
          exact hh t ht
    | collect m =>
      refine ih (s := step s (.collect m)) hn hh ?_
      simp only [step, AList.get?_erase, h, ite_self]

/-- In any interleaving of any threads, a session is found by the number its thread took for it, as long as it is not
collected. -/
theorem C361_found {σ : Type} (before after : List (Step σ)) (t n : Nat) (o : σ)
    (ht : (run start before).held t = some n) (hc : ¬ Collected n after) :
    stateSession (run start (before ++ .put t o :: after)) (some n) = some o := by
  have hi := inv_run before (inv_start (σ := σ))
  obtain ⟨a, -, -⟩ := hi.held _ _ ht
  rw [run_append]
  show stateSession (run (step (run start before) (.put t o)) after) (some n) = some o
  have := kept_run n o after (inv_step hi (.put t o)) (by simp [step, ht, AList.get?_set]) hc
  cases n with
  | zero => omega
  | succ n => exact this

/-- Once it is collected, no session is ever found under its number again. -/
theorem C361_gone {σ : Type} (before after : List (Step σ)) (n : Nat)
    (h : ∃ o, stateSession (run start before) (some n) = some o) :
    stateSession (run start (before ++ .collect n :: after)) (some n) = none := by
  have hi := inv_run before (inv_start (σ := σ))
  obtain ⟨o, ho⟩ := h
  have ha : AList.get? (run start before).alive n = some o := by
    cases n with
    | zero => cases ho
    | succ n => exact ho
  rw [run_append]
  show stateSession (run (step (run start before) (.collect n)) after) (some n) = none
  have := gone_run n after (s := step (run start before) (.collect n)) (hi.alive _ _ ha).2
    (fun t ht => by rw [(hi.held _ _ ht).2.2] at ha; cases ha)
    (by simp [step, AList.get?_erase])
  cases n with
  | zero => rfl
  | succ n => exact this

/-- Two threads that make sessions at the same time hold different numbers, under which there is no other session. -/
theorem C361_apart {σ : Type} (l : List (Step σ)) (t t' n n' : Nat) (ht : (run (start : St σ) l).held t = some n)
    (ht' : (run (start : St σ) l).held t' = some n') (hne : t ≠ t') :
    n ≠ n' ∧ stateSession (run (start : St σ) l) (some n) = none := by
  have hi := inv_run l (inv_start (σ := σ))
  refine ⟨fun h => hne (hi.apart _ _ _ ht (h ▸ ht')), ?_⟩
  cases n with
  | zero => rfl
  | succ n => exact (hi.held _ _ ht).2.2

/-- Closing all closes each living session once, under the number it is found by. -/
theorem C361_close {σ : Type} (l : List (Step σ)) : ∃ ns : List Nat, ns.Nodup ∧
    (closeAll (run (start : St σ) l)).map some = ns.map (fun n => stateSession (run start l) (some n))
    ∧ ∀ n o, stateSession (run (start : St σ) l) (some n) = some o → n ∈ ns := by
  have hi := inv_run l (inv_start (σ := σ))
  refine ⟨(run start l).alive.map Prod.fst, hi.wf, ?_, fun n o h => ?_⟩
  · simp only [closeAll, List.map_map]
    apply List.map_congr_left
    intro p hp
    have := AList.get?_of_mem hi.wf hp
    have h0 := (hi.alive _ _ this).1
    obtain ⟨n, o⟩ := p
    cases n with
    | zero => exact absurd h0 (Nat.lt_irrefl _)
    | succ n => exact this.symm
  · cases n with
    | zero => cases h
    | succ n => exact AList.get?_isSome.mp (by rw [show AList.get? _ _ = _ from h]; rfl)

/-- Two threads make sessions 'a' and 'b' at the same time; 'a' is collected, and 'c' made. -/
def threads : List (Step Char) := [.take 0, .take 1, .put 1 'b', .put 0 'a', .collect 1, .take 0, .put 0 'c']

example : (run (start : St Char) [.take 0, .take 1]).held 0 = some 1 ∧ ¬ Collected 2 (threads.drop 3)
    ∧ stateSession (run start threads) (some 1) = none ∧ stateSession (run start threads) (some 2) = some 'b'
    ∧ stateSession (run start threads) (some 3) = some 'c' ∧ stateSession (run start threads) none = none
    ∧ stateSession (run start (threads.take 4)) (some 1) = some 'a'
    ∧ closeAll (run start threads) = ['b', 'c'] := by
  refine ⟨rfl, ?_, rfl, rfl, rfl, rfl, rfl, rfl⟩
  rintro ⟨e, he, rfl⟩
  simp [threads] at he

end Verif.Living
