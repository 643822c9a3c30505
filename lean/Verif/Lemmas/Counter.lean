import Verif.Spec.Counter
/-
Helper lemmas for C23.
-/
namespace Verif.Counter

/-- The value a thread holds and has not returned yet. -/
def PC.value : PC → Option Int
  | .release v => some v
  | .ret v => some v
  | _ => none

/-- The thread is inside the locked region. -/
def PC.inside : PC → Bool
  | .read => true
  | .write _ => true
  | .release _ => true
  | _ => false

def inflight (l : List PC) : List Int := l.filterMap PC.value

theorem inflight_mid (l1 l2 : List PC) (pc : PC) :
    inflight (l1 ++ pc :: l2) = inflight l1 ++ (pc.value.toList ++ inflight l2) := by
  simp only [inflight, List.filterMap_append, List.filterMap_cons]
  cases pc.value <;> simp

theorem set_split {α} {l : List α} {i : Nat} {a : α} (h : l[i]? = some a) :
    ∃ l1 l2, l = l1 ++ a :: l2 ∧ l1.length = i ∧ ∀ b, l.set i b = l1 ++ b :: l2 := by
  obtain ⟨hi, rfl⟩ := List.getElem?_eq_some_iff.1 h
  refine ⟨l.take i, l.drop (i + 1), ?_, by simp; omega, ?_⟩
  · rw [← List.drop_eq_getElem_cons hi, List.take_append_drop]
  · intro b; rw [List.set_eq_take_append_cons_drop, if_pos hi]

structure Inv (init : Int) (n : Nat) (s : State) : Prop where
  len : s.threads.length = n
  holder : ∀ t pc, s.threads[t]? = some pc → (pc.inside = true ↔ s.lock = some t)
  exists_holder : ∀ t, s.lock = some t → ∃ pc, s.threads[t]? = some pc
  writing : ∀ v, .write v ∈ s.threads → v = s.counter
  values : ∃ m : Nat, s.counter = init + m ∧
    (s.returned ++ inflight s.threads).Perm (consecutive init m)

theorem consecutive_succ (a : Int) (n : Nat) :
    consecutive a (n + 1) = consecutive a n ++ [a + n] := by
  simp [consecutive, List.range_succ]

theorem consecutive_nodup (a : Int) (n : Nat) : (consecutive a n).Nodup := by
  rw [consecutive, List.Nodup, List.pairwise_map]
  exact List.nodup_range.imp (fun h e => h (by omega))

theorem mem_consecutive {a x : Int} {n : Nat} : x ∈ consecutive a n ↔ a ≤ x ∧ x < a + n := by
  simp only [consecutive, List.mem_map, List.mem_range]
  constructor
  · rintro ⟨i, hi, rfl⟩; omega
  · intro h; exact ⟨(x - a).toNat, by omega, by omega⟩

theorem inv_start (init : Int) (n : Nat) : Inv init n (start n init) := by
  refine ⟨by simp [start], ?_, by simp [start], by simp [start], ⟨0, by simp [start], ?_⟩⟩
  · intro t pc h
    simp only [start] at h ⊢
    have := List.mem_of_getElem? h
    rw [List.eq_of_mem_replicate this]
    simp [PC.inside]
  · have : inflight (List.replicate n PC.idle) = [] := by
      rw [inflight, List.filterMap_eq_nil_iff]
      intro a ha; rw [List.eq_of_mem_replicate ha]; rfl
    simp [start, this, consecutive]

theorem inv_step {init : Int} {n : Nat} {s s' : State} {t : Nat} (hi : Inv init n s)
    (h : step s t = some s') : Inv init n s' := by
  obtain ⟨hlen, hh, hex, hw, m, hm, hp⟩ := hi
  unfold step at h
  split at h
  · cases h
  · -- idle
    rename_i hpc
    obtain ⟨l1, l2, e, hl, hset⟩ := set_split hpc
    cases h
    refine ⟨by simp [hlen], ?_, ?_, ?_, m, hm, ?_⟩
    · intro u pc hu
      rw [List.getElem?_set] at hu
      have := hh t _ hpc
      split at hu
      · split at hu
        · cases hu; subst_vars; simpa [PC.inside] using this
        · cases hu
      · exact hh u pc hu
    · intro u hu
      obtain ⟨pc, hpc'⟩ := hex u hu
      obtain ⟨hlt, _⟩ := List.getElem?_eq_some_iff.1 hpc'
      exact ⟨_, List.getElem?_eq_getElem (by simpa using hlt)⟩
    · intro v hv
      simp only [hset, List.mem_append, List.mem_cons] at hv
      apply hw; rw [e]; simp only [List.mem_append, List.mem_cons]
      rcases hv with hv | hv | hv
      · exact .inl hv
      · cases hv
      · exact .inr (.inr hv)
    · rw [e, inflight_mid] at hp; simpa only [hset, inflight_mid, PC.value] using hp
  · -- acquire
    rename_i hpc
    obtain ⟨l1, l2, e, hl, hset⟩ := set_split hpc
    split at h
    · cases h
    · rename_i hlock
      cases h
      refine ⟨by simp [hlen], ?_, ?_, ?_, m, hm, ?_⟩
      · intro u pc hu
        rw [List.getElem?_set] at hu
        split at hu
        · split at hu
          · cases hu; subst_vars; simp [PC.inside]
          · cases hu
        · rename_i hne
          have := hh u pc hu
          rw [hlock] at this
          constructor
          · intro h'; have := this.1 h'; cases this
          · intro h'; simp at h'; exact absurd h' hne
      · intro u hu
        simp at hu; subst hu
        obtain ⟨hlt, _⟩ := List.getElem?_eq_some_iff.1 hpc
        exact ⟨.read, by simp [List.getElem?_set, hlt]⟩
      · intro v hv
        simp only [hset, List.mem_append, List.mem_cons] at hv
        apply hw; rw [e]; simp only [List.mem_append, List.mem_cons]
        rcases hv with hv | hv | hv
        · exact .inl hv
        · cases hv
        · exact .inr (.inr hv)
      · rw [e, inflight_mid] at hp; simpa only [hset, inflight_mid, PC.value] using hp
  · -- read
    rename_i hpc
    obtain ⟨l1, l2, e, hl, hset⟩ := set_split hpc
    cases h
    refine ⟨by simp [hlen], ?_, ?_, ?_, m, hm, ?_⟩
    · intro u pc hu
      rw [List.getElem?_set] at hu
      have := hh t _ hpc
      split at hu
      · split at hu
        · cases hu; subst_vars; simpa [PC.inside] using this
        · cases hu
      · exact hh u pc hu
    · intro u hu
      obtain ⟨pc, hpc'⟩ := hex u hu
      obtain ⟨hlt, _⟩ := List.getElem?_eq_some_iff.1 hpc'
      exact ⟨_, List.getElem?_eq_getElem (by simpa using hlt)⟩
    · intro v hv
      simp only [hset, List.mem_append, List.mem_cons] at hv
      rcases hv with hv | hv | hv
      · apply hw; rw [e]; simp [hv]
      · cases hv; rfl
      · apply hw; rw [e]; simp [hv]
    · rw [e, inflight_mid] at hp; simpa only [hset, inflight_mid, PC.value] using hp
  · -- write
    rename_i v hpc
    obtain ⟨l1, l2, e, hl, hset⟩ := set_split hpc
    have hv : v = s.counter := hw v (List.mem_of_getElem? hpc)
    have hlock : s.lock = some t := (hh t _ hpc).1 rfl
    cases h
    refine ⟨by simp [hlen], ?_, ?_, ?_, m + 1, ?_, ?_⟩
    · intro u pc hu
      rw [List.getElem?_set] at hu
      have := hh t _ hpc
      split at hu
      · split at hu
        · cases hu; subst_vars; simpa [PC.inside] using this
        · cases hu
      · exact hh u pc hu
    · intro u hu
      obtain ⟨pc, hpc'⟩ := hex u hu
      obtain ⟨hlt, _⟩ := List.getElem?_eq_some_iff.1 hpc'
      exact ⟨_, List.getElem?_eq_getElem (by simpa using hlt)⟩
    · intro w hwm
      -- no other thread is writing
      exfalso
      obtain ⟨u, hu⟩ := List.mem_iff_getElem?.1 hwm
      simp only at hu
      rw [List.getElem?_set] at hu
      split at hu
      · split at hu <;> cases hu
      · rename_i hne
        have := (hh u _ hu).1 rfl
        rw [hlock] at this; simp at this; exact hne this
    · simp only; omega
    · rw [consecutive_succ]
      have : inflight (s.threads.set t (.release v)) = inflight l1 ++ v :: inflight l2 := by
        simp [hset, inflight_mid, PC.value]
      simp only [this]
      have e2 : inflight s.threads = inflight l1 ++ inflight l2 := by
        simp [e, inflight_mid, PC.value]
      rw [e2] at hp
      have hv' : v = init + m := by omega
      rw [← hv']
      have h1 : (s.returned ++ (inflight l1 ++ v :: inflight l2)).Perm
          (v :: (s.returned ++ (inflight l1 ++ inflight l2))) := by
        rw [← List.append_assoc, ← List.append_assoc]
        exact List.perm_middle
      exact h1.trans ((List.Perm.cons v hp).trans (List.perm_append_singleton v _).symm)
  · -- release
    rename_i v hpc
    obtain ⟨l1, l2, e, hl, hset⟩ := set_split hpc
    have hlock : s.lock = some t := (hh t _ hpc).1 rfl
    cases h
    refine ⟨by simp [hlen], ?_, by simp, ?_, m, hm, ?_⟩
    · intro u pc hu
      rw [List.getElem?_set] at hu
      split at hu
      · split at hu
        · cases hu; simp [PC.inside]
        · cases hu
      · rename_i hne
        have := hh u pc hu
        rw [hlock] at this
        constructor
        · intro h'; have := this.1 h'; simp at this; exact absurd this hne
        · intro h'; cases h'
    · intro w hwm
      simp only [hset, List.mem_append, List.mem_cons] at hwm
      apply hw; rw [e]; simp only [List.mem_append, List.mem_cons]
      rcases hwm with hv | hv | hv
      · exact .inl hv
      · cases hv
      · exact .inr (.inr hv)
    · rw [e, inflight_mid] at hp; simpa only [hset, inflight_mid, PC.value] using hp
  · -- ret
    rename_i v hpc
    obtain ⟨l1, l2, e, hl, hset⟩ := set_split hpc
    cases h
    refine ⟨by simp [hlen], ?_, ?_, ?_, m, hm, ?_⟩
    · intro u pc hu
      rw [List.getElem?_set] at hu
      have := hh t _ hpc
      split at hu
      · split at hu
        · cases hu; subst_vars; simpa [PC.inside] using this
        · cases hu
      · exact hh u pc hu
    · intro u hu
      obtain ⟨pc, hpc'⟩ := hex u hu
      obtain ⟨hlt, _⟩ := List.getElem?_eq_some_iff.1 hpc'
      exact ⟨_, List.getElem?_eq_getElem (by simpa using hlt)⟩
    · intro w hwm
      simp only [hset, List.mem_append, List.mem_cons] at hwm
      apply hw; rw [e]; simp only [List.mem_append, List.mem_cons]
      rcases hwm with hv | hv | hv
      · exact .inl hv
      · cases hv
      · exact .inr (.inr hv)
    · have e1 : inflight (s.threads.set t .idle) = inflight l1 ++ inflight l2 := by
        simp [hset, inflight_mid, PC.value]
      have e2 : inflight s.threads = inflight l1 ++ v :: inflight l2 := by
        simp [e, inflight_mid, PC.value]
      simp only [e1]
      rw [e2] at hp
      refine List.Perm.trans ?_ hp
      rw [List.append_assoc, List.singleton_append]
      exact List.Perm.append_left _ List.perm_middle.symm

theorem inv_run {init : Int} {n : Nat} {s : State} (hi : Inv init n s) (sched : List Nat) :
    Inv init n (run s sched) := by
  induction sched generalizing s with
  | nil => exact hi
  | cons t sched ih =>
    rw [run, List.foldl_cons]
    refine ih ?_
    cases h : step s t with
    | none => exact hi
    | some s' => exact inv_step hi h

/-- What is known of thread `t` after it was idle when the counter stood at `c`. -/
structure After (c : Int) (t : Nat) (s : State) : Prop where
  counter : c ≤ s.counter
  mine : ∀ v, s.threads[t]? = some (.release v) ∨ s.threads[t]? = some (.ret v) → c ≤ v

theorem after_step {init c : Int} {n t u : Nat} {s s' : State} (hi : Inv init n s) (ha : After c t s)
    (h : step s u = some s') : After c t s' := by
  obtain ⟨hc, hm⟩ := ha
  have hw := hi.writing
  unfold step at h
  split at h
  · cases h
  all_goals (try split at h)
  all_goals (try (cases h; done))
  all_goals cases h
  all_goals constructor
  all_goals simp only
  all_goals grind [List.mem_of_getElem?]

theorem after_run {init c : Int} {n t : Nat} {s : State} (hi : Inv init n s) (ha : After c t s)
    (sched : List Nat) : After c t (run s sched) := by
  induction sched generalizing s with
  | nil => exact ha
  | cons u sched ih =>
    rw [run, List.foldl_cons]
    cases h : step s u with
    | none => exact ih hi ha
    | some s' => exact ih (inv_step hi h) (after_step hi ha h)

end Verif.Counter
