import Verif.Spec.Mro
/-
Helper lemmas for C09, C10.
-/
set_option linter.unusedSectionVars false

namespace Verif.Mro
variable {α : Type} [DecidableEq α]

theorem candidate_not_tail {ne seqs : List (List α)} {c : α} (h : candidate ne seqs = some c) :
    ∀ s ∈ ne, c ∉ s.tail := by
  fun_induction candidate ne seqs with
  | case1 => cases h
  | case2 seqs ih => exact ih h
  | case3 d t seqs hd => cases h; simpa using hd
  | case4 d t seqs _ ih => exact ih h

theorem candidate_none {ne seqs : List (List α)} (h : candidate ne seqs = none) :
    ∀ c s, (c :: s) ∈ seqs → ∃ t ∈ ne, c ∈ t.tail := by
  fun_induction candidate ne seqs with
  | case1 => simp
  | case2 seqs ih => intro c s hs; simp at hs; exact ih h c s hs
  | case3 d t seqs hd => cases h
  | case4 d t seqs hd ih =>
    intro c s hs
    rcases List.mem_cons.1 hs with hs | hs
    · cases hs; simpa using hd
    · exact ih h c s hs

theorem dropHead_eq {c : α} {s : List α} (h : c ∉ s.tail) : dropHead c s = s.filter (· ≠ c) := by
  cases s with
  | nil => rfl
  | cons x s =>
    simp only [List.tail_cons] at h
    have : s.filter (· ≠ c) = s := by
      rw [List.filter_eq_self]; intro a ha; simp; rintro rfl; exact h ha
    by_cases hx : x = c
    · subst hx; simp only [dropHead, if_true]
      rw [List.filter_cons_of_neg (by simp), this]
    · simp only [dropHead, hx, if_false]
      rw [List.filter_cons_of_pos (by simpa using hx), this]

/-- Soundness of the loop. -/
theorem mroLoop_sound (seqs : List (List α)) (res L : List α) (h : mroLoop seqs res = .ok L)
    (hres : res.Nodup) (hdisj : ∀ s ∈ seqs, ∀ x ∈ s, x ∉ res) :
    ∃ M, L = res ++ M ∧ L.Nodup ∧ (∀ s ∈ seqs, s.Sublist M) ∧ (∀ x ∈ M, ∃ s ∈ seqs, x ∈ s) := by
  fun_induction mroLoop seqs res with
  | case1 seqs res ne hne =>
    cases h
    refine ⟨[], by simp, hres, ?_, by simp⟩
    intro s hs
    have : s = [] := by simp [ne, nonEmpties] at hne; exact hne s hs
    simp [this]
  | case2 => cases h
  | case3 seqs res ne hne c hc ih =>
    have hnt := candidate_not_tail hc
    obtain ⟨s0, hs0⟩ := candidate_head hc
    have hmem : ∀ s, s ∈ ne ↔ s ∈ seqs ∧ s ≠ [] := by intro s; simp [ne, nonEmpties]
    have hc0 : c ∉ res := hdisj _ ((hmem _).1 hs0).1 c (by simp)
    have hdrop : ∀ s ∈ ne, dropHead c s = s.filter (· ≠ c) := fun s hs => dropHead_eq (hnt s hs)
    obtain ⟨M, rfl, hn, hsub, hin⟩ := ih h
      (by rw [List.nodup_append]; simp [hres]; rintro a ha rfl; exact hc0 ha)
      (by
        intro s hs x hx
        obtain ⟨t, ht, rfl⟩ := List.mem_map.1 hs
        rw [hdrop t ht, List.mem_filter] at hx
        have := hdisj t ((hmem t).1 ht).1 x hx.1
        simp only [List.mem_append, List.mem_singleton, not_or]
        exact ⟨this, by simpa using hx.2⟩)
    refine ⟨c :: M, by simp, hn, ?_, ?_⟩
    · intro s hs
      cases s with
      | nil => simp
      | cons x s =>
        have hne' : (x :: s) ∈ ne := (hmem _).2 ⟨hs, by simp⟩
        have := hsub _ (List.mem_map.2 ⟨_, hne', rfl⟩)
        by_cases hx : x = c
        · subst hx; simp only [dropHead, if_true] at this; exact this.cons_cons _
        · simp only [dropHead, hx, if_false] at this; exact this.cons _
    · intro x hx
      rcases List.mem_cons.1 hx with rfl | hx
      · exact ⟨_, ((hmem _).1 hs0).1, by simp⟩
      · obtain ⟨s, hs, hxs⟩ := hin x hx
        obtain ⟨t, ht, rfl⟩ := List.mem_map.1 hs
        rw [hdrop t ht, List.mem_filter] at hxs
        exact ⟨t, ((hmem t).1 ht).1, hxs.1⟩

/-- If every sequence is a subsequence of one duplicate-free list, some head is in no tail. -/
theorem exists_candidate {ne : List (List α)} (hne : ∀ s ∈ ne, s ≠ []) {L : List α} (hL : L.Nodup)
    (hsub : ∀ s ∈ ne, s.Sublist L) (h0 : ne ≠ []) :
    ∃ c s, (c :: s) ∈ ne ∧ ∀ t ∈ ne, c ∉ t.tail := by
  induction L with
  | nil =>
    cases ne with
    | nil => exact absurd rfl h0
    | cons s ne =>
      have := hsub s (by simp)
      simp at this
      exact absurd this (hne s (by simp))
  | cons a L ih =>
    rw [List.nodup_cons] at hL
    have tails : ∀ t ∈ ne, a ∉ t.tail := by
      intro t ht hat
      have := hsub t ht
      cases this with
      | cons _ h => exact hL.1 (h.subset (List.mem_of_mem_tail hat))
      | cons_cons _ h => exact hL.1 (h.subset hat)
    by_cases hh : ∃ s, (a :: s) ∈ ne
    · obtain ⟨s, hs⟩ := hh; exact ⟨a, s, hs, tails⟩
    · refine ih hL.2 fun s hs => ?_
      have := hsub s hs
      cases this with
      | cons _ h => exact h
      | cons_cons _ h => exact absurd ⟨_, hs⟩ hh

/-- Completeness of the loop. -/
theorem mroLoop_complete (seqs : List (List α)) (res : List α) (L : List α) (hL : L.Nodup)
    (hsub : ∀ s ∈ seqs, s.Sublist L) : ∃ M, mroLoop seqs res = .ok M := by
  fun_induction mroLoop seqs res generalizing L with
  | case1 seqs res => exact ⟨_, rfl⟩
  | case2 seqs res ne hne hc =>
    have hmem : ∀ s, s ∈ ne ↔ s ∈ seqs ∧ s ≠ [] := by intro s; simp [ne, nonEmpties]
    obtain ⟨c, s, hs, ht⟩ := exists_candidate (fun s hs => ((hmem s).1 hs).2) hL
      (fun s hs => hsub s ((hmem s).1 hs).1) (by simpa using hne)
    obtain ⟨t, htm, hct⟩ := candidate_none hc c s hs
    exact absurd hct (ht t htm)
  | case3 seqs res ne hne c hc ih =>
    have hnt := candidate_not_tail hc
    refine ih (L.filter (· ≠ c)) (hL.filter _) ?_
    intro s hs
    obtain ⟨t, ht, rfl⟩ := List.mem_map.1 hs
    rw [dropHead_eq (hnt t ht)]
    exact (hsub t (List.mem_filter.1 ht).1).filter _

theorem mroLoop_error (seqs : List (List α)) (res : List α) {e : Exc}
    (h : mroLoop seqs res = .error e) : e = .typeError := by
  fun_induction mroLoop seqs res with
  | case1 => cases h
  | case2 => cases h; rfl
  | case3 seqs res ne hne c hc ih => exact ih h

end Verif.Mro
