import Verif.Spec.Blocks
/-
Helper lemmas for C24, C25.
-/
namespace Verif.Blocks

theorem tidy_dirs (mro : Nat → List Nat) (p : Prog) (ht : Tidy p) (s : State) (h : s.cwd ∈ s.dirs) :
    (exec mro p s).1.cwd = s.cwd ∧ ∀ d ∈ s.dirs, d ∈ (exec mro p s).1.dirs := by
  induction p generalizing s with
  | pass | raise => simp [exec]
  | chdir | rmdir => exact absurd ht id
  | mkdir p => simp only [exec]; exact ⟨trivial, fun d hd => List.mem_cons_of_mem _ hd⟩
  | seq a b iha ihb =>
    simp only [exec]
    have h1 := iha ht.1 s h
    split
    · rename_i heq; rw [heq] at h1; exact h1
    · rename_i s1 heq; rw [heq] at h1; simp only at h1
      have h2 := ihb ht.2 s1 (by rw [h1.1]; exact h1.2 _ h)
      exact ⟨by rw [h2.1, h1.1], fun d hd => h2.2 d (h1.2 d hd)⟩
  | attempt a b iha ihb =>
    simp only [exec]
    have h1 := iha ht.1 s h
    split
    · rename_i s1 _ heq; rw [heq] at h1; simp only at h1
      have h2 := ihb ht.2 s1 (by rw [h1.1]; exact h1.2 _ h)
      exact ⟨by rw [h2.1, h1.1], fun d hd => h2.2 d (h1.2 d hd)⟩
    · rename_i heq; rw [heq] at h1; exact h1
  | withDir p body ih =>
    simp only [exec]
    by_cases hp : p ∈ s.dirs
    · simp only [chdir, hp, if_true]
      have h1 := ih ht { s with cwd := p } hp
      cases heq : exec mro body { s with cwd := p } with
      | mk s1 exc =>
        rw [heq] at h1
        simp only at h1 ⊢
        have : s.cwd ∈ s1.dirs := h1.2 _ h
        simp only [this, if_true]
        exact ⟨trivial, h1.2⟩
    · simp only [chdir, hp, if_false]; exact ⟨trivial, fun d hd => hd⟩
  | withCast c body ih =>
    simp only [exec]
    split
    · exact ⟨rfl, fun d hd => hd⟩
    · have h1 := ih ht { s with cls := c } h
      split
      · rename_i heq; rw [heq] at h1; exact h1
      · rename_i heq; rw [heq] at h1; exact h1

end Verif.Blocks
