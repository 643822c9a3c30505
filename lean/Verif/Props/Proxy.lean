import Verif.Spec.Proxy
/-
C358: instances of a class that stands for one under construction.
-/
namespace Verif.Proxy
open Spec

/-- What is remembered as no subclass, unless a registration made it void. -/
def eff (s : St) : List Nat := if s.memo.ver < s.counter then [] else s.memo.no

/-- The answer of both questions, and what is remembered. -/
theorem sub_answer (sub : Nat → Nat → Bool) (s : St) (c : Nat) :
    (subclassCheck sub s c).1 = (decide (c ∈ s.memo.yes) || (!decide (c ∈ eff s) && hook sub s.reg c)) := by
  unfold subclassCheck eff
  by_cases h1 : c ∈ s.memo.yes
  · simp [h1]
  · dsimp only
    rw [if_neg h1]
    by_cases h2 : c ∈ (if s.memo.ver < s.counter then [] else s.memo.no)
    · rw [if_pos h2]; simp [h1, h2]
    · rw [if_neg h2]
      cases hook sub s.reg c <;> simp [h1, h2]

theorem inst_answer (sub : Nat → Nat → Bool) (s : St) (c : Nat) : (instanceCheck sub s c).1 = (subclassCheck sub s c).1 := by
  unfold instanceCheck
  by_cases h1 : c ∈ s.memo.yes
  · simp [h1, subclassCheck]
  · rw [if_neg h1]
    by_cases h2 : s.memo.ver = s.counter ∧ c ∈ s.memo.no
    · rw [if_pos h2, sub_answer]
      have : c ∈ eff s := by unfold eff; rw [if_neg (by omega)]; exact h2.2
      simp [h1, this]
    · rw [if_neg h2]

/-- The state after a question, up to what is void. -/
structure After (sub : Nat → Nat → Bool) (s t : St) (c : Nat) : Prop where
  reg : t.reg = s.reg
  counter : t.counter = s.counter
  ver : t.memo.ver ≤ t.counter
  yes : ∀ x, x ∈ t.memo.yes ↔ x ∈ s.memo.yes ∨ (x = c ∧ c ∉ eff s ∧ hook sub s.reg c = true)
  no : ∀ x, x ∈ eff t ↔ x ∈ eff s ∨ (x = c ∧ c ∉ s.memo.yes ∧ hook sub s.reg c = false)

theorem sub_after (sub : Nat → Nat → Bool) (s : St) (hv : s.memo.ver ≤ s.counter) (hd : ∀ x, x ∈ s.memo.yes → x ∉ eff s ∧ hook sub s.reg x = true)
    (c : Nat) : After sub s (subclassCheck sub s c).2 c := by
  unfold subclassCheck
  by_cases h1 : c ∈ s.memo.yes
  · rw [if_pos h1]
    refine ⟨rfl, rfl, hv, fun x => ⟨.inl, ?_⟩, fun x => ⟨.inl, ?_⟩⟩
    · rintro (h | ⟨rfl, _, _⟩)
      · exact h
      · exact h1
    · rintro (h | ⟨rfl, h, _⟩)
      · exact h
      · exact absurd h1 h
  · dsimp only
    rw [if_neg h1, show (if s.memo.ver < s.counter then [] else s.memo.no) = eff s from rfl]
    by_cases h2 : c ∈ eff s
    · rw [if_pos h2]
      refine ⟨rfl, rfl, Nat.le_refl _, fun x => ⟨.inl, ?_⟩, fun x => ?_⟩
      · rintro (h | ⟨_, h, _⟩)
        · exact h
        · exact absurd h2 h
      · simp only [eff, Nat.lt_irrefl, if_false]
        refine ⟨.inl, ?_⟩
        rintro (h | ⟨rfl, _, _⟩)
        · exact h
        · exact h2
    · rw [if_neg h2]
      cases h3 : hook sub s.reg c with
      | true =>
        refine ⟨rfl, rfl, Nat.le_refl _, fun x => ?_, fun x => ?_⟩
        · simp [h2, h3, or_comm]
        · simp [eff, h3]
      | false =>
        refine ⟨rfl, rfl, Nat.le_refl _, fun x => ?_, fun x => ?_⟩
        · simp [h3]
        · have : (eff ({ s with memo := ⟨s.memo.yes, c :: eff s, s.counter⟩ } : St)) = c :: eff s := by
            unfold eff; simp
          simp only [Bool.false_eq_true, if_false]
          rw [this]
          simp [h1, h3, or_comm]

theorem inst_after (sub : Nat → Nat → Bool) (s : St) (hv : s.memo.ver ≤ s.counter) (hd : ∀ x, x ∈ s.memo.yes → x ∉ eff s ∧ hook sub s.reg x = true)
    (c : Nat) : After sub s (instanceCheck sub s c).2 c := by
  unfold instanceCheck
  by_cases h1 : c ∈ s.memo.yes
  · have := sub_after sub s hv hd c
    rw [if_pos h1]
    simpa [subclassCheck, h1] using this
  · rw [if_neg h1]
    by_cases h2 : s.memo.ver = s.counter ∧ c ∈ s.memo.no
    · rw [if_pos h2]
      have h3 : c ∈ eff s := by unfold eff; rw [if_neg (by omega)]; exact h2.2
      refine ⟨rfl, rfl, hv, fun x => ⟨.inl, ?_⟩, fun x => ⟨.inl, ?_⟩⟩
      · rintro (h | ⟨_, h, _⟩)
        · exact h
        · exact absurd h3 h
      · rintro (h | ⟨rfl, _, _⟩)
        · exact h
        · exact h3
    · rw [if_neg h2]
      exact sub_after sub s hv hd c

theorem asked_append (l : List Op) (o : Op) : ∀ x, x ∈ asked (l ++ [o]) ↔
    match o with
    | .issubclass c => x ∈ asked l ∨ x = c
    | .isinstance c => x ∈ asked l ∨ x = c
    | .build _ => x ∈ asked l
    | .register => False := by
  intro x
  induction l with
  | nil => cases o <;> simp [asked]
  | cons p l ih =>
    cases p <;> cases o <;> simp only [List.cons_append, asked] at ih ⊢ <;> simp_all
    all_goals (try split) <;> simp_all [or_assoc, or_comm, or_left_comm]

/-- Before the class is built. -/
structure Early (early : List Op) (s : St) : Prop where
  reg : s.reg = none
  ver : s.memo.ver ≤ s.counter
  yes : s.memo.yes = []
  no : ∀ x, x ∈ eff s ↔ x ∈ asked early

theorem early_run (sub : Nat → Nat → Bool) (n : Nat) (early : List Op) (h : NoBuild early) : Early early (run sub (fresh n) early) := by
  have main : ∀ (post pre : List Op) (s : St), NoBuild post → Early pre s → Early (pre ++ post) (run sub s post) := by
    intro post
    induction post with
    | nil => intro pre s _ hs; simpa [run] using hs
    | cons o post ih =>
      intro pre s hp hs
      have hp' : NoBuild post := fun k hk => hp k (List.mem_cons_of_mem _ hk)
      have h1 : Early (pre ++ [o]) (step sub s o) := by
        have hd : ∀ x, x ∈ s.memo.yes → x ∉ eff s ∧ hook sub s.reg x = true := by rw [hs.yes]; simp
        have q : ∀ (c : Nat) (t : St), After sub s t c → (∀ x, x ∈ asked (pre ++ [o]) ↔ x ∈ asked pre ∨ x = c) → Early (pre ++ [o]) t := by
          intro c t a ha
          refine ⟨by rw [a.reg, hs.reg], a.ver, ?_, fun x => ?_⟩
          · rw [List.eq_nil_iff_forall_not_mem]
            intro x hx
            rcases (a.yes x).1 hx with h | ⟨_, _, h⟩
            · rw [hs.yes] at h; simp at h
            · rw [hs.reg] at h; simp [hook] at h
          · rw [a.no, ha, hs.no, hs.yes, hs.reg]
            simp [hook]
        cases o with
        | issubclass c => exact q c _ (sub_after sub s hs.ver hd c) (fun x => asked_append pre (.issubclass c) x)
        | isinstance c => exact q c _ (inst_after sub s hs.ver hd c) (fun x => asked_append pre (.isinstance c) x)
        | build k => exact absurd List.mem_cons_self (hp k)
        | register =>
          refine ⟨hs.reg, Nat.le_succ_of_le hs.ver, hs.yes, fun x => ?_⟩
          rw [asked_append]
          have : s.memo.ver < s.counter + 1 := Nat.lt_succ_of_le hs.ver
          simp [step, eff, this]
      have := ih (pre ++ [o]) (step sub s o) hp' h1
      simpa [run] using this
  have := main early [] (fresh n) h ⟨rfl, Nat.le_refl _, rfl, fun x => by simp [eff, fresh, asked]⟩
  simpa using this

/-- After the class `k` is built; `stale`: what is wrongly remembered. -/
structure Late (sub : Nat → Nat → Bool) (k : Nat) (stale : Nat → Prop) (s : St) : Prop where
  reg : s.reg = some k
  ver : s.memo.ver ≤ s.counter
  yes : ∀ x, x ∈ s.memo.yes → x ∉ eff s ∧ sub x k = true
  no : ∀ x, x ∈ eff s → stale x ∨ sub x k = false
  kept : ∀ x, stale x → x ∈ eff s

theorem late_run (sub : Nat → Nat → Bool) (k : Nat) (late : List Op) (h : NoBuild late) (stale : Nat → Prop) (s : St)
    (hs : Late sub k stale s) : Late sub k (fun x => stale x ∧ Op.register ∉ late) (run sub s late) := by
  induction late generalizing s stale with
  | nil => simpa [run] using hs
  | cons o late ih =>
    have h' : NoBuild late := fun j hj => h j (List.mem_cons_of_mem _ hj)
    have hd : ∀ x, x ∈ s.memo.yes → x ∉ eff s ∧ hook sub s.reg x = true := by rw [hs.reg]; exact hs.yes
    have q : ∀ (c : Nat) (t : St), After sub s t c → Late sub k stale t := by
      intro c t a
      refine ⟨by rw [a.reg, hs.reg], a.ver, fun x hx => ?_, fun x hx => ?_, fun x hx => (a.no x).2 (.inl (hs.kept x hx))⟩
      · have e : hook sub s.reg c = sub c k := by rw [hs.reg]; rfl
        rcases (a.yes x).1 hx with hy | ⟨rfl, hy, hh⟩
        · refine ⟨fun hn => ?_, (hs.yes x hy).2⟩
          rcases (a.no x).1 hn with hn | ⟨rfl, hn, _⟩
          · exact (hs.yes x hy).1 hn
          · exact hn hy
        · refine ⟨fun hn => ?_, by rw [← e]; exact hh⟩
          rcases (a.no x).1 hn with hn | ⟨_, _, hn⟩
          · exact hy hn
          · rw [hh] at hn; cases hn
      · rcases (a.no x).1 hx with hn | ⟨rfl, _, hh⟩
        · exact hs.no x hn
        · rw [hs.reg] at hh; exact .inr hh
    have fin : ∀ t, Late sub k stale t → o ≠ .register → Late sub k (fun x => stale x ∧ Op.register ∉ o :: late) (run sub t late) := by
      intro t ht ho
      have := ih h' stale t ht
      have e : (fun x => stale x ∧ Op.register ∉ o :: late) = fun x => stale x ∧ Op.register ∉ late := by
        funext x
        rw [List.mem_cons, not_or]
        simp [Ne.symm ho]
      rw [e]; exact this
    cases o with
    | issubclass c => exact fin _ (q c _ (sub_after sub s hs.ver hd c)) (by simp)
    | isinstance c => exact fin _ (q c _ (inst_after sub s hs.ver hd c)) (by simp)
    | build j => exact absurd List.mem_cons_self (h j)
    | register =>
      have lt : s.memo.ver < s.counter + 1 := Nat.lt_succ_of_le hs.ver
      have e0 : eff (step sub s .register) = [] := by simp [step, eff, lt]
      have ht : Late sub k (fun _ => False) (step sub s .register) :=
        ⟨hs.reg, Nat.le_of_lt lt, fun x hx => ⟨by rw [e0]; simp, (hs.yes x hx).2⟩, fun x hx => by rw [e0] at hx; simp at hx,
          fun x hx => hx.elim⟩
      have := ih h' (fun _ => False) _ ht
      have e : (fun x => stale x ∧ Op.register ∉ Op.register :: late) = fun x => False ∧ Op.register ∉ late := by
        funext x; simp
      rw [e]; exact this

/-- **C358** (exactly when). A class that stands for `k`, which is built after `early` and before `late`: a class is told to be a
subclass if it is one of `k`, unless it was asked about before `k` was built, with no registration since. -/
theorem C358_answer_partial (sub : Nat → Nat → Bool) (n k : Nat) (early late : List Op) (he : NoBuild early) (hl : NoBuild late) (c : Nat) :
    let s := run sub (fresh n) (early ++ .build k :: late)
    (subclassCheck sub s c).1 = (sub c k && !decide (c ∈ asked early ∧ Op.register ∉ late)) ∧
    (instanceCheck sub s c).1 = (sub c k && !decide (c ∈ asked early ∧ Op.register ∉ late)) := by
  intro s
  have h1 := early_run sub n early he
  have h2 : Late sub k (fun x => x ∈ asked early) (step sub (run sub (fresh n) early) (.build k)) :=
    ⟨rfl, h1.ver, fun x hx => by
        have : x ∈ (run sub (fresh n) early).memo.yes := hx
        rw [h1.yes] at this; simp at this,
      fun x hx => .inl ((h1.no x).1 hx), fun x hx => (h1.no x).2 hx⟩
  have h3 := late_run sub k late hl _ _ h2
  have hs : s = run sub (step sub (run sub (fresh n) early) (.build k)) late := by
    simp [s, run, List.foldl_append]
  rw [← hs] at h3
  have main : (subclassCheck sub s c).1 = (sub c k && !decide (c ∈ asked early ∧ Op.register ∉ late)) := by
    rw [sub_answer, h3.reg]
    by_cases hst : c ∈ asked early ∧ Op.register ∉ late
    · have hn := h3.kept c hst
      have hy : c ∉ s.memo.yes := fun hy => (h3.yes c hy).1 hn
      simp [hst, hn, hy]
    · rw [decide_eq_false hst]
      by_cases hy : c ∈ s.memo.yes
      · simp [hy, (h3.yes c hy).2]
      · by_cases hn : c ∈ eff s
        · rcases h3.no c hn with h | h
          · exact absurd h hst
          · simp [hy, hn, h]
        · simp [hy, hn, hook]
  exact ⟨main, by rw [inst_answer]; exact main⟩

/-- Asked before the class is built, and again after, with and without a registration. -/
example : (instanceCheck (fun _ _ => true) (run (fun _ _ => true) (fresh 0) [.issubclass 1, .build 5, .isinstance 2]) 1).1 = false ∧
    (instanceCheck (fun _ _ => true) (run (fun _ _ => true) (fresh 0) [.issubclass 1, .build 5, .isinstance 2]) 2).1 = true ∧
    (instanceCheck (fun _ _ => true) (run (fun _ _ => true) (fresh 0) [.issubclass 1, .build 5, .register, .isinstance 2]) 1).1 = true ∧
    NoBuild [.issubclass 1] ∧ NoBuild [.register, .isinstance 2] := by
  refine ⟨by decide +kernel, by decide +kernel, by decide +kernel, ?_, ?_⟩ <;> intro k <;> simp

/-- **C358, violated.** One question before the class is built, and its own instances are no instances of it afterwards, however
often it is asked. -/
theorem C358_early_violated (sub : Nat → Nat → Bool) (n k : Nat) (late : List Op) (hl : NoBuild late) (hr : Op.register ∉ late) :
    (instanceCheck sub (run sub (fresh n) (.isinstance k :: .build k :: late)) k).1 = false := by
  have := (C358_answer_partial sub n k [.isinstance k] late (by intro j; simp) hl k).2
  simpa [asked, hr] using this

example : NoBuild [.isinstance 5, .issubclass 5] ∧ Op.register ∉ [Op.isinstance 5, .issubclass 5] :=
  ⟨by intro k; simp, by decide⟩

end Verif.Proxy
