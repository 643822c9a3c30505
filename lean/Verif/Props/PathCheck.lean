import Verif.Spec.PathCheck
/-
C316-C317: the checks of paths.
-/
namespace Verif.PathCheck
open Spec

theorem holds_iff (c : Chk) (k : Kind) : holds c k = true ↔ Is c k := by
  cases c <;> cases k <;> simp [holds] <;> first | constructor | (intro h; cases h)

theorem check_ok (c : Chk) (p : Bool) (k : Kind) :
    ((Is c k ↔ p = true) → check c p (.path k) = ⟨[], none⟩)
    ∧ (¬ (Is c k ↔ p = true) → check c p (.path k) = ⟨[], some .validationError⟩) := by
  have h := holds_iff c k
  simp only [check]
  cases hk : holds c k <;> cases p <;> simp_all

/-- What a run tells about a schema `P`: without errors it is met; with errors it is not. -/
structure Tells (r : Run) (P : Prop) : Prop where
  clean : r.errors = [] → r.exc = none → P
  errs : r.errors ≠ [] → ¬ P
  exc : ∀ e, r.exc = some e → e = .validationError

theorem tells_exc {e : Exc} {P : Prop} (h : e = .validationError) : Tells ⟨[], some e⟩ P where
  clean := fun _ h => nomatch h
  errs := fun h => absurd rfl h
  exc := fun _ he => by cases he; exact h

theorem tells_ok {P : Prop} (h : P) : Tells ⟨[], none⟩ P where
  clean := fun _ _ => h
  errs := fun h => absurd rfl h
  exc := fun _ he => nomatch he

theorem tells_bad {b : Bool} {P : Prop} (h : ¬ P) : Tells ⟨[b], none⟩ P where
  clean := fun h => nomatch h
  errs := fun _ => h
  exc := fun _ he => nomatch he

theorem tells_iff {r : Run} {P Q : Prop} (h : Tells r P) (hpq : P ↔ Q) : Tells r Q where
  clean := fun a b => hpq.1 (h.clean a b)
  errs := fun a q => h.errs a (hpq.2 q)
  exc := h.exc

theorem valid_tells {r : Run} {P : Prop} (h : Tells r P) :
    (∀ b, r.valid = .ok b → (b = true ↔ P)) ∧ (∀ e, r.valid = .error e → e = .validationError) := by
  obtain ⟨l, x⟩ := r
  cases l with
  | cons a l =>
    refine ⟨fun b hb => ?_, fun e he => nomatch he⟩
    cases hb
    exact ⟨(fun h => nomatch h), fun hp => absurd hp (h.errs (by simp))⟩
  | nil =>
    cases x with
    | some x =>
      refine ⟨(fun b hb => nomatch hb), fun e he => ?_⟩
      cases he
      exact h.exc _ rfl
    | none =>
      refine ⟨fun b hb => ?_, fun e he => nomatch he⟩
      cases hb
      exact ⟨fun _ => h.clean rfl rfl, fun _ => rfl⟩

theorem andThen_tells {r s : Run} {P Q : Prop} (hr : Tells r P) (hs : Tells s Q) : Tells (r.andThen s) (P ∧ Q) := by
  unfold Run.andThen
  cases he : r.exc with
  | some e =>
    refine ⟨fun _ h => ?_, fun h hp => hr.errs h hp.1, fun e' h => hr.exc e' h⟩
    simp only [he] at h
    cases h
  | none =>
    refine ⟨fun h h' => ?_, fun h hp => ?_, fun e' h => hs.exc e' h⟩
    · have h : r.errors ++ s.errors = [] := h
      obtain ⟨h1, h2⟩ := List.append_eq_nil_iff.1 h
      exact ⟨hr.clean h1 he, hs.clean h2 h'⟩
    · have h : r.errors ++ s.errors ≠ [] := h
      by_cases h0 : r.errors = []
      · exact hs.errs (fun h2 => h (by rw [h0, h2]; rfl)) hp.2
      · exact hr.errs h0 hp.1

theorem indexed_tells {r : Run} {P : Prop} (hr : Tells r P) : Tells r.indexed P where
  clean := fun h h' => hr.clean (List.map_eq_nil_iff.1 h) h'
  errs := fun h => hr.errs fun h0 => h (by simp [Run.indexed, h0])
  exc := hr.exc

mutual
theorem run_tells (k : Kind) : (s : S) → Tells (run (.path k) s) (Meets k s)
  | .const b => by
    cases b with
    | true => exact tells_ok rfl
    | false => exact tells_bad (fun h => nomatch h)
  | .check c p => by
    simp only [run, Meets]
    by_cases h : (Is c k ↔ p = true)
    · rw [(check_ok c p k).1 h]
      exact tells_ok h
    · rw [(check_ok c p k).2 h]
      exact tells_exc rfl
  | .both s t => by
    simp only [run, Meets]
    exact andThen_tells (run_tells k s) (run_tells k t)
  | .allOf l => by
    simp only [run, Meets]
    exact runAll_tells k l
  | .anyOf l => by
    simp only [run, Meets]
    exact runAny_tells k l
  | .oneOf l => by
    simp only [run, Meets]
    exact runOne_tells k l
  | .not_ s => by
    have ih := valid_tells (run_tells k s)
    simp only [run, Meets]
    cases hv : (run (.path k) s).valid with
    | error e => exact tells_exc (ih.2 e hv)
    | ok b =>
      have := ih.1 b hv
      cases b with
      | true => exact tells_bad fun hn => hn (this.1 rfl)
      | false => exact tells_ok fun hp => nomatch this.2 hp
  | .cond c t e => by
    have hc := valid_tells (run_tells k c)
    have ht := run_tells k t
    have he := run_tells k e
    simp only [run, Meets]
    cases hv : (run (.path k) c).valid with
    | error e => exact tells_exc (hc.2 e hv)
    | ok b =>
      have hb := hc.1 b hv
      cases b with
      | true =>
        have hm := hb.1 rfl
        exact tells_iff ht ⟨fun h => ⟨fun _ => h, fun hn => absurd hm hn⟩, fun h => h.1 hm⟩
      | false =>
        have hm : ¬ Meets k c := fun h => nomatch hb.2 h
        exact tells_iff he ⟨fun h => ⟨fun hy => absurd hy hm, fun _ => h⟩, fun h => h.2 hm⟩
theorem runAll_tells (k : Kind) : (l : List S) → Tells (runAll (.path k) l) (All k l)
  | [] => tells_ok trivial
  | s :: l => by
    simp only [runAll, All]
    exact andThen_tells (indexed_tells (run_tells k s)) (runAll_tells k l)
theorem runAny_tells (k : Kind) : (l : List S) → Tells (runAny (.path k) l) (Any k l)
  | [] => tells_bad id
  | s :: l => by
    have hs := run_tells k s
    have hl := runAny_tells k l
    simp only [runAny, Any]
    cases hr : run (.path k) s with
    | mk n x =>
      rw [hr] at hs
      cases x with
      | some e => exact tells_exc (hs.exc e rfl)
      | none =>
        cases n with
        | nil => exact tells_ok (.inl (hs.clean rfl rfl))
        | cons a n =>
          have hn := hs.errs (by simp)
          exact tells_iff hl ⟨.inr, fun h => h.elim (fun h => absurd h hn) id⟩
theorem runOne_tells (k : Kind) : (l : List S) → Tells (runOne (.path k) l) (Spec.One k l)
  | [] => tells_bad id
  | s :: l => by
    have hs := run_tells k s
    have hl := runOne_tells k l
    have hm := moreValid_tells k l
    simp only [runOne, Spec.One]
    cases hr : run (.path k) s with
    | mk n x =>
      rw [hr] at hs
      cases x with
      | some e => exact tells_exc (hs.exc e rfl)
      | none =>
        cases n with
        | nil =>
          have hy := hs.clean rfl rfl
          simp only
          cases hv : moreValid (.path k) l with
          | error e => exact tells_exc (hm.2 e hv)
          | ok n =>
            have := hm.1 n hv
            simp only
            by_cases h0 : n = 0
            · rw [if_pos h0]
              exact tells_ok (.inl ⟨hy, this.1 h0⟩)
            · rw [if_neg h0]
              exact tells_bad fun hp => hp.elim (fun h => h0 (this.2 h.2)) fun h => h.1 hy
        | cons a n =>
          have hn := hs.errs (by simp)
          exact tells_iff hl ⟨fun h => .inr ⟨hn, h⟩, fun h => h.elim (fun h => absurd h.1 hn) And.right⟩
theorem moreValid_tells (k : Kind) : (l : List S) → (∀ n, moreValid (.path k) l = .ok n → (n = 0 ↔ ¬ Any k l))
    ∧ (∀ e, moreValid (.path k) l = .error e → e = .validationError)
  | [] => by
    refine ⟨fun n h => ?_, fun e h => nomatch h⟩
    simp only [moreValid, Except.ok.injEq] at h
    simp [Any, h.symm]
  | s :: l => by
    have hs := valid_tells (run_tells k s)
    have hl := moreValid_tells k l
    simp only [moreValid]
    cases hv : (run (.path k) s).valid with
    | error e =>
      refine ⟨fun n h => (by cases h), fun e' h => ?_⟩
      cases h
      exact hs.2 e hv
    | ok b =>
      have hb := hs.1 b hv
      simp only
      cases hm : moreValid (.path k) l with
      | error e =>
        refine ⟨fun n h => (by cases h), fun e' h => ?_⟩
        cases h
        exact hl.2 e hm
      | ok m =>
        have := hl.1 m hm
        refine ⟨fun n h => ?_, fun e' h => (by cases h)⟩
        simp only [Except.ok.injEq] at h
        simp only [Any]
        cases b with
        | true =>
          simp only [if_true] at h
          exact ⟨(fun h0 => by omega), fun hn => absurd (.inl (hb.1 rfl)) hn⟩
        | false =>
          have hn : ¬ Meets k s := fun h => nomatch hb.2 h
          simp only [Bool.false_eq_true, if_false] at h
          subst h
          exact ⟨fun h0 hp => hp.elim hn (this.1 h0), fun hp => this.2 fun h => hp (.inr h)⟩
end

theorem settle_ok {l : List Bool} {x : Option Exc} : settle l x = .ok () ↔ l = [] ∧ x = none := by
  cases l with
  | nil => cases x <;> simp [settle]
  | cons b l =>
    cases b
    · simp only [settle]
      split <;> simp_all
    · simp [settle]

theorem settle_error (l : List Bool) (x : Option Exc) (e : Exc) (h : settle l x = .error e) :
    (l ≠ [] ∧ (e = .typeError ∨ e = .invalidValue)) ∨ x = some e := by
  induction l with
  | nil =>
    cases x with
    | none => simp [settle] at h
    | some x =>
      simp only [settle, Except.error.injEq] at h
      exact .inr (by rw [h])
  | cons b l ih =>
    cases b
    · simp only [settle] at h
      cases hs : settle l x with
      | ok u =>
        rw [hs] at h
        cases h
        exact .inl ⟨by simp, .inr rfl⟩
      | error e' =>
        rw [hs] at h
        cases h
        rcases ih hs with h | h
        · exact .inl ⟨by simp, h.2⟩
        · exact .inr h
    · simp only [settle, Except.error.injEq] at h
      exact .inl ⟨by simp, .inl h.symm⟩

/-! ### C316: a path is accepted exactly if it meets its schema -/

/-- What is accepted meets the schema, whatever that is, and what is refused with InvalidValue, or with TypeError for an
error that has an index, does not. Nothing else is raised but ValidationError, of which this says nothing. -/
theorem C316_sound_partial (s : S) (k : Kind) :
    (validate s (.path k) = .ok () → Meets k s)
    ∧ ∀ e, validate s (.path k) = .error e → e = .validationError ∨ ((e = .invalidValue ∨ e = .typeError) ∧ ¬ Meets k s) := by
  have ht := run_tells k s
  refine ⟨fun h => ?_, fun e h => ?_⟩
  · have := settle_ok.1 h
    exact ht.clean this.1 this.2
  · rcases settle_error _ _ _ h with h | h
    · exact .inr ⟨h.2.symm, ht.errs h.1⟩
    · exact .inl (ht.exc e h)

/-- The exceptions of conjunctions of checks mean what errors do. -/
theorem conj_tells (k : Kind) (s : S) (h : Conj s) : (run (.path k) s).exc ≠ none → ¬ Meets k s := by
  induction h with
  | const b => exact fun h => absurd rfl h
  | check c p =>
    intro h hm
    exact h (by rw [run, (check_ok c p k).1 hm])
  | both s t hs ht ihs iht =>
    intro h hm
    simp only [run, Run.andThen, Meets] at h hm
    cases he : (run (.path k) s).exc with
    | some e => exact ihs (by simp [he]) hm.1
    | none => rw [he] at h; exact iht h hm.2
  | allOf l hl ih =>
    simp only [run, Meets]
    clear hl
    induction l with
    | nil => exact fun h => absurd rfl h
    | cons s l ihl =>
      intro h hm
      simp only [runAll, Run.andThen, Run.indexed, All] at h hm
      cases he : (run (.path k) s).exc with
      | some e => exact ih s (by simp) (by simp [he]) hm.1
      | none => rw [he] at h; exact ihl (fun s hs => ih s (by simp [hs])) h hm.2

/-- Where the checks are used in conjunctions only, exactly the paths that meet the schema are accepted. -/
theorem C316_conj_partial (s : S) (h : Conj s) (k : Kind) : validate s (.path k) = .ok () ↔ Meets k s := by
  refine ⟨(C316_sound_partial s k).1, fun hm => settle_ok.2 ⟨?_, ?_⟩⟩
  · exact Classical.byContradiction fun hn => (run_tells k s).errs hn hm
  · exact Classical.byContradiction fun hn => conj_tells k s h hn hm

/-- An alternative that a path fails by a check refuses it, whatever the next alternatives are. -/
theorem C316_any_violated (c : Chk) (p : Bool) (l : List S) (k : Kind) (hc : ¬ (Is c k ↔ p = true))
    (hl : Meets k (.anyOf l)) :
    Meets k (.anyOf (.check c p :: l)) ∧ validate (.anyOf (.check c p :: l)) (.path k) = .error .validationError
    ∧ validate (.oneOf (.check c p :: l)) (.path k) = .error .validationError := by
  refine ⟨.inr hl, ?_, ?_⟩
  · simp [validate, run, runAny, (check_ok c p k).2 hc, settle]
  · simp [validate, run, runOne, (check_ok c p k).2 hc, settle]

/-- The negation of a check accepts no path; a condition on a check never leads to `else`. -/
theorem C316_not_violated (c : Chk) (p : Bool) (k : Kind) (hc : ¬ (Is c k ↔ p = true)) (t e : S) :
    Meets k (.not_ (.check c p)) ∧ validate (.not_ (.check c p)) (.path k) = .error .validationError
    ∧ (Meets k (.cond (.check c p) t e) ↔ Meets k e)
    ∧ validate (.cond (.check c p) t e) (.path k) = .error .validationError := by
  refine ⟨hc, ?_, ⟨fun h => h.2 hc, fun h => ⟨fun hy => absurd hy hc, fun _ => h⟩⟩, ?_⟩
  · simp [validate, run, Run.valid, (check_ok c p k).2 hc, settle]
  · simp [validate, run, Run.valid, (check_ok c p k).2 hc, settle]

-- A directory meets `PathDir`, a file that must not exist is refused, and a file is refused as "directory or file".
example : validate (.check .isPathDir true) (.path .dir) = .ok () := by decide +kernel
example : validate (.both (.check .isPathDir true) (.check .isPathExisting true)) (.path .absent)
    = .error .validationError := by decide +kernel
example : Conj (.both (.check .isPathDir true) (.allOf [.const true])) :=
  .both _ _ (.check _ _) (.allOf _ (by intro s hs; simp at hs; subst hs; exact .const _))
example : ¬ (Is .isPathDir .file ↔ true = true) := by rw [← holds_iff]; decide
example : Meets .file (.anyOf [.check .isPathFile true]) := by
  simp only [Meets, Any, ← holds_iff]; decide
example : validate (.anyOf [.check .isPathDir true, .check .isPathFile true]) (.path .file) = .error .validationError := by
  decide +kernel
example : validate (.oneOf [.check .isPathFile true, .const false]) (.path .file) = .ok () := by decide +kernel
example : validate (.allOf [.const false]) (.path .file) = .error .typeError := by decide +kernel
example : validate (.cond (.const false) (.const false) (.check .isPathFile false)) (.path .dir) = .ok () := by
  decide +kernel

/-! ### C317: a value that is refused is refused with its errors -/

/-- If a path fails a check, its other errors, that would have been given with InvalidValue, are not. -/
theorem C317_hides_violated (s : S) (c : Chk) (p : Bool) (k : Kind) (hc : ¬ (Is c k ↔ p = true))
    (hs : validate s (.path k) = .error .invalidValue) :
    validate (.both s (.check c p)) (.path k) = .error .validationError
    ∧ validate (.both (.check c p) s) (.path k) = .error .validationError := by
  have hr := (check_ok c p k).2 hc
  have hx : (run (.path k) s).exc = none := by
    cases he : (run (.path k) s).exc with
    | none => rfl
    | some e =>
      have := (run_tells k s).exc e he
      subst this
      exfalso
      revert hs
      unfold validate
      rw [he]
      generalize (run (.path k) s).errors = l
      induction l with
      | nil => simp [settle]
      | cons b l ih =>
        cases b
        · simp only [settle]
          split
          · rename_i h
            exact absurd (settle_ok.1 h).2 (by simp)
          · exact ih
        · simp [settle]
  have ht : ∀ l : List Bool, settle l none = .error .invalidValue →
      settle (l ++ []) (some .validationError) = .error .validationError := by
    intro l h
    rw [List.append_nil]
    induction l with
    | nil => rfl
    | cons b l ih =>
      cases b
      · simp only [settle] at h ⊢
        cases hl : settle l none with
        | ok u =>
          obtain ⟨h0, _⟩ := settle_ok.1 hl
          subst h0
          rfl
        | error e =>
          rw [hl] at h
          simp only [Except.error.injEq] at h
          subst h
          rw [ih hl]
      · simp [settle] at h
  refine ⟨?_, ?_⟩
  · unfold validate at hs ⊢
    rw [hx] at hs
    simp only [run, Run.andThen, hx, hr]
    exact ht _ hs
  · simp [validate, run, Run.andThen, hr, settle]

/-- Values that are not paths are not refused but fail. -/
theorem C317_other_violated (c : Chk) (p : Bool) (l : List S) :
    validate (.check c p) .other = .error .attributeError
    ∧ validate (.anyOf (.check c p :: l)) .other = .error .attributeError := by
  simp [validate, run, runAny, check, settle]

/-- Only what has no failed check is refused with InvalidValue: a single check never is. -/
theorem C317_check_violated (c : Chk) (p : Bool) (v : V) : validate (.check c p) v ≠ .error .invalidValue := by
  cases v with
  | other => simp [validate, run, check, settle]
  | path k =>
    by_cases h : (Is c k ↔ p = true)
    · simp [validate, run, (check_ok c p k).1 h, settle]
    · simp [validate, run, (check_ok c p k).2 h, settle]

theorem valid_plain {r : Run} (h : r.exc = none) : ∃ b, r.valid = .ok b := by
  obtain ⟨l, x⟩ := r
  cases h
  cases l with
  | nil => exact ⟨true, rfl⟩
  | cons => exact ⟨false, rfl⟩

theorem andThen_plain {r s : Run} (hr : r.exc = none) (hs : s.exc = none) : (r.andThen s).exc = none := by
  unfold Run.andThen
  rw [hr]
  exact hs

mutual
theorem run_plain (v : V) : (s : S) → Plain s → (run v s).exc = none
  | .const b, _ => rfl
  | .check c p, h => h.elim
  | .both s t, h => andThen_plain (run_plain v s h.1) (run_plain v t h.2)
  | .allOf l, h => (runs_plain v l h).1
  | .anyOf l, h => (runs_plain v l h).2.1
  | .oneOf l, h => (runs_plain v l h).2.2.1
  | .not_ s, h => by
    obtain ⟨b, hb⟩ := valid_plain (run_plain v s h)
    simp only [run, hb]
  | .cond c t e, h => by
    obtain ⟨b, hb⟩ := valid_plain (run_plain v c h.1)
    have ht := run_plain v t h.2.1
    have he := run_plain v e h.2.2
    simp only [run, hb]
    cases b
    · exact he
    · exact ht
theorem runs_plain (v : V) : (l : List S) → Plains l →
    (runAll v l).exc = none ∧ (runAny v l).exc = none ∧ (runOne v l).exc = none ∧ ∃ n, moreValid v l = .ok n
  | [], _ => ⟨rfl, rfl, rfl, 0, rfl⟩
  | s :: l, h => by
    have hs := run_plain v s h.1
    obtain ⟨h1, h2, h3, n, h4⟩ := runs_plain v l h.2
    obtain ⟨b, hb⟩ := valid_plain hs
    refine ⟨?_, ?_, ?_, ?_⟩
    · exact andThen_plain (r := (run v s).indexed) hs h1
    · simp only [runAny]
      cases hr : run v s with
      | mk es x =>
        rw [hr] at hs
        cases hs
        cases es
        · rfl
        · exact h2
    · simp only [runOne]
      cases hr : run v s with
      | mk es x =>
        rw [hr] at hs
        cases hs
        cases es
        · simp only [h4]
        · exact h3
    · simp only [moreValid, hb, h4]
      exact ⟨_, rfl⟩
end

/-- Where no keyword on paths is used, a refusal is InvalidValue or, for errors with an index, TypeError. -/
theorem C317_plain_partial (s : S) (h : Plain s) (v : V) (e : Exc) (he : validate s v = .error e) :
    e = .invalidValue ∨ e = .typeError := by
  rcases settle_error _ _ _ he with h' | h'
  · exact h'.2.symm
  · rw [run_plain v s h] at h'
    cases h'

example : Plain (.both (.const false) (.anyOf [])) := ⟨trivial, trivial⟩
example : validate (.both (.const false) (.anyOf [])) (.path .file) = .error .invalidValue := by decide +kernel
example : validate (.both (.const false) (.check .isPathDir true)) (.path .file) = .error .validationError := by
  decide +kernel

end Verif.PathCheck
