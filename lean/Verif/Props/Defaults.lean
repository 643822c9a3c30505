import Verif.Model.Defaults
/-
C200-C204: constant types, defaults, precision.
-/
namespace Verif.Defaults

/-! ### C200: null accepts None, true everything, false nothing -/

/-- The type `true` accepts what its evaluation gives, checks and validates everything and writes it as it is. -/
theorem C200_true_partial (ev : Val → Res Val) (v : Val) (h : v ≠ .none) : evaluate ev .true v = ev v
    ∧ check .true v = true ∧ validate true .true v = .ok v ∧ serialize .true v = v := by
  refine ⟨?_, rfl, rfl, rfl⟩
  rw [evaluate, if_neg h, convert]
  cases ev v <;> rfl

example : evaluate .ok .true (.int 3) = .ok (.int 3) := by decide +kernel

/-- The type `false` refuses everything but None, by validation as by evaluation. -/
theorem C200_false_partial (ev : Val → Res Val) (v : Val) (h : v ≠ .none) :
    validate true .false v = .error .invalidValue ∧ ∀ r, evaluate ev .false v ≠ .ok r := by
  refine ⟨rfl, fun r => ?_⟩
  rw [evaluate, if_neg h, convert, if_neg h]
  simp

example : evaluate .ok .false (.int 3) = .error .typeError := by decide +kernel

/-- The type `null` accepts every value when evaluating, and none when checking, not even None. -/
theorem C200_null_violated (ev : Val → Res Val) (v : Val) : evaluate ev .null v = .ok v
    ∧ check .null v = false ∧ validate true .null v = .error .invalidValue := by
  refine ⟨?_, rfl, rfl⟩
  rw [evaluate]
  by_cases h : v = .none
  · rw [if_pos h, h]
  · rw [if_neg h]; rfl

/-- The type `false` accepts None, and refuses the rest by TypeError. -/
theorem C200_false_violated (ev : Val → Res Val) : evaluate ev .false .none = .ok .none
    ∧ ∀ v, v ≠ .none → evaluate ev .false v = .error .typeError := by
  refine ⟨rfl, fun v h => ?_⟩
  rw [evaluate, if_neg h, convert, if_neg h]

/-- Values of null and false are written as None. -/
theorem C200_written_violated (v : Val) : serialize .null v = .none ∧ serialize .false v = .none := ⟨rfl, rfl⟩

/-! ### C201: a missing value stands for the declared default -/

/-- For types that are no enumerations, and for defaults that are true. -/
theorem C201_missing_partial (conv : Val → Res Val) (d : Decl) (v : Val) (hd : d.default = some v) (hv : v ≠ .none)
    (h : d.enum = [] ∨ v.truthy = true) : missing conv d.ofInstance = conv v := by
  have hc : d.ofClass = v := by rw [Decl.ofClass, hd]
  have : d.ofInstance = v := by
    rw [Decl.ofInstance]
    split
    · exact hc
    · next e _ he =>
      rcases h with h | h
      · rw [h] at he; exact absurd he (by simp)
      · rw [hc, if_pos h]
  rw [this, missing, if_neg hv]

example : missing .ok (Decl.ofInstance ⟨some (.int 0), []⟩) = .ok (.int 0)
    ∧ missing .ok (Decl.ofInstance ⟨some (.int 2), [.int 1, .int 2]⟩) = .ok (.int 2) := by decide +kernel

/-- Without a default, an enumeration has its first value. -/
theorem C201_first_partial (v : Val) (vs : List Val) : (Decl.mk none (v :: vs)).ofInstance = v := by
  show (if v.truthy = true then v else v) = v
  simp

example : missing .ok (Decl.ofInstance ⟨none, [.int 1, .int 2]⟩) = .ok (.int 1) := by decide +kernel

/-- In an enumeration, a false default is always replaced by the first value; the class keeps it. -/
theorem C201_enum_violated (v w : Val) (vs : List Val) (hv : v.truthy = false) :
    (Decl.mk (some v) (w :: vs)).ofInstance = w ∧ (Decl.mk (some v) (w :: vs)).ofClass = v := by
  refine ⟨?_, rfl⟩
  simp [Decl.ofInstance, Decl.ofClass, hv]

example : missing .ok (Decl.ofInstance ⟨some (.int 0), [.int 1, .int 0]⟩) = .ok (.int 1) := by decide +kernel

/-! ### C202: `has_default` tells whether there is a default -/

/-- If the default is true. -/
theorem C202_true_partial (d : Decl) (v : Val) (hd : d.default = some v) (hv : v.truthy = true) :
    hasDefault d.ofClass = true := by
  have : d.ofClass = v := by rw [Decl.ofClass, hd]
  rw [this, hasDefault, hv]; simp

/-- And if there is none. -/
theorem C202_none_partial (d : Decl) (hd : d.default = none) (he : d.enum = []) : hasDefault d.ofClass = false := by
  rw [Decl.ofClass, hd, he]; rfl

example : hasDefault (Decl.ofClass ⟨some (.int 1), []⟩) = true ∧ hasDefault (Decl.ofClass ⟨none, []⟩) = false := by
  decide +kernel

/-- A false default is not seen, though it is used. -/
theorem C202_false_violated (conv : Val → Res Val) (v : Val) (hv : v.truthy = false) (hn : v ≠ .none) :
    hasDefault (Decl.mk (some v) []).ofClass = false ∧ missing conv (Decl.mk (some v) []).ofInstance = conv v := by
  constructor
  · simp only [hasDefault, Decl.ofClass, hv]; rfl
  · simp [missing, Decl.ofInstance, Decl.ofClass, hn]

example : (Val.int 0).truthy = false ∧ (Val.bool false).truthy = false ∧ (Val.str []).truthy = false := by decide +kernel

/-! ### C203: `default` gives the declared default, or the value that is given -/

/-- For a value that is true, and if no value is given. -/
theorem C203_value_partial (conv : Val → Res Val) (dflt v : Val) (hv : v.truthy = true) :
    default conv dflt v = conv v ∧ (dflt ≠ .none → default conv dflt = conv dflt) := by
  constructor
  · simp only [default, hv, if_true]
    rw [if_neg]; rintro rfl; exact absurd hv (by decide)
  · intro h; simp [default, h, Val.truthy]

example : default .ok (.int 5) (.int 3) = .ok (.int 3) := by decide +kernel

/-- A false value is replaced by the default. -/
theorem C203_false_violated (conv : Val → Res Val) (dflt v : Val) (hv : v.truthy = false) (hd : dflt ≠ .none) :
    default conv dflt v = conv dflt := by simp [default, hv, hd]

/-- The default of an array keeps the items that are true. -/
theorem C203_array_partial (conv : Val → Res Val) (dflt : Val) : (l : List Val) → (∀ v ∈ l, v.truthy = true) →
    (∀ v ∈ l, conv v = .ok v) → arrayDefault conv dflt l = .ok l
  | [], _, _ => rfl
  | v :: l, h, hc => by
    have h1 := h v (by simp)
    rw [arrayDefault, hasDefault, h1]
    simp only [Bool.true_or, if_true]
    rw [(C203_value_partial conv dflt v h1).1, hc v (by simp)]
    simp only
    rw [C203_array_partial conv dflt l (fun v hv => h v (by simp [hv])) fun v hv => hc v (by simp [hv])]

example : arrayDefault .ok .none [.int 1, .int 2] = .ok [.int 1, .int 2] := by decide +kernel

/-- Items that are false become None, or the default of the items. -/
theorem C203_array_violated : arrayDefault .ok .none [.int 0, .int 1] = .ok [.none, .int 1]
    ∧ arrayDefault .ok (.int 5) [.int 0, .int 1] = .ok [.int 5, .int 1] := by decide +kernel

/-! ### C204: the precision of a number type is used for its values, and for no others -/

/-- Evaluating a number uses the precision of its type, whatever was used before. -/
theorem C204_own_partial (p : Nat) (l : List Use) (prec : Nat) (conv : Nat → Val → Res Val) (v : Val) :
    (use (after p l) (.evaluateNumber prec conv v)).1 = conv prec v := rfl

example : (use (after 28 [.evaluateNumber 3 (fun p _ => .ok (.int p)) .none]) (.evaluateNumber 12 (fun p _ => .ok (.int p)) .none)).1
    = .ok (.int 12) := by decide +kernel

/-- The precision for everything else is the one of the last number that was evaluated, of any type. -/
theorem C204_last_violated (p : Nat) (l l' : List Use) (prec : Nat) (conv conv' : Nat → Val → Res Val) (v w : Val)
    (h : ∀ u ∈ l', ∃ c x, u = .other c x) :
    (use (after p (l ++ .evaluateNumber prec conv v :: l')) (.other conv' w)).1 = conv' prec w := by
  have : ∀ l' : List Use, (∀ u ∈ l', ∃ c x, u = .other c x) → ∀ q, after q l' = q := by
    intro l'
    induction l' with
    | nil => intro _ q; rfl
    | cons u l' ih =>
      intro h q
      obtain ⟨c, x, rfl⟩ := h u (by simp)
      exact ih (fun u hu => h u (by simp [hu])) q
  have : after p (l ++ .evaluateNumber prec conv v :: l') = prec := by
    rw [after, List.foldl_append, List.foldl_cons]
    exact this l' h prec
  rw [this]; rfl

example : (use (after 28 []) (.other (fun p _ => .ok (.int p)) .none)).1 = .ok (.int 28)
    ∧ (use (after 28 [.evaluateNumber 3 (fun p _ => .ok (.int p)) .none]) (.other (fun p _ => .ok (.int p)) .none)).1
      = .ok (.int 3) := by decide +kernel

end Verif.Defaults
