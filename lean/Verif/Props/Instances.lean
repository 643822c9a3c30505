import Verif.Spec.Instances
/-
C360, and C202 of classes.
-/
namespace Verif.Instances
open Instances.Spec

/-! ### C360: an instance is evaluated to itself, if it is valid -/

/-- A valid instance is kept, whatever the options. -/
theorem C360_kept {α : Type} (c : Cls α) (o : Opts) (v : α) (hi : c.isInst v = true) (hv : c.valid v = true) :
    evaluate c o v = .ok v := by
  simp [evaluate, hi, validated, hv]

/-- No instance is ever replaced by another value. -/
theorem C360_same {α : Type} (c : Cls α) (o : Opts) (v w : α) (hi : c.isInst v = true) (h : evaluate c o v = .ok w) :
    w = v := by
  simp only [evaluate, hi, if_true, validated] at h
  split at h
  · cases h
  · cases h; rfl

/-- What evaluation gives is evaluated to itself, by any chain of calls with the same options. -/
theorem C360_again {α : Type} (c : Cls α) (hm : Makes c) (o : Opts) (hc : o.convert ≠ some false) (v w : α)
    (h : evaluate c o v = .ok w) : (n : Nat) → evaluates c (List.replicate n o) w = .ok w
  | 0 => rfl
  | n + 1 => by
    have h1 : evaluate c o w = .ok w := by
      have hcv : o.convert.getD true = true := by
        cases hh : o.convert with
        | none => rfl
        | some b => cases b with
          | true => rfl
          | false => exact absurd hh hc
      cases hi : c.isInst v with
      | true =>
        have := C360_same c o v w hi h
        subst this
        exact h
      | false =>
        have key : c.isInst w = true ∧ (o.validate.getD true = true → c.valid w = true) := by
          simp only [evaluate, hi, Bool.false_eq_true, if_false, evaluateData, hcv, if_true] at h
          split at h
          · cases h
          next x hx =>
            have hx' := hm.1 _ _ hx
            split at h
            · cases h
            next y hy =>
              have hy' : c.isInst y = true := by
                split at hy
                · exact hm.2 _ _ _ hx' hy
                · cases hy; exact hx'
              unfold validated at h
              split at h
              · cases h
              next hn =>
                cases h
                refine ⟨hy', fun hv => ?_⟩
                simpa [hv] using hn
        simp only [evaluate, key.1, if_true, validated]
        cases hh : o.validate with
        | none => simp
        | some b =>
          rw [hh] at key
          cases b with
          | true => simp [key.2 rfl]
          | false => simp
    rw [List.replicate_succ, evaluates, h1]
    exact C360_again c hm o hc v w h n

/-- With `validate=True`, an instance that is not valid is refused. -/
theorem C360_refused_partial {α : Type} (c : Cls α) (o : Opts) (ho : o.validate = some true) (v : α)
    (hi : c.isInst v = true) (hv : c.valid v = false) : evaluate c o v = .error .invalidValue := by
  simp [evaluate, hi, validated, hv, ho]

/-- Without the option, which makes data be validated, an instance that is not valid is accepted: the data it is made from
are refused. -/
theorem C360_unchecked_violated {α : Type} (c : Cls α) (v d : α) (hi : c.isInst v = true) (hv : c.valid v = false)
    (hd : c.isInst d = false) (hc : c.convert d = .ok v) (hl : c.lazy = true) :
    evaluate c {} v = .ok v ∧ evaluate c {} d = .error .invalidValue := by
  simp [evaluate, hi, hd, validated, hv, evaluateData, hc, hl]

/-- Instances are odd numbers; even numbers are data, made into the next number. Valid are the numbers above 10. -/
def odd : Cls Nat :=
  { isInst := fun n => n % 2 == 1, convert := fun n => .ok (if n % 2 = 1 then n else n + 1), items := fun _ n => .ok n
    valid := fun n => decide (10 < n), lazy := true }

example : Makes odd := by
  refine ⟨fun v w h => ?_, fun b v w hv h => ?_⟩
  · simp only [odd, Except.ok.injEq] at h ⊢
    subst h
    split
    · simp_all
    · simp; omega
  · simp only [odd, Except.ok.injEq] at h ⊢
    subst h
    exact hv

example : (evaluate odd {} 13).toOption = some 13 ∧ (evaluate odd {} 12).toOption = some 13
    ∧ (evaluate odd {} 3).toOption = some 3 ∧ (evaluate odd {} 2).toOption = none
    ∧ (evaluate odd { validate := some true } 3).toOption = none
    ∧ (evaluate odd { validate := some false } 2).toOption = some 3
    ∧ (evaluates odd [{}, {}] 12).toOption = some 13 := by decide +kernel

/-! ### C202 of classes -/

/-- A class has a default exactly if one is declared, also an empty one. -/
theorem C202_class_partial {δ : Type} (truthy : δ → Bool) (own : δ) (declared : Option δ)
    (h : Agree truthy own declared) : hasDefault truthy own declared none = true ↔ declared ≠ none := by
  rcases h with h | ⟨h, h'⟩
  · simp [hasDefault, h]
  · simp [hasDefault, h, h']

/-- A value that is given, and is not empty, is a default; an empty one is no default unless one is declared. -/
theorem C202_class_given_partial {δ : Type} (truthy : δ → Bool) (own v : δ) (declared : Option δ) :
    hasDefault truthy own declared (some v) = true ↔ truthy v = true ∨ declared ≠ none := by
  cases declared <;> simp [hasDefault]

example : hasDefault (fun l : List Nat => !l.isEmpty) [] (some []) none = true
    ∧ hasDefault (fun l : List Nat => !l.isEmpty) [] none none = false
    ∧ hasDefault (fun l : List Nat => !l.isEmpty) [1] (some [1]) none = true
    ∧ hasDefault (fun l : List Nat => !l.isEmpty) [] none (some [2]) = true
    ∧ hasDefault (fun l : List Nat => !l.isEmpty) [] none (some []) = false := by decide

end Verif.Instances
