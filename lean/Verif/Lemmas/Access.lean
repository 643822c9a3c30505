import Verif.Spec.Access
/-
Reads and assignments take nothing away.
-/
namespace Verif.Access
open Obj

theorem Kept.refl (o : Obj) : Kept o o := ⟨fun _ h => h, fun _ h => h, fun _ h => h⟩

theorem Kept.trans {a b c : Obj} (h : Kept a b) (h' : Kept b c) : Kept a c :=
  ⟨fun k x => h'.data k (h.data k x), fun k x => h'.validated k (h.validated k x), fun k x => h'.inputs k (h.inputs k x)⟩

theorem isSome_set {υ : Type} (d : AList Str υ) (k : Str) (v : υ) (x : Str) (h : (d.get? x).isSome) :
    ((d.set k v).get? x).isSome := by
  by_cases e : x = k
  · subst e; rw [AList.get?_set_self]; rfl
  · rw [AList.get?_set_ne d v (Ne.symm e)]; exact h

theorem kept_data (o : Obj) (k : Str) (v : Val) : Kept o { o with data := o.data.set k v } :=
  ⟨fun _ h => isSome_set _ _ _ _ h, fun _ h => h, fun _ h => h⟩
theorem kept_validated (o : Obj) (k : Str) (v : Val) : Kept o { o with validated := o.validated.set k v } :=
  ⟨fun _ h => h, fun _ h => isSome_set _ _ _ _ h, fun _ h => h⟩
theorem kept_inputs (o : Obj) (k : Str) (v : AList Str Val) : Kept o { o with inputs := o.inputs.set k v } :=
  ⟨fun _ h => h, fun _ h => h, fun _ h => isSome_set _ _ _ _ h⟩

theorem kept_reset (k : Str) (o : Obj) : Kept o (reset k o) :=
  ⟨fun _ h => h, fun _ h => isSome_set _ _ _ _ h, fun _ h => isSome_set _ _ _ _ h⟩

theorem kept_forEach (f : Str → Obj → Out Unit) (hf : ∀ k o, Kept o (f k o).2) (ks : List Str) (o : Obj) :
    Kept o (forEach f ks o).2 := by
  induction ks generalizing o with
  | nil => exact .refl o
  | cons k ks ih =>
    have h := hf k o
    simp only [forEach]
    split <;> rename_i o' e <;> rw [e] at h
    · exact h.trans (ih o')
    · exact h

theorem kept_touch (c : Obj.Cls) (n : Nat) (k : Str) (o : Obj) : Kept o (touch c n k o).2 := by
  induction n generalizing k o with
  | zero => exact .refl o
  | succ n ih =>
    have h := (kept_reset k o).trans (kept_forEach (touch c n) ih (dependents c k) (reset k o))
    simp only [touch]
    split <;> rename_i o' e <;> rw [e] at h
    · exact h.trans (kept_forEach _ ih _ o')
    · exact h

theorem kept_setData (c : Obj.Cls) (k : Str) (v : Val) (o : Obj) : Kept o (setData c k v o).2 := by
  simp only [setData]
  split
  · exact .refl o
  · split
    · exact kept_data ..
    · have h := kept_touch c c.limit k o
      split <;> rename_i o' e <;> rw [e] at h
      · exact h
      · exact h.trans (kept_data ..)

theorem kept_setValidated (c : Obj.Cls) (k : Str) (w : Val) (o : Obj) : Kept o (setValidated c k w o).2 := by
  simp only [setValidated]
  split
  · split
    · exact .refl o
    · split
      · exact kept_validated ..
      · exact (kept_data o k w).trans (kept_validated ..)
  · exact (kept_data o k w).trans (kept_validated ..)

theorem kept_store (c : Obj.Cls) (k : Str) (o : Obj) : Kept o (store c k o).2 := by
  simp only [store]
  split
  · exact .refl o
  · exact kept_setValidated ..

section
variable {c : Obj.Cls} {rd : Str → Obj → Out Val} (hrd : ∀ k o, Kept o (rd k o).2)
include hrd

theorem kept_collect (xs : List Str) (m : AList Str Val) (o : Obj) : Kept o (collect rd xs m o).2 := by
  induction xs generalizing m o with
  | nil => exact .refl o
  | cons x xs ih =>
    have h := hrd x o
    simp only [collect]
    split <;> rename_i o' e <;> rw [e] at h <;> exact h.trans (ih _ o')

theorem kept_inputsOf (k : Str) (o : Obj) : Kept o (inputsOf c rd k o).2 := by
  have h := kept_collect hrd (depsOf c k) [] o
  simp only [inputsOf]
  split
  · split
    · exact h
    · exact h.trans (kept_collect hrd _ _ _)
  · exact h

theorem kept_isOutdated (k : Str) (o : Obj) : Kept o (isOutdated c rd k o).2 := by
  have h := kept_inputsOf (c := c) hrd k o
  have hc : Kept o (inputsChanged c rd k o).2 := by
    simp only [inputsChanged]
    split <;> rename_i o' e <;> rw [e] at h <;> exact h
  simp only [isOutdated]
  split
  · exact .refl o
  · split
    · exact .refl o
    · exact hc
    · exact .refl o
  · exact hc

theorem kept_readArgs (xs : List Str) (o : Obj) : Kept o (readArgs rd xs o).2 := by
  induction xs generalizing o with
  | nil => exact .refl o
  | cons x xs ih =>
    have h := hrd x o
    simp only [readArgs]
    split <;> rename_i o' e <;> rw [e] at h
    · exact h
    · have h' := ih o'
      split <;> rename_i o'' e' <;> rw [e'] at h' <;> exact h.trans h'

theorem kept_runGetter (k : Str) (o : Obj) : Kept o (runGetter c rd k o).2 := by
  simp only [runGetter]
  split
  · exact .refl o
  · rename_i g _
    have h := kept_readArgs hrd g.args o
    split <;> rename_i o' e <;> rw [e] at h
    · exact h
    · split
      · exact h
      · exact h.trans (kept_setData ..)

theorem kept_refresh (k : Str) (o : Obj) : Kept o (refresh c rd k o).2 := by
  have h := kept_inputsOf (c := c) hrd k o
  simp only [refresh]
  split <;> rename_i o1 e <;> rw [e] at h
  · exact h
  · have h1 := h.trans (kept_runGetter (c := c) hrd k o1)
    split <;> rename_i o2 e <;> rw [e] at h1
    · exact h1
    · have h2 := h1.trans (kept_store c k o2)
      split <;> rename_i o3 e <;> rw [e] at h2
      · exact h2
      · exact h2.trans (kept_inputs ..)

theorem kept_reload (k : Str) (o : Obj) : Kept o (reload c rd k o).2 := by
  have h := kept_inputsOf (c := c) hrd k o
  simp only [reload]
  split <;> rename_i o1 e <;> rw [e] at h
  · exact h
  · exact (h.trans (kept_inputs ..)).trans (kept_store ..)

theorem validatedOf_obj (k : Str) (o : Obj) : (validatedOf k o).2 = o := by
  simp only [validatedOf]; split <;> rfl

theorem kept_descGet (k : Str) (o : Obj) : Kept o (descGet c rd k o).2 := by
  have h := kept_isOutdated (c := c) hrd k o
  simp only [descGet]
  split <;> rename_i o1 e <;> rw [e] at h
  · exact h
  · split
    · have h1 := h.trans (kept_refresh (c := c) hrd k o1)
      split <;> rename_i o2 e <;> rw [e] at h1
      · exact h1
      · rw [validatedOf_obj hrd]; exact h1
    · rw [validatedOf_obj hrd]; exact h

theorem kept_plainGet (k : Str) (o : Obj) : Kept o (plainGet c rd k o).2 := by
  have h : Kept o (if c.lazy then (.ok true, o) else isOutdated c rd k o : Out Bool).2 := by
    split
    · exact .refl o
    · exact kept_isOutdated hrd k o
  simp only [plainGet]
  split <;> rename_i o1 e <;> rw [e] at h
  · exact h
  · split
    · have h1 := h.trans (kept_reload (c := c) hrd k o1)
      split <;> rename_i o2 e <;> rw [e] at h1
      · exact h1
      · rw [validatedOf_obj hrd]; exact h1
    · rw [validatedOf_obj hrd]; exact h

theorem kept_descSet (k : Str) (v : Val) (o : Obj) : Kept o (descSet c rd k v o).2 := by
  simp only [descSet]
  split
  · exact .refl o
  · have h := kept_setData c k v o
    split <;> rename_i o1 e <;> rw [e] at h
    · exact h
    · split
      · exact h
      · exact h.trans (kept_reload hrd k o1)
end

theorem through_obj (c : Obj.Cls) (k : Str) (r : Out Val) : (through c k r).2 = r.2 := by
  simp only [through]; split <;> rfl

theorem kept_getItem (c : Obj.Cls) (n : Nat) (k : Str) (o : Obj) : Kept o (getItem c n k o).2 := by
  induction n generalizing k o with
  | zero => exact .refl o
  | succ n ih =>
    simp only [getItem]
    split
    · exact .refl o
    · split
      · exact .refl o
      · split
        · rw [through_obj]; exact kept_descGet ih _ _
        · rw [through_obj]; exact kept_plainGet ih _ _

theorem kept_setItem (c : Obj.Cls) (n : Nat) (k : Str) (v : Val) (o : Obj) : Kept o (setItem c n k v o).2 := by
  simp only [setItem]
  split
  · exact .refl o
  · split
    · split
      · exact .refl o
      · exact kept_descSet (kept_getItem c n) _ _ _
    · split
      · exact .refl o
      · split
        · exact .refl o
        · exact (kept_data o k _).trans (kept_validated ..)

theorem kept_additional (c : Obj.Cls) (n : Nat) (name raw : Str) (o : Obj) : Kept o (additional c n name raw o).2 := by
  have h := kept_inputsOf (c := c) (kept_getItem c n) name o
  simp only [additional]
  split <;> rename_i o1 e <;> rw [e] at h
  · exact h
  · rw [through_obj]; exact (h.trans (kept_inputs ..)).trans (kept_getItem ..)

theorem kept_fallback (c : Cls) (n : Nat) (name : Str) (o : Obj) : Kept o (fallback c n name o).2 := by
  simp only [fallback]
  repeat' split
  all_goals first
    | exact .refl o
    | (rw [through_obj]; exact kept_descGet (kept_getItem c.base n) _ _)
    | exact kept_additional ..
    | (rw [through_obj]; exact .refl o)

theorem kept_lookup (c : Cls) (n : Nat) (name : Str) (i : Inst) : Kept i.obj (lookup c n name i).2 := by
  simp only [lookup]
  split
  · rename_i raw _
    have h := kept_descGet (c := c.base) (kept_getItem c.base n) raw i.obj
    split
    · rename_i o1 e; rw [e] at h; exact h.trans (kept_fallback ..)
    · exact h
  · simp only [ownOr]; split <;> exact .refl _
  · simp only [ownOr]; split
    · exact .refl _
    · exact kept_fallback ..

/-! ### Names that say nothing -/

theorem get?_none_of_fst {υ : Type} {d : AList Str υ} {k : Str} (h : k ∉ d.map Prod.fst) : d.get? k = none :=
  AList.get?_eq_none.2 h

theorem translated_none {c : Cls} {name : Str} (u : Unknown c name) : translated c.base name = none := by
  simp only [translated, List.find?_eq_none]
  intro p hp hh
  simp only [Bool.or_eq_true, decide_eq_true_eq] at hh
  rcases hh with h | h
  · exact u.spelt (h ▸ List.mem_map_of_mem hp)
  · exact u.clean (h ▸ List.mem_map_of_mem hp)

theorem rawName_unknown {c : Cls} {name : Str} (u : Unknown c name) :
    rawName c.base name = if c.base.additional then some name else none := by
  simp only [rawName, if_neg u.prop, translated_none u, aliasOf, get?_none_of_fst u.alias, get?_none_of_fst u.neg]

theorem unalias_unknown {c : Cls} {name : Str} (u : Unknown c name) : unalias c.base name = name := by
  simp [unalias, get?_none_of_fst u.alias, get?_none_of_fst u.neg]

theorem op_unknown {c : Cls} {name : Str} (u : Unknown c name) (v : Val) : op c.base name v = .ok v := by
  have : AList.contains c.base.negated name = false := by
    cases h : AList.contains c.base.negated name with
    | false => rfl
    | true => exact absurd (AList.contains_iff.1 h) u.neg
  simp [op, this]

theorem isPrivate_false {name : Str} (h : Public name) : isPrivate name = false := by
  cases name with
  | nil => rfl
  | cons a s =>
    have : a ≠ '_' := fun e => h (by rw [e]; rfl)
    simp [isPrivate, List.isPrefixOf, Ne.symm this]

theorem isPrivate_true {name : Str} (h : ¬ Public name) : isPrivate name = true := by
  cases name with
  | nil => exact absurd (by decide) h
  | cons a s =>
    have : a = '_' := by
      by_cases e : a = '_'
      · exact e
      · exact absurd (fun h' => e (by simpa using h')) h
    subst this; simp [isPrivate, List.isPrefixOf]

theorem not_allowed {c : Cls} {name : Str} (u : Unknown c name) : name ∉ allowed c.base := by
  simp only [allowed, List.mem_filter, List.mem_append, not_and]
  rintro (((((h | h) | h) | h) | h) | h)
  · exact absurd h u.prop
  · exact absurd h u.alias
  · exact absurd h u.alias'
  · exact absurd h u.neg
  · exact absurd h u.neg'
  · exact absurd h u.clean

theorem setItem_unknown {c : Cls} {name : Str} (u : Unknown c name) (n : Nat) (v : Val) (o : Obj) :
    setItem c.base n name v o = if c.base.additional
      then (.ok (), { o with data := o.data.set name v, validated := o.validated.set name v })
      else (.error .keyError, o) := by
  simp only [setItem, rawName_unknown u]
  cases h : c.base.additional <;> simp [u.prop, op_unknown u]

end Verif.Access
