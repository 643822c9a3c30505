/-
The Python-like base of the model: exceptions as values, insertion-ordered dictionaries,
documents.
-/
set_option linter.unusedSectionVars false

namespace Verif

/-- Python exceptions the modelled code raises (or lets through), as values. -/
inductive Exc where
  | keyError | typeError | indexError | attributeError | assertionError | valueError
  | stopIteration | nameError | unboundLocalError | runtimeError | osError | lookupError | recursionError
  | invalidValue      -- ngoschema.exceptions.InvalidValue
  | invalidOperation  -- ngoschema.exceptions.InvalidOperation
  | conversionError   -- ngoschema.exceptions.ConversionError
  | validationError   -- ngoschema.exceptions.ValidationError
  | exception         -- a bare `Exception`
  | user (n : Nat)    -- an exception raised by code the caller supplies
  deriving DecidableEq, Repr

/-- The outcome of a Python call. -/
abbrev Res (α : Type _) := Except Exc α

instance {α} [DecidableEq α] : DecidableEq (Res α) := fun a b =>
  match a, b with
  | .ok x, .ok y => if h : x = y then .isTrue (by rw [h]) else .isFalse (by simp [h])
  | .error x, .error y => if h : x = y then .isTrue (by rw [h]) else .isFalse (by simp [h])
  | .ok _, .error _ => .isFalse (by simp)
  | .error _, .ok _ => .isFalse (by simp)

/-- A Python `dict`: an association list in insertion order. Well formed when no key occurs
twice (`AList.WF`); every dictionary operation below preserves this. -/
abbrev AList (κ υ : Type _) := List (κ × υ)

namespace AList
variable {κ υ : Type _} [DecidableEq κ]

/-- `d[k]` / `d.get(k)`: `none` stands for an absent key. -/
def get? : AList κ υ → κ → Option υ
  | [], _ => none
  | (k', v) :: d, k => if k' = k then some v else get? d k

/-- `list(d)`. -/
def keys (d : AList κ υ) : List κ := d.map Prod.fst

/-- `k in d`. -/
def contains (d : AList κ υ) (k : κ) : Bool := (get? d k).isSome

/-- `d[k] = v`: replaces in place or appends. -/
def set : AList κ υ → κ → υ → AList κ υ
  | [], k, v => [(k, v)]
  | (k', v') :: d, k, v => if k' = k then (k', v) :: d else (k', v') :: set d k v

/-- The effect of `del d[k]` on a present key (identity on an absent one). -/
def erase (d : AList κ υ) (k : κ) : AList κ υ := d.filter (fun p => p.1 ≠ k)

/-- `d.update(e)`: the entries of `e` assigned one by one. -/
def update (d e : AList κ υ) : AList κ υ := e.foldl (fun d p => set d p.1 p.2) d

/-- No key occurs twice. -/
def WF (d : AList κ υ) : Prop := (keys d).Nodup

theorem keys_nil : keys ([] : AList κ υ) = [] := rfl
theorem keys_cons (p : κ × υ) (d : AList κ υ) : keys (p :: d) = p.1 :: keys d := rfl

theorem get?_eq_none {d : AList κ υ} {k : κ} : get? d k = none ↔ k ∉ keys d := by
  induction d with
  | nil => simp [get?, keys]
  | cons p d ih => grind [get?, keys]

theorem get?_isSome {d : AList κ υ} {k : κ} : (get? d k).isSome ↔ k ∈ keys d := by
  have := get?_eq_none (d := d) (k := k)
  cases h : get? d k <;> grind

theorem contains_iff {d : AList κ υ} {k : κ} : contains d k = true ↔ k ∈ keys d := get?_isSome

theorem mem_of_get? {d : AList κ υ} {k : κ} {v : υ} (h : get? d k = some v) : (k, v) ∈ d := by
  induction d with
  | nil => simp [get?] at h
  | cons p d ih => grind [get?]

theorem get?_of_mem {d : AList κ υ} (wf : WF d) {k : κ} {v : υ} (h : (k, v) ∈ d) :
    get? d k = some v := by
  induction d with
  | nil => simp at h
  | cons p d ih =>
    simp only [WF, keys_cons, List.nodup_cons] at wf
    have hk : (k, v) ∈ d → k ∈ keys d := fun h => List.mem_map.2 ⟨_, h, rfl⟩
    have := ih wf.2
    grind [get?]

theorem get?_iff_mem {d : AList κ υ} (wf : WF d) {k : κ} {v : υ} :
    get? d k = some v ↔ (k, v) ∈ d := ⟨mem_of_get?, get?_of_mem wf⟩

theorem get?_set (d : AList κ υ) (k k' : κ) (v : υ) :
    get? (set d k v) k' = if k = k' then some v else get? d k' := by
  induction d with
  | nil => simp [set, get?]
  | cons p d ih => grind [get?, set]

theorem get?_set_self (d : AList κ υ) (k : κ) (v : υ) : get? (set d k v) k = some v := by
  simp [get?_set]

theorem get?_set_ne (d : AList κ υ) {k k' : κ} (v : υ) (h : k ≠ k') :
    get? (set d k v) k' = get? d k' := by simp [get?_set, h]

theorem keys_set (d : AList κ υ) (k : κ) (v : υ) :
    keys (set d k v) = if k ∈ keys d then keys d else keys d ++ [k] := by
  induction d with
  | nil => simp [set, keys]
  | cons p d ih => grind [keys, set]

theorem mem_keys_set {d : AList κ υ} {k k' : κ} {v : υ} :
    k' ∈ keys (set d k v) ↔ k' = k ∨ k' ∈ keys d := by
  rw [keys_set]; split <;> grind

theorem wf_nil : WF ([] : AList κ υ) := by simp [WF, keys]

theorem wf_set {d : AList κ υ} (wf : WF d) (k : κ) (v : υ) : WF (set d k v) := by
  unfold WF at *
  rw [keys_set]; split
  · exact wf
  · rw [List.nodup_append]; grind

theorem keys_erase (d : AList κ υ) (k : κ) : keys (erase d k) = (keys d).filter (· ≠ k) := by
  induction d with
  | nil => rfl
  | cons p d ih => grind [keys, erase]

theorem wf_erase {d : AList κ υ} (wf : WF d) (k : κ) : WF (erase d k) := by
  unfold WF at *
  rw [keys_erase]; exact wf.filter _

theorem get?_erase (d : AList κ υ) (k k' : κ) :
    get? (erase d k) k' = if k' = k then none else get? d k' := by
  induction d with
  | nil => simp [erase, get?]
  | cons p d ih => grind [get?, erase]

theorem get?_append (d e : AList κ υ) (k : κ) :
    get? (d ++ e) k = (get? d k).or (get? e k) := by
  induction d with
  | nil => simp [get?]
  | cons p d ih => grind [get?]

theorem wf_update {d : AList κ υ} (wf : WF d) (e : AList κ υ) : WF (update d e) := by
  unfold update
  induction e generalizing d with
  | nil => exact wf
  | cons p e ih => exact ih (wf_set wf _ _)

theorem get?_update (d : AList κ υ) {e : AList κ υ} (wf : WF e) (k : κ) :
    get? (update d e) k = (get? e k).or (get? d k) := by
  unfold update
  induction e generalizing d with
  | nil => simp [get?]
  | cons p e ih =>
    simp only [WF, keys_cons, List.nodup_cons] at wf
    rw [List.foldl_cons, ih _ wf.2, get?_set]
    have := (get?_eq_none (d := e) (k := p.1)).2 wf.1
    grind [get?]

end AList
end Verif
