import Verif.Spec.Equality
/-
Closed forms of the comparison of instances.
-/
namespace Verif.Equality
open Query (pyEq num)

theorem parentDiffers_true (p : Bool) (k : Str) : parentDiffers p k = true := by
  cases p <;> simp [parentDiffers, isMapping, pyEq]

theorem objEq_eq (p : Bool) (n : Nat) (o : Node) :
    objEq p n o = .ok (isMapping o && n == 0 && (keysOf o).isEmpty) := by
  unfold objEq
  cases hm : isMapping o with
  | false => simp
  | true =>
    simp only [Bool.not_true, Bool.false_eq_true, if_false, Bool.true_and]
    cases hk : keysOf o with
    | nil => by_cases h : n = 0 <;> simp [h, keyLoop]
    | cons k ks => by_cases h : n = ks.length + 1 <;> simp [h, keyLoop, parentDiffers_true]

theorem pyEq_refl {v : Val} (h : Scalar v) : pyEq v v = true := by
  cases v <;> simp_all [pyEq, Scalar, num]

theorem pyEq_symm {v w : Val} (hv : Scalar v) (hw : Scalar w) : pyEq v w = pyEq w v := by
  cases v <;> cases w <;> simp_all [pyEq, Scalar, num, Bool.beq_comm, eq_comm]
  all_goals (rw [Bool.eq_iff_iff]; simp [eq_comm])

theorem pyEq_trans {u v w : Val} (hu : Scalar u) (hv : Scalar v) (hw : Scalar w) (h : pyEq u v = true) (h' : pyEq v w = true) :
    pyEq u w = true := by
  cases u <;> cases v <;> cases w <;> simp_all [pyEq, Scalar, num]

variable {sub : Nat → Nat → Bool}

theorem eqNode_obj (i c : Nat) (p : Bool) (l : List (Str × Node)) (j d : Nat) (q : Bool) (m : List (Str × Node)) :
    eqNode sub (.obj i c p l) (.obj j d q m) = .ok (i == j || (l.isEmpty && m.isEmpty)) := by
  rw [eqNode]
  by_cases h : i = j
  · simp [h]
  · simp only [h, if_false, objEq_eq, isMapping, keysOf, Bool.true_and]
    have : (i == j) = false := by simp [h]
    rw [this, Bool.false_or]
    cases l <;> cases m <;> simp

theorem eqNode_arr (ho : Order sub) (i c : Nat) (l : List Node) (j d : Nat) (m : List Node) :
    eqNode sub (.arr i c l) (.arr j d m) =
      if i = j then .ok true else if c = d ∧ l.length = m.length then eqItems sub l m else .ok false := by
  rw [eqNode]
  by_cases h : i = j
  · simp [h]
  · simp only [h, if_false]
    by_cases hcd : c = d
    · subst hcd; simp [derives, ho.refl]
    · have h1 : ∀ (x : Res Bool), (if c = d ∧ l.length = m.length then x else .ok false) = .ok false := by simp [hcd]
      rw [h1]
      by_cases h2 : sub d c = true
      · have : sub c d = false := Bool.eq_false_iff.2 (fun h3 => hcd (ho.antisymm c d h3 h2))
        simp [derives, h2, this]; intro h; exact absurd h.symm hcd
      · simp [derives, h2]

theorem eqItems_ok : ∀ (l m : List Node), (∀ x ∈ l, ∀ y ∈ m, ∃ b, eqNode sub x y = .ok b) →
    (∃ b, eqItems sub l m = .ok b) ∧
    (eqItems sub l m = .ok true ↔ ∀ (k : Nat) (x y : Node), l[k]? = some x → m[k]? = some y → eqNode sub x y = .ok true)
  | [], m, _ => by rw [eqItems]; simp; simp
  | x :: l, [], _ => by rw [eqItems]; simp; simp
  | x :: l, y :: m, h => by
    obtain ⟨h1, h2⟩ := eqItems_ok l m (fun a ha b hb => h a (List.mem_cons_of_mem _ ha) b (List.mem_cons_of_mem _ hb))
    obtain ⟨b, hb⟩ := h x (by simp) y (by simp)
    rw [eqItems, hb]
    cases b with
    | false =>
      refine ⟨⟨false, rfl⟩, ?_⟩
      simp only [Except.ok.injEq, Bool.false_eq_true, false_iff]
      intro hh
      have := hh 0 x y rfl rfl
      rw [hb] at this; cases this
    | true =>
      refine ⟨h1, h2.trans ?_⟩
      constructor
      · intro hh k
        cases k with
        | zero => intro a b ha hb'; simp at ha hb'; subst ha; subst hb'; exact hb
        | succ k => intro a b ha hb'; exact hh k a b (by simpa using ha) (by simpa using hb')
      · intro hh k a b ha hb'; exact hh (k + 1) a b (by simpa using ha) (by simpa using hb')

/-- The comparison never fails. -/
theorem eqNode_ok (ho : Order sub) : ∀ (a b : Node), ∃ r, eqNode sub a b = .ok r
  | .atom v, .atom w => ⟨_, by rw [eqNode]⟩
  | .atom v, .arr _ _ _ => ⟨_, by rw [eqNode]⟩
  | .atom v, .obj _ _ p items => ⟨_, by rw [eqNode, objEq_eq]⟩
  | .obj _ _ p items, .atom v => ⟨_, by rw [eqNode, objEq_eq]⟩
  | .arr _ _ _, .atom _ => ⟨_, by rw [eqNode]⟩
  | .arr _ _ _, .obj _ _ _ _ => ⟨_, by rw [eqNode]⟩
  | .obj _ _ p items, .arr i c l => ⟨_, by rw [eqNode, objEq_eq]⟩
  | .obj i c p items, .obj j d q items' => ⟨_, eqNode_obj i c p items j d q items'⟩
  | .arr i c l, .arr j d m => by
    have := (eqItems_ok l m (fun x hx y _ => eqNode_ok ho x y)).1
    rw [eqNode_arr ho]
    by_cases h : i = j
    · exact ⟨_, if_pos h⟩
    · rw [if_neg h]
      by_cases h2 : c = d ∧ l.length = m.length
      · rw [if_pos h2]; exact this
      · exact ⟨_, if_neg h2⟩
termination_by a => sizeOf a
decreasing_by
  have := List.sizeOf_lt_of_mem hx
  simp; omega

theorem eqNode_arr_iff (ho : Order sub) (i c : Nat) (l : List Node) (j d : Nat) (m : List Node) :
    eqNode sub (.arr i c l) (.arr j d m) = .ok true ↔ i = j ∨ (c = d ∧ l.length = m.length ∧
      ∀ (k : Nat) (x y : Node), l[k]? = some x → m[k]? = some y → eqNode sub x y = .ok true) := by
  rw [eqNode_arr ho]
  by_cases h : i = j
  · simp [h]
  · rw [if_neg h]
    by_cases h2 : c = d ∧ l.length = m.length
    · rw [if_pos h2, (eqItems_ok l m (fun x _ y _ => eqNode_ok ho x y)).2]
      simp [h, h2]
    · rw [if_neg h2]
      simp only [Except.ok.injEq, Bool.false_eq_true, h, false_or, false_iff]
      exact fun h3 => h2 ⟨h3.1, h3.2.1⟩

theorem eqNode_symm (ho : Order sub) {at_ : Nat → Node} : ∀ (a b : Node), Sound at_ a → Sound at_ b →
    eqNode sub a b = .ok true → eqNode sub b a = .ok true
  | .atom v, .atom w, .atom hv, .atom hw, h => by
    rw [eqNode] at h ⊢; rw [pyEq_symm hw hv]; exact h
  | .atom v, .arr _ _ _, _, _, h => by rw [eqNode] at h; cases h
  | .atom v, .obj _ _ p items, _, _, h => by rw [eqNode] at h; rw [eqNode]; exact h
  | .obj _ _ p items, .atom v, _, _, h => by rw [eqNode] at h; rw [eqNode]; exact h
  | .arr _ _ _, .atom _, _, _, h => by rw [eqNode] at h; cases h
  | .arr _ _ _, .obj _ _ _ _, _, _, h => by rw [eqNode] at h; cases h
  | .obj _ _ p items, .arr i c l, _, _, h => by rw [eqNode, objEq_eq] at h; simp [isMapping] at h
  | .obj i c p items, .obj j d q items', _, _, h => by
    rw [eqNode_obj] at h ⊢; rw [← h, Bool.and_comm]; congr 2
    rw [Bool.eq_iff_iff, beq_iff_eq, beq_iff_eq]; exact eq_comm
  | .arr i c l, .arr j d m, .arr _ ha, .arr _ hb, h => by
    rw [eqNode_arr_iff ho] at h ⊢
    rcases h with h | ⟨h1, h2, h3⟩
    · exact .inl h.symm
    · exact .inr ⟨h1.symm, h2.symm, fun k x y hx hy =>
        have hy' := List.mem_of_getElem? hy
        eqNode_symm ho y x (ha y hy') (hb x (List.mem_of_getElem? hx)) (h3 k y x hy hx)⟩
termination_by a => sizeOf a
decreasing_by
  have := List.sizeOf_lt_of_mem hy'
  simp; omega

theorem eqNode_refl (ho : Order sub) {at_ : Nat → Node} (a : Node) (h : Sound at_ a) : eqNode sub a a = .ok true := by
  cases h with
  | atom hv => rw [eqNode, pyEq_refl hv]
  | arr _ _ => rw [eqNode_arr ho, if_pos rfl]
  | obj _ _ => rw [eqNode_obj]; simp

theorem eqNode_trans (ho : Order sub) {at_ : Nat → Node} : ∀ (a b c : Node), Sound at_ a → Sound at_ b → Sound at_ c →
    eqNode sub a b = .ok true → eqNode sub b c = .ok true → eqNode sub a c = .ok true
  | .atom u, .atom v, .atom w, .atom hu, .atom hv, .atom hw, h, h' => by
    rw [eqNode] at h h' ⊢; simp only [Except.ok.injEq] at h h' ⊢; exact pyEq_trans hu hv hw h h'
  | .atom v, .arr _ _ _, _, _, _, _, h, _ => by rw [eqNode] at h; cases h
  | _, .atom v, .arr _ _ _, _, _, _, _, h => by rw [eqNode] at h; cases h
  | .atom v, .obj _ _ p items, _, .atom hv, _, _, h, _ => by
    rw [eqNode, objEq_eq] at h; cases v <;> simp_all [isMapping, Scalar]
  | _, .atom v, .obj _ _ p items, _, .atom hv, _, _, h => by
    rw [eqNode, objEq_eq] at h; cases v <;> simp_all [isMapping, Scalar]
  | .obj _ _ p items, .atom v, _, _, .atom hv, _, h, _ => by
    rw [eqNode, objEq_eq] at h; cases v <;> simp_all [isMapping, Scalar]
  | _, .obj _ _ p items, .atom v, _, _, .atom hv, _, h => by
    rw [eqNode, objEq_eq] at h; cases v <;> simp_all [isMapping, Scalar]
  | .arr _ _ _, .atom _, _, _, _, _, h, _ => by rw [eqNode] at h; cases h
  | _, .arr _ _ _, .atom _, _, _, _, _, h => by rw [eqNode] at h; cases h
  | .arr _ _ _, .obj _ _ _ _, _, _, _, _, h, _ => by rw [eqNode] at h; cases h
  | _, .arr _ _ _, .obj _ _ _ _, _, _, _, _, h => by rw [eqNode] at h; cases h
  | .obj _ _ p items, .arr i c l, _, _, _, _, h, _ => by rw [eqNode, objEq_eq] at h; simp [isMapping] at h
  | _, .obj _ _ p items, .arr i c l, _, _, _, _, h => by rw [eqNode, objEq_eq] at h; simp [isMapping] at h
  | .obj i c p l, .obj j d q m, .obj k e r n, .obj ha _, .obj hb _, .obj hc _, h, h' => by
    rw [eqNode_obj] at h h' ⊢
    simp only [Except.ok.injEq, Bool.or_eq_true, Bool.and_eq_true, beq_iff_eq] at h h' ⊢
    rcases h with h | ⟨h1, h2⟩
    · subst h; rw [ha] at hb; cases hb; exact h'
    · rcases h' with h' | ⟨h3, h4⟩
      · subst h'; rw [hb] at hc; cases hc; exact .inr ⟨h1, h2⟩
      · exact .inr ⟨h1, h4⟩
  | .arr i c l, .arr j d m, .arr k e n, .arr ha hl, .arr hb hm, .arr hc hn, h, h' => by
    rw [eqNode_arr_iff ho] at h h' ⊢
    rcases h with h | ⟨h1, h2, h3⟩
    · subst h; rw [ha] at hb; cases hb; exact h'
    · rcases h' with h' | ⟨h4, h5, h6⟩
      · subst h'; rw [hb] at hc; cases hc; exact .inr ⟨h1, h2, h3⟩
      · refine .inr ⟨h1.trans h4, h2.trans h5, fun s x z hx hz => ?_⟩
        have hs : s < m.length := by
          rw [← h2]; exact (List.getElem?_eq_some_iff.1 hx).1
        have hy : m[s]? = some m[s] := List.getElem?_eq_getElem hs
        have hx' := List.mem_of_getElem? hx
        exact eqNode_trans ho x m[s] z (hl x hx') (hm _ (List.mem_of_getElem? hy)) (hn z (List.mem_of_getElem? hz))
          (h3 s x _ hx hy) (h6 s _ z hy hz)
termination_by a => sizeOf a
decreasing_by
  have := List.sizeOf_lt_of_mem hx'
  simp; omega

end Verif.Equality
