import Verif.Lemmas.Topo
/-
C12, C13: `topological_sort`; C14: the call order of object keys.
-/
set_option linter.unusedSectionVars false

namespace Verif.Topo
variable {α : Type} [DecidableEq α]

/-! ### C12 -/

/-- Whatever happens at the end, the layers yielded are non-empty, share nothing, contain only items,
and every dependency of an item is in a strictly earlier layer; the layer is the earliest possible:
an item not in the first layer has a dependency in the layer just before. -/
theorem C12_layers_sound (data : AList α (List α)) (wf : data.keys.Nodup) :
    let ls := (topologicalSort data).1
    (∀ l ∈ ls, l ≠ []) ∧ ls.flatten.Nodup ∧ (∀ x ∈ ls.flatten, Item data x) ∧
    (∀ i x, InLayer ls i x → ∀ y, Dep data x y → ∃ j, j < i ∧ InLayer ls j y) ∧
    (∀ i x, InLayer ls (i + 1) x → ∃ y, Dep data x y ∧ InLayer ls i y) := by
  unfold topologicalSort
  by_cases h : data.isEmpty
  · simp [h, InLayer]
  · simp only [h]
    obtain ⟨h1, h2, h3, h4, h5⟩ := peelLoop_sound _ (wf_pre wf)
    exact ⟨h1, h2, fun x hx => keys_pre.1 (h3 x hx),
      fun i x hx y hy => h4 i x hx y (edge_pre.2 hy),
      fun i x hx => let ⟨y, hy, hi⟩ := h5 i x hx; ⟨y, edge_pre.1 hy, hi⟩⟩

/-- When the sort completes, every item is in a layer. -/
theorem C12_layers_complete (data : AList α (List α)) (h : (topologicalSort data).2 = none) :
    ∀ x, Item data x → x ∈ (topologicalSort data).1.flatten := by
  intro x hx
  unfold topologicalSort at *
  by_cases he : data.isEmpty
  · simp at he; subst he; simp [Item, Dep] at hx
  · simp only [he] at *
    exact peelLoop_complete _ h x (keys_pre.2 hx)

/-! ### C13 -/

/-- The sort raises `AssertionError` exactly on cyclic dependencies, and raises nothing else.
(Termination is part of the model being a total function.) -/
theorem C13_fails_iff_cyclic (data : AList α (List α)) (wf : data.keys.Nodup) :
    ((topologicalSort data).2 = some .assertionError ↔ Cyclic data) ∧
    ((topologicalSort data).2 = none ↔ ¬ Cyclic data) := by
  have noCycle : (topologicalSort data).2 = none → ¬ Cyclic data := by
    rintro h ⟨x, hx⟩
    obtain ⟨_, hn, _, h4, _⟩ := C12_layers_sound data wf
    have hit : Item data x := by
      cases hx with
      | single h => exact .inr ⟨_, h⟩
      | tail _ h => exact .inr ⟨_, h⟩
    obtain ⟨i, hi⟩ := inLayer_flatten.1 (C12_layers_complete data h x hit)
    obtain ⟨j, hj, hjx⟩ := layer_transGen h4 hx i hi
    have := layer_unique hn hi hjx
    omega
  have cycle : ∀ e, (topologicalSort data).2 = some e → e = .assertionError ∧ Cyclic data := by
    intro e h
    unfold topologicalSort at h
    by_cases he : data.isEmpty
    · simp [he] at h
    · simp only [he] at h
      refine ⟨peelLoop_exc _ h, ?_⟩
      obtain ⟨x, hx⟩ := peelLoop_cycle _ (closed_addExtra _) h
      exact ⟨x, transGen_mono (fun a b hab => edge_pre.1 hab) hx⟩
  cases h : (topologicalSort data).2 with
  | none => simpa using noCycle h
  | some e =>
    obtain ⟨rfl, hc⟩ := cycle e h
    simp [hc]

example : topologicalSort [(1, [2, 3]), (2, [3, 2]), (4, [])] = ([[4, 3], [2], [1]], none) := by
  decide +kernel
example : topologicalSort [(1, [2]), (2, [1]), (3, [4])] = ([[4], [3]], some .assertionError) := by
  decide +kernel

/-! ### C14 -/

/-- For acyclic dependencies and any set iteration order the call order raises nothing, starts with
the required keys, lists exactly the required keys and the keys of the value, each once, and puts a
non-required key after every non-required key it depends on, directly or through other items. -/
theorem C14_call_order (ord : List α → List α) (hord : ∀ l, (ord l).Perm l)
    (required keys : List α) (deps : AList α (List α)) (hr : required.Nodup) (hk : keys.Nodup)
    (wf : deps.keys.Nodup) (hac : ¬ Cyclic deps) :
    ∃ rest, callOrder ord required keys deps = (required ++ rest, none) ∧
      (required ++ rest).Nodup ∧
      (∀ x, x ∈ rest ↔ x ∈ keys ∧ x ∉ required) ∧
      (∀ x y, x ∈ rest → y ∈ rest → Relation.TransGen (Dep deps) x y → [y, x].Sublist rest) := by
  unfold callOrder
  generalize hU : keys.filter (fun k => k ∉ required) = U
  have hUn : U.Nodup := hU ▸ hk.filter _
  have hUm : ∀ x, x ∈ U ↔ x ∈ keys ∧ x ∉ required := by
    intro x; rw [← hU, List.mem_filter]; simp
  by_cases he : U.isEmpty
  · refine ⟨[], by simp [he], by simpa using hr, fun x => ?_, by simp⟩
    have : U = [] := by simpa using he
    rw [← hUm, this]
  · simp only [he]
    have hnone := (C13_fails_iff_cyclic deps wf).2.2 hac
    obtain ⟨_, hn, _, h4, _⟩ := C12_layers_sound deps wf
    obtain ⟨g1, g2, g3, g4⟩ := levels_spec ord hord (topologicalSort deps).1 U hUn hn
    rw [hnone]
    refine ⟨(levels ord (topologicalSort deps).1 U).1 ++ ord (levels ord (topologicalSort deps).1 U).2,
      by simp, ?_, ?_, ?_⟩
    all_goals
      have hm : ∀ x, x ∈ (levels ord (topologicalSort deps).1 U).1 ++
          ord (levels ord (topologicalSort deps).1 U).2 ↔ x ∈ U := by
        intro x
        rw [List.mem_append, g2, (hord _).mem_iff, g3, List.mem_filter]
        by_cases hx : x ∈ (topologicalSort deps).1.flatten <;> simp [hx]
    · rw [List.nodup_append]
      refine ⟨hr, ?_, ?_⟩
      · rw [List.nodup_append]
        refine ⟨g1, (hord _).nodup_iff.2 (g3 ▸ hUn.filter _), ?_⟩
        rintro a ha b hb rfl
        rw [(hord _).mem_iff, g3, List.mem_filter] at hb
        have := hb.2; simp only [decide_eq_true_eq] at this
        exact this ((g2 a).1 ha).2
      · rintro a ha b hb rfl
        exact ((hUm a).1 ((hm a).1 hb)).2 ha
    · intro x; rw [hm, hUm]
    · intro x y hx hy hxy
      have hxU := (hm x).1 hx
      have hyU := (hm y).1 hy
      have hitem : Item deps y := by
        cases hxy with
        | single h => exact .inr ⟨_, h⟩
        | tail _ h => exact .inr ⟨_, h⟩
      have hitemx : Item deps x := by
        clear hm g1 g2 g3 g4 hx hy hxU hyU hitem
        induction hxy with
        | single h => obtain ⟨ds, h, _⟩ := h; exact .inl ⟨ds, h⟩
        | tail _ _ ih => exact ih
      obtain ⟨i, hi⟩ := inLayer_flatten.1 (C12_layers_complete deps hnone x hitemx)
      obtain ⟨j, hj, hjy⟩ := layer_transGen h4 hxy i hi
      exact (g4 j i y x hj hjy hi hyU hxU).trans (List.sublist_append_left _ _)

/-- Cyclic dependencies are reported, after the required keys and the part that can be ordered. -/
theorem C14_call_order_cyclic (ord : List α → List α)
    (required keys : List α) (deps : AList α (List α)) (wf : deps.keys.Nodup) (hc : Cyclic deps)
    (hk : ∃ k ∈ keys, k ∉ required) :
    ∃ part, callOrder ord required keys deps = (required ++ part, some .assertionError) := by
  unfold callOrder
  have : (keys.filter (fun k => k ∉ required)).isEmpty = false := by
    obtain ⟨k, h1, h2⟩ := hk
    rw [List.isEmpty_eq_false_iff_exists_mem]; exact ⟨k, by rw [List.mem_filter]; simpa using ⟨h1, h2⟩⟩
  simp only [this, (C13_fails_iff_cyclic deps wf).1.2 hc]
  exact ⟨_, rfl⟩

/-- What is handed out before the failure: the required keys, then keys of the value, each once, none of which depends on
itself, and each after all the keys of the value that it depends on. -/
theorem C14_before_cycle (ord : List α → List α) (hord : ∀ l, (ord l).Perm l)
    (required keys : List α) (deps : AList α (List α)) (hk : keys.Nodup) (wf : deps.keys.Nodup) (hc : Cyclic deps)
    (hx : ∃ k ∈ keys, k ∉ required) :
    ∃ part, callOrder ord required keys deps = (required ++ part, some .assertionError) ∧ part.Nodup ∧
      (∀ x ∈ part, x ∈ keys ∧ x ∉ required ∧ ¬ Relation.TransGen (Dep deps) x x) ∧
      (∀ x y, x ∈ part → y ∈ keys → y ∉ required → Relation.TransGen (Dep deps) x y → [y, x].Sublist part) := by
  unfold callOrder
  generalize hU : keys.filter (fun k => k ∉ required) = U
  have hUn : U.Nodup := hU ▸ hk.filter _
  have hUm : ∀ x, x ∈ U ↔ x ∈ keys ∧ x ∉ required := by
    intro x; rw [← hU, List.mem_filter]; simp
  have he : U.isEmpty = false := by
    obtain ⟨k, h1, h2⟩ := hx
    rw [List.isEmpty_eq_false_iff_exists_mem]; exact ⟨k, (hUm k).2 ⟨h1, h2⟩⟩
  simp only [he, (C13_fails_iff_cyclic deps wf).1.2 hc]
  obtain ⟨_, hn, _, h4, _⟩ := C12_layers_sound deps wf
  obtain ⟨g1, g2, g3, g4⟩ := levels_spec ord hord (topologicalSort deps).1 U hUn hn
  refine ⟨_, rfl, g1, fun x hx => ?_, fun x y hx hy hy' hxy => ?_⟩
  · obtain ⟨hxU, hxl⟩ := (g2 x).1 hx
    refine ⟨((hUm x).1 hxU).1, ((hUm x).1 hxU).2, fun hxx => ?_⟩
    obtain ⟨i, hi⟩ := inLayer_flatten.1 hxl
    obtain ⟨j, hj, hjx⟩ := layer_transGen h4 hxx i hi
    have := layer_unique hn hi hjx
    omega
  · obtain ⟨hxU, hxl⟩ := (g2 x).1 hx
    obtain ⟨i, hi⟩ := inLayer_flatten.1 hxl
    obtain ⟨j, hj, hjy⟩ := layer_transGen h4 hxy i hi
    exact g4 j i y x hj hjy hi ((hUm y).2 ⟨hy, hy'⟩) hxU

example : callOrder id [9] [1, 2, 3, 9, 4, 5] [(1, [2]), (2, [1]), (3, [4])] = ([9, 4, 3], some .assertionError) := by
  decide +kernel

example : callOrder List.reverse [9] [1, 9, 2, 3, 5] [(1, [2]), (2, [3, 7]), (7, [5])]
    = ([9, 5, 3, 2, 1], none) := by decide +kernel

end Verif.Topo
