import Verif.Spec.Topo
/-
Helper lemmas for C12-C14.
-/
set_option linter.unusedSectionVars false

namespace Verif.Topo
variable {α : Type} [DecidableEq α]

/-- Raw edges, self-edges included. -/
def Edge (data : AList α (List α)) (x y : α) : Prop := ∃ ds, (x, ds) ∈ data ∧ y ∈ ds

/-- Dependencies are items of the dictionary. -/
def Closed (data : AList α (List α)) : Prop := ∀ x y, Edge data x y → y ∈ data.keys

theorem mem_keys {data : AList α (List α)} {x : α} : x ∈ data.keys ↔ ∃ ds, (x, ds) ∈ data := by
  simp [AList.keys]

theorem mem_ready {data : AList α (List α)} {x : α} : x ∈ ready data ↔ (x, []) ∈ data := by
  simp [ready]

theorem mem_peel {layer : List α} {data : AList α (List α)} {x : α} {ds : List α} :
    (x, ds) ∈ peel layer data ↔
      x ∉ layer ∧ ∃ es, (x, es) ∈ data ∧ ds = es.filter (fun d => d ∉ layer) := by
  simp only [peel, List.mem_map, List.mem_filter]
  constructor
  · rintro ⟨⟨a, b⟩, ⟨h1, h2⟩, h3⟩
    cases h3; exact ⟨by simpa using h2, b, h1, rfl⟩
  · rintro ⟨h, es, he, rfl⟩; exact ⟨(x, es), ⟨he, by simpa using h⟩, rfl⟩

theorem keys_peel (layer : List α) (data : AList α (List α)) :
    (peel layer data).keys = data.keys.filter (fun x => x ∉ layer) := by
  simp only [peel, AList.keys, List.map_map, List.filter_map]
  rfl

theorem edge_peel {layer : List α} {data : AList α (List α)} {x y : α} :
    Edge (peel layer data) x y ↔ x ∉ layer ∧ y ∉ layer ∧ Edge data x y := by
  constructor
  · rintro ⟨ds, h, hy⟩
    obtain ⟨hx, es, he, rfl⟩ := mem_peel.1 h
    rw [List.mem_filter] at hy
    exact ⟨hx, by simpa using hy.2, es, he, hy.1⟩
  · rintro ⟨hx, hy, es, he, hye⟩
    exact ⟨_, mem_peel.2 ⟨hx, es, he, rfl⟩, by rw [List.mem_filter]; simpa using ⟨hye, hy⟩⟩

theorem closed_peel {layer : List α} {data : AList α (List α)} (h : Closed data) :
    Closed (peel layer data) := by
  intro x y hxy
  obtain ⟨_, hy, he⟩ := edge_peel.1 hxy
  rw [keys_peel, List.mem_filter]
  exact ⟨h x y he, by simpa using hy⟩

theorem wf_peel {layer : List α} {data : AList α (List α)} (h : data.WF) : (peel layer data).WF := by
  unfold AList.WF at *
  rw [keys_peel]; exact h.filter _

theorem nodup_ready {data : AList α (List α)} (h : data.WF) : (ready data).Nodup := by
  have : (ready data).Sublist data.keys := (List.filter_sublist).map _
  exact this.nodup h

/-- The values of one key agree. -/
theorem wf_unique {data : AList α (List α)} (h : data.WF) {x : α} {ds es : List α}
    (h1 : (x, ds) ∈ data) (h2 : (x, es) ∈ data) : ds = es := by
  have a := AList.get?_of_mem h h1
  have b := AList.get?_of_mem h h2
  rw [a] at b; exact Option.some.inj b

theorem inLayer_cons_zero {l : List α} {ls : List (List α)} {x : α} :
    InLayer (l :: ls) 0 x ↔ x ∈ l := by simp [InLayer]

theorem inLayer_cons_succ {l : List α} {ls : List (List α)} {x : α} {i : Nat} :
    InLayer (l :: ls) (i + 1) x ↔ InLayer ls i x := by simp [InLayer]

theorem inLayer_flatten {ls : List (List α)} {x : α} : x ∈ ls.flatten ↔ ∃ i, InLayer ls i x := by
  rw [List.mem_flatten]
  constructor
  · rintro ⟨l, hl, hx⟩
    obtain ⟨i, hi⟩ := List.mem_iff_getElem?.1 hl
    exact ⟨i, l, hi, hx⟩
  · rintro ⟨i, l, hi, hx⟩; exact ⟨l, List.mem_iff_getElem?.2 ⟨i, hi⟩, hx⟩

/-- Everything the loop guarantees, whether it ends normally or not. -/
theorem peelLoop_sound (data : AList α (List α)) (wf : data.WF) :
    let ls := (peelLoop data).1
    (∀ l ∈ ls, l ≠ []) ∧ ls.flatten.Nodup ∧ (∀ x ∈ ls.flatten, x ∈ data.keys) ∧
    (∀ i x, InLayer ls i x → ∀ y, Edge data x y → ∃ j, j < i ∧ InLayer ls j y) ∧
    (∀ i x, InLayer ls (i + 1) x → ∃ y, Edge data x y ∧ InLayer ls i y) := by
  fun_induction peelLoop data with
  | case1 data h => simp [InLayer]
  | case2 data h r ih =>
    obtain ⟨h1, h2, h3, h4, h5⟩ := ih (wf_peel wf)
    simp only [r]
    refine ⟨?_, ?_, ?_, ?_, ?_⟩
    · intro l hl
      rcases List.mem_cons.1 hl with rfl | hl
      · exact h
      · exact h1 l hl
    · rw [List.flatten_cons, List.nodup_append]
      refine ⟨nodup_ready wf, h2, ?_⟩
      rintro a ha b hb rfl
      have := h3 a hb
      rw [keys_peel, List.mem_filter] at this
      simp at this; exact this.2 ha
    · intro x hx
      rw [List.flatten_cons, List.mem_append] at hx
      rcases hx with hx | hx
      · exact mem_keys.2 ⟨_, mem_ready.1 hx⟩
      · have := h3 x hx; rw [keys_peel, List.mem_filter] at this; exact this.1
    · intro i x hx y hy
      cases i with
      | zero =>
        rw [inLayer_cons_zero] at hx
        obtain ⟨ds, hds, hyd⟩ := hy
        have := wf_unique wf hds (mem_ready.1 hx)
        subst this; simp at hyd
      | succ i =>
        rw [inLayer_cons_succ] at hx
        by_cases hyl : y ∈ ready data
        · exact ⟨0, by omega, inLayer_cons_zero.2 hyl⟩
        · have hx' := h3 x (inLayer_flatten.2 ⟨i, hx⟩)
          rw [keys_peel, List.mem_filter] at hx'
          obtain ⟨j, hj, hjy⟩ := h4 i x hx y (edge_peel.2 ⟨by simpa using hx'.2, hyl, hy⟩)
          exact ⟨j + 1, by omega, inLayer_cons_succ.2 hjy⟩
    · intro i x hx
      rw [inLayer_cons_succ] at hx
      have hx' := h3 x (inLayer_flatten.2 ⟨i, hx⟩)
      cases i with
      | zero =>
        rw [keys_peel, List.mem_filter] at hx'
        have hxr : x ∉ ready data := by simpa using hx'.2
        obtain ⟨ds, hds⟩ := mem_keys.1 hx'.1
        -- the peeled dependencies of `x` are empty, its dependencies are not
        have hne : ds ≠ [] := by rintro rfl; exact hxr (mem_ready.2 hds)
        obtain ⟨y, hy⟩ := List.exists_mem_of_ne_nil _ hne
        refine ⟨y, ⟨ds, hds, hy⟩, inLayer_cons_zero.2 ?_⟩
        apply Classical.byContradiction
        intro hyl
        obtain ⟨j, hj, _⟩ := h4 0 x hx y (edge_peel.2 ⟨hxr, hyl, ds, hds, hy⟩)
        omega
      | succ i =>
        obtain ⟨y, hy, hyi⟩ := h5 i x hx
        exact ⟨y, (edge_peel.1 hy).2.2, inLayer_cons_succ.2 hyi⟩

theorem peelLoop_complete (data : AList α (List α)) (h : (peelLoop data).2 = none) :
    ∀ x ∈ data.keys, x ∈ (peelLoop data).1.flatten := by
  fun_induction peelLoop data with
  | case1 data hr =>
    by_cases he : data.isEmpty
    · simp at he; simp [he, AList.keys]
    · simp [he] at h
  | case2 data hr r ih =>
    intro x hx
    simp only [r, List.flatten_cons, List.mem_append]
    by_cases hxr : x ∈ ready data
    · exact .inl hxr
    · refine .inr (ih h x ?_)
      rw [keys_peel, List.mem_filter]; simpa using ⟨hx, hxr⟩

theorem peelLoop_exc (data : AList α (List α)) {e : Exc} (h : (peelLoop data).2 = some e) :
    e = .assertionError := by
  fun_induction peelLoop data with
  | case1 data hr => split at h <;> simp at h; exact h.symm
  | case2 data hr r ih => exact ih h

/-- A finite non-empty list on which a transitive irreflexive relation lives has an element related
to no other. -/
theorem exists_minimal {T : α → α → Prop} (htr : ∀ a b c, T a b → T b c → T a c)
    (hir : ∀ a, ¬ T a a) (S : List α) (hS : S ≠ []) : ∃ m ∈ S, ∀ y ∈ S, ¬ T m y := by
  induction S with
  | nil => exact absurd rfl hS
  | cons a S ih =>
    by_cases h : S = []
    · subst h; exact ⟨a, by simp, by simpa using hir a⟩
    · obtain ⟨m, hm, hmin⟩ := ih h
      by_cases hma : T m a
      · refine ⟨a, by simp, fun y hy => ?_⟩
        rcases List.mem_cons.1 hy with rfl | hy
        · exact hir _
        · exact fun hay => hmin y hy (htr _ _ _ hma hay)
      · refine ⟨m, by simp [hm], fun y hy => ?_⟩
        rcases List.mem_cons.1 hy with rfl | hy
        · exact hma
        · exact hmin y hy

theorem transGen_mono {r s : α → α → Prop} (h : ∀ a b, r a b → s a b) {x y : α}
    (hxy : Relation.TransGen r x y) : Relation.TransGen s x y := by
  induction hxy with
  | single h1 => exact .single (h _ _ h1)
  | tail _ h1 ih => exact .tail ih (h _ _ h1)

theorem transGen_trans {r : α → α → Prop} {x y z : α}
    (h1 : Relation.TransGen r x y) (h2 : Relation.TransGen r y z) : Relation.TransGen r x z := by
  induction h2 with
  | single h => exact .tail h1 h
  | tail _ h ih => exact .tail ih h

/-- When the loop raises, the raw edges have a cycle. -/
theorem peelLoop_cycle (data : AList α (List α)) (hc : Closed data) {e : Exc}
    (h : (peelLoop data).2 = some e) : ∃ x, Relation.TransGen (Edge data) x x := by
  fun_induction peelLoop data with
  | case1 data hr =>
    have hne : data ≠ [] := by rintro rfl; simp at h
    apply Classical.byContradiction
    intro hno
    obtain ⟨m, hm, hmin⟩ := exists_minimal (T := Relation.TransGen (Edge data))
      (fun _ _ _ => transGen_trans) (fun a ha => hno ⟨a, ha⟩) data.keys (by simpa [AList.keys] using hne)
    obtain ⟨ds, hds⟩ := mem_keys.1 hm
    have hdsne : ds ≠ [] := by
      rintro rfl
      have := mem_ready.2 hds; rw [hr] at this; simp at this
    obtain ⟨y, hy⟩ := List.exists_mem_of_ne_nil _ hdsne
    exact hmin y (hc m y ⟨ds, hds, hy⟩) (.single ⟨ds, hds, hy⟩)
  | case2 data hr r ih =>
    obtain ⟨x, hx⟩ := ih (closed_peel hc) h
    exact ⟨x, transGen_mono (fun a b hab => (edge_peel.1 hab).2.2) hx⟩

/-! preprocessing -/

theorem mem_discardSelf {data : AList α (List α)} {x : α} {ds : List α} :
    (x, ds) ∈ discardSelf data ↔ ∃ es, (x, es) ∈ data ∧ ds = es.filter (· ≠ x) := by
  simp only [discardSelf, List.mem_map]
  constructor
  · rintro ⟨⟨a, b⟩, h1, h2⟩; cases h2; exact ⟨b, h1, rfl⟩
  · rintro ⟨es, h, rfl⟩; exact ⟨(x, es), h, rfl⟩

theorem keys_discardSelf (data : AList α (List α)) : (discardSelf data).keys = data.keys := by
  simp [discardSelf, AList.keys]

theorem edge_discardSelf {data : AList α (List α)} {x y : α} :
    Edge (discardSelf data) x y ↔ Dep data x y := by
  constructor
  · rintro ⟨ds, h, hy⟩
    obtain ⟨es, he, rfl⟩ := mem_discardSelf.1 h
    rw [List.mem_filter] at hy
    exact ⟨es, he, hy.1, by simpa using hy.2⟩
  · rintro ⟨ds, h, hy, hne⟩
    exact ⟨_, mem_discardSelf.2 ⟨ds, h, rfl⟩, by rw [List.mem_filter]; simpa using ⟨hy, hne⟩⟩

theorem edge_addExtra {data : AList α (List α)} {x y : α} :
    Edge (addExtra data) x y ↔ Edge data x y := by
  simp only [Edge, addExtra, List.mem_append]
  constructor
  · rintro ⟨ds, h | h, hy⟩
    · exact ⟨ds, h, hy⟩
    · obtain ⟨a, _, h⟩ := List.mem_map.1 h; cases h; simp at hy
  · rintro ⟨ds, h, hy⟩; exact ⟨ds, .inl h, hy⟩

theorem mem_eraseDups {l : List α} {a : α} : a ∈ l.eraseDups ↔ a ∈ l := by simp

theorem nodup_eraseDups (l : List α) : l.eraseDups.Nodup := by
  have : ∀ n, ∀ l : List α, l.length ≤ n → l.eraseDups.Nodup := by
    intro n
    induction n with
    | zero => intro l hl; simp at hl; simp [hl]
    | succ n ih =>
      intro l hl
      cases l with
      | nil => simp
      | cons a l =>
        rw [List.eraseDups_cons, List.nodup_cons]
        refine ⟨by simp, ih _ ?_⟩
        have := List.length_filter_le (fun b => !b == a) l
        simp at hl; omega
  exact this _ l (Nat.le_refl _)

theorem mem_keys_addExtra {data : AList α (List α)} {x : α} :
    x ∈ (addExtra data).keys ↔ x ∈ data.keys ∨ ∃ z, Edge data z x := by
  have : (addExtra data).keys = data.keys ++
      ((data.flatMap Prod.snd).eraseDups.filter (fun x => x ∉ data.keys)) := by
    simp only [addExtra, AList.keys, List.map_append, List.map_map]
    congr 1
    rw [show (Prod.fst ∘ fun x : α => (x, ([] : List α))) = id from rfl, List.map_id]
  rw [this, List.mem_append, List.mem_filter, mem_eraseDups, List.mem_flatMap]
  constructor
  · rintro (h | ⟨⟨⟨a, b⟩, h1, h2⟩, _⟩)
    · exact .inl h
    · exact .inr ⟨a, b, h1, h2⟩
  · rintro (h | ⟨z, ds, h1, h2⟩)
    · exact .inl h
    · by_cases hx : x ∈ data.keys
      · exact .inl hx
      · exact .inr ⟨⟨(z, ds), h1, h2⟩, by simpa using hx⟩

theorem wf_addExtra {data : AList α (List α)} (wf : data.WF) : (addExtra data).WF := by
  unfold AList.WF
  have : (addExtra data).keys = data.keys ++
      ((data.flatMap Prod.snd).eraseDups.filter (fun x => x ∉ data.keys)) := by
    simp only [addExtra, AList.keys, List.map_append, List.map_map]
    congr 1
    rw [show (Prod.fst ∘ fun x : α => (x, ([] : List α))) = id from rfl, List.map_id]
  rw [this, List.nodup_append]
  refine ⟨wf, (nodup_eraseDups _).filter _, ?_⟩
  rintro a ha b hb rfl
  rw [List.mem_filter] at hb; simp at hb; exact hb.2 ha

theorem closed_addExtra (data : AList α (List α)) : Closed (addExtra data) := by
  intro x y h
  exact mem_keys_addExtra.2 (.inr ⟨x, edge_addExtra.1 h⟩)

/-- The preprocessed dictionary: edges are the dependencies, keys are the items. -/
theorem edge_pre {data : AList α (List α)} {x y : α} :
    Edge (addExtra (discardSelf data)) x y ↔ Dep data x y :=
  edge_addExtra.trans edge_discardSelf

theorem keys_pre {data : AList α (List α)} {x : α} :
    x ∈ (addExtra (discardSelf data)).keys ↔ Item data x := by
  rw [mem_keys_addExtra, keys_discardSelf, mem_keys]
  simp only [edge_discardSelf, Item]

theorem wf_pre {data : AList α (List α)} (wf : data.WF) : (addExtra (discardSelf data)).WF :=
  wf_addExtra (by unfold AList.WF at *; rw [keys_discardSelf]; exact wf)

theorem dep_nil {x y : α} : ¬ Dep ([] : AList α (List α)) x y := by simp [Dep]

/-! layers and paths -/

/-- Along a chain of dependencies the layer strictly decreases. -/
theorem layer_transGen {data : AList α (List α)} {ls : List (List α)}
    (h : ∀ i x, InLayer ls i x → ∀ y, Dep data x y → ∃ j, j < i ∧ InLayer ls j y) {x y : α}
    (hxy : Relation.TransGen (Dep data) x y) :
    ∀ i, InLayer ls i x → ∃ j, j < i ∧ InLayer ls j y := by
  induction hxy with
  | single h1 => intro i hi; exact h i _ hi _ h1
  | tail _ h1 ih =>
    intro i hi
    obtain ⟨j, hj, hjy⟩ := ih i hi
    obtain ⟨l, hl, hly⟩ := h j _ hjy _ h1
    exact ⟨l, by omega, hly⟩

theorem layer_unique {ls : List (List α)} (h : ls.flatten.Nodup) {i j : Nat} {x : α}
    (hi : InLayer ls i x) (hj : InLayer ls j x) : i = j := by
  induction ls generalizing i j with
  | nil => simp [InLayer] at hi
  | cons l ls ih =>
    rw [List.flatten_cons, List.nodup_append] at h
    cases i with
    | zero =>
      cases j with
      | zero => rfl
      | succ j =>
        rw [inLayer_cons_zero] at hi; rw [inLayer_cons_succ] at hj
        exact absurd rfl (h.2.2 x hi x (inLayer_flatten.2 ⟨j, hj⟩))
    | succ i =>
      cases j with
      | zero =>
        rw [inLayer_cons_zero] at hj; rw [inLayer_cons_succ] at hi
        exact absurd rfl (h.2.2 x hj x (inLayer_flatten.2 ⟨i, hi⟩))
      | succ j =>
        rw [inLayer_cons_succ] at hi hj
        rw [ih h.2.1 hi hj]

theorem pair_sublist_append {a b : List α} {x y : α} (hx : x ∈ a) (hy : y ∈ b) :
    [x, y].Sublist (a ++ b) :=
  (List.singleton_sublist.2 hx).append (List.singleton_sublist.2 hy)

/-- The level loop: a permutation of the keys that are in some layer, the rest untouched, and keys of
lower layers first. -/
theorem levels_spec (ord : List α → List α) (hord : ∀ l, (ord l).Perm l) (ls : List (List α))
    (U : List α) (hU : U.Nodup) (hls : ls.flatten.Nodup) :
    (levels ord ls U).1.Nodup ∧
    (∀ x, x ∈ (levels ord ls U).1 ↔ x ∈ U ∧ x ∈ ls.flatten) ∧
    (levels ord ls U).2 = U.filter (fun x => x ∉ ls.flatten) ∧
    (∀ i j x y, i < j → InLayer ls i x → InLayer ls j y → x ∈ U → y ∈ U →
      [x, y].Sublist (levels ord ls U).1) := by
  induction ls generalizing U with
  | nil => simp [levels, InLayer, List.filter_eq_self.2]
  | cons l ls ih =>
    rw [List.flatten_cons, List.nodup_append] at hls
    obtain ⟨h1, h2, h3, h4⟩ := ih (U.filter (fun k => k ∉ l)) (hU.filter _) hls.2.1
    simp only [levels]
    have hin : ∀ x, x ∈ ord (U.filter (fun k => k ∈ l)) ↔ x ∈ U ∧ x ∈ l := by
      intro x; rw [(hord _).mem_iff, List.mem_filter]; simp
    have hmem : ∀ x, x ∈ (levels ord ls (U.filter (fun k => k ∉ l))).1 ↔
        x ∈ U ∧ x ∉ l ∧ x ∈ ls.flatten := by
      intro x; rw [h2, List.mem_filter]; simp [and_assoc]
    refine ⟨?_, ?_, ?_, ?_⟩
    · rw [List.nodup_append]
      refine ⟨(hord _).nodup_iff.2 (hU.filter _), h1, ?_⟩
      rintro a ha b hb rfl
      exact ((hmem a).1 hb).2.1 ((hin a).1 ha).2
    · intro x
      rw [List.mem_append, hin, hmem, List.flatten_cons, List.mem_append]
      grind
    · rw [h3, List.filter_filter]
      congr 1; funext x
      simp [List.flatten_cons, Bool.and_comm]
    · intro i j x y hij hi hj hx hy
      cases j with
      | zero => omega
      | succ j =>
        rw [inLayer_cons_succ] at hj
        have hyl : y ∉ l := fun h => hls.2.2 y h y (inLayer_flatten.2 ⟨j, hj⟩) rfl
        have hy1 := (hmem y).2 ⟨hy, hyl, inLayer_flatten.2 ⟨j, hj⟩⟩
        cases i with
        | zero =>
          rw [inLayer_cons_zero] at hi
          exact pair_sublist_append ((hin x).2 ⟨hx, hi⟩) hy1
        | succ i =>
          rw [inLayer_cons_succ] at hi
          have hxl : x ∉ l := fun h => hls.2.2 x h x (inLayer_flatten.2 ⟨i, hi⟩) rfl
          exact (h4 i j x y (by omega) hi hj (by rw [List.mem_filter]; simpa using ⟨hx, hxl⟩)
            (by rw [List.mem_filter]; simpa using ⟨hy, hyl⟩)).trans (List.sublist_append_right _ _)

end Verif.Topo
