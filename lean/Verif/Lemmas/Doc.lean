import Verif.Spec.Doc
/-
Helper lemmas for C15, C18-C22.
-/
namespace Verif.Doc

theorem follow_cons_iff (obj : Val) (k : Key) (ks : List Key) (w : Val) :
    Follow obj (k :: ks) w ↔ ∃ v, getItem obj k = some v ∧ Follow v ks w := by
  constructor
  · intro h
    cases h with
    | dict h t => exact ⟨_, h, t⟩
    | list h t => exact ⟨_, h, t⟩
    | char h t => exact ⟨_, by simp [getItem, h], t⟩
  · rintro ⟨v, hv, t⟩
    unfold getItem at hv
    split at hv
    · exact .dict hv t
    · exact .list hv t
    · simp only [Option.map_eq_some_iff] at hv
      obtain ⟨c, hc, rfl⟩ := hv
      exact .char hc t
    · cases hv

theorem follow_nil_iff (obj w : Val) : Follow obj [] w ↔ w = obj := by
  constructor
  · rintro ⟨⟩; rfl
  · rintro rfl; exact .here _

/-- Nothing is reached from a value that counts as false. -/
theorem getItem_falsy {v : Val} (h : v.truthy = false) (k : Key) : getItem v k = none := by
  have hp : ∀ {α} (i : Int), pyIndex ([] : List α) i = none := by
    intro α i; simp only [pyIndex]; repeat' split
    all_goals simp
  unfold getItem
  split
  · simp only [Val.truthy, Bool.not_eq_false', List.isEmpty_iff] at h; subst h; rfl
  · simp only [Val.truthy, Bool.not_eq_false', List.isEmpty_iff] at h; subst h; exact hp _
  · simp only [Val.truthy, Bool.not_eq_false', List.isEmpty_iff] at h; subst h; simp [hp]
  · rfl

/-- Reached values, reading the model. -/
theorem getDescendant_follow (ks : List Key) (hne : ks ≠ []) (obj w : Val) (h : Follow obj ks w) :
    getDescendant obj ks = .ok w := by
  induction ks generalizing obj with
  | nil => exact absurd rfl hne
  | cons k ks ih =>
    obtain ⟨v, hv, ht⟩ := (follow_cons_iff _ _ _ _).1 h
    cases ks with
    | nil => rw [follow_nil_iff] at ht; subst ht; simp [getDescendant, hv]
    | cons k' ks =>
      have htr : v.truthy = true := by
        apply Classical.byContradiction
        intro hf
        rw [Bool.not_eq_true] at hf
        obtain ⟨u, hu, _⟩ := (follow_cons_iff _ _ _ _).1 ht
        rw [getItem_falsy hf] at hu; cases hu
      rw [getDescendant]
      · simp only [hv, Option.getD_some, htr, if_true]
        exact ih (by simp) v ht
      · simp

theorem getDescendant_nofollow (ks : List Key) (hne : ks ≠ []) (obj : Val)
    (h : ∀ w, ¬ Follow obj ks w) :
    getDescendant obj ks = .ok .none ∨
    ∃ pre suf w, ks = pre ++ suf ∧ pre ≠ [] ∧ suf ≠ [] ∧ Follow obj pre w ∧ w.truthy = false ∧
      getDescendant obj ks = .ok w := by
  induction ks generalizing obj with
  | nil => exact absurd rfl hne
  | cons k ks ih =>
    cases ks with
    | nil =>
      left
      cases hv : getItem obj k with
      | none => simp [getDescendant, hv]
      | some v => exact absurd ((follow_cons_iff _ _ _ _).2 ⟨v, hv, .here v⟩) (h v)
    | cons k' ks =>
      cases hv : getItem obj k with
      | none =>
        left
        rw [getDescendant]
        · simp [hv, Val.truthy]
        · simp
      | some v =>
        have hn : ∀ w, ¬ Follow v (k' :: ks) w := fun w hw =>
          h w ((follow_cons_iff _ _ _ _).2 ⟨v, hv, hw⟩)
        have hg : getDescendant obj (k :: k' :: ks) =
            if v.truthy then getDescendant v (k' :: ks) else .ok v := by
          rw [getDescendant]
          · simp [hv]
          · simp
        by_cases htr : v.truthy = true
        · rw [if_pos htr] at hg
          rcases ih (by simp) v hn with h1 | ⟨pre, suf, w, e, hp, hs, hf, hw, hr⟩
          · left; rw [hg, h1]
          · right
            exact ⟨k :: pre, suf, w, by rw [e]; rfl, by simp, hs,
              (follow_cons_iff _ _ _ _).2 ⟨v, hv, hf⟩, hw, by rw [hg, hr]⟩
        · right
          rw [if_neg htr] at hg
          exact ⟨[k], k' :: ks, v, rfl, by simp, by simp,
            (follow_cons_iff _ _ _ _).2 ⟨v, hv, .here v⟩, by simpa using htr, hg⟩

theorem strip_of_notMem {p : Char → Bool} {s : Str} (h : ∀ c ∈ s, p c = false) : strip p s = s := by
  have key : ∀ t : Str, (∀ c ∈ t, p c = false) → lstrip p t = t := by
    intro t ht
    cases t with
    | nil => rfl
    | cons c cs => simp [lstrip, List.dropWhile, ht c (by simp)]
  rw [strip, key s h, key s.reverse (by simpa using h), List.reverse_reverse]

theorem foldl_erase (ks : List Str) (d : AList Str Val) (hd : AList.WF d) :
    ks.foldl AList.erase d = d.filter (fun kv => decide (kv.1 ∉ ks)) := by
  induction ks generalizing d with
  | nil => simp only [List.foldl_nil]; symm; apply List.filter_eq_self.2; simp
  | cons k ks ih =>
    rw [List.foldl_cons, ih _ (AList.wf_erase hd _)]
    have : AList.erase d k = d.filter (fun kv => decide (kv.1 ≠ k)) := by
      simp only [AList.erase]
    rw [this, List.filter_filter]
    congr 1
    funext kv
    simp only [List.mem_cons, not_or, ne_eq]
    by_cases h1 : kv.1 = k <;> by_cases h2 : kv.1 ∈ ks <;> simp [h1, h2]

/-! Flattening -/

/-- The names `nested_dict_iter` gives: the separator after the first key only. -/
def nameOf (separator : Str) : List Str → Str
  | [] => []
  | [k] => k
  | k :: ks => k ++ separator ++ joinWith ['.'] ks

theorem leaves_ne_nil {d : List (Str × Val)} : ∀ pv ∈ leaves d, pv.1 ≠ [] := by
  induction d with
  | nil => simp [leaves]
  | cons kv d ih =>
    obtain ⟨k, v⟩ := kv
    rintro pv hpv
    rw [leaves, List.mem_append] at hpv
    rcases hpv with h | h
    · unfold leavesItem at h
      split at h
      · obtain ⟨q, _, rfl⟩ := List.mem_map.1 h; simp
      · simp at h; subst h; simp
    · exact ih pv h

theorem nested_val (v : Val) : ∀ d, v = .dict d → ∀ separator,
    nestedDictIter separator d = (leaves d).map (fun pv => (nameOf separator pv.1, pv.2)) := by
  induction v using Val.induct with
  | none | bool | int | str | list => intro d h; cases h
  | dict d ih =>
    intro d' h separator; cases h
    induction d with
    | nil => rfl
    | cons kv d ihd =>
      obtain ⟨k, v⟩ := kv
      rw [nestedDictIter, leaves, List.map_append, ihd (fun kv h => ih kv (by simp [h]))]
      congr 1
      have := ih (k, v) (by simp)
      unfold nestedItem leavesItem
      cases v with
      | dict d2 =>
        simp only at this ⊢
        rw [this d2 rfl ['.'], List.map_map, List.map_map]
        apply List.map_congr_left
        intro pv hpv
        have hne := leaves_ne_nil pv hpv
        obtain ⟨p, w⟩ := pv
        cases p with
        | nil => exact absurd rfl hne
        | cons a p => cases p <;> simp [nameOf, joinWith]
      | _ => rfl

theorem leaves_sound (d : List (Str × Val)) (p : List Str) (v : Val) :
    (p, v) ∈ leaves d ↔ Leaf d p v := by
  have main : ∀ u : Val, ∀ d, u = .dict d → ∀ p v, (p, v) ∈ leaves d ↔ Leaf d p v := by
    intro u
    induction u using Val.induct with
    | none | bool | int | str | list => intro d h; cases h
    | dict d ih =>
      intro d' h; cases h
      induction d with
      | nil =>
        intro p v; simp only [leaves, List.not_mem_nil, false_iff]
        intro h; cases h with
        | here h => simp at h
        | deeper h => simp at h
      | cons kv d ihd =>
        obtain ⟨k, u⟩ := kv
        intro p v
        rw [leaves, List.mem_append, ihd (fun kv h => ih kv (by simp [h])) p v]
        constructor
        · rintro (h | h)
          · unfold leavesItem at h
            split at h
            · obtain ⟨⟨q, w⟩, hq, e⟩ := List.mem_map.1 h
              simp only [Prod.mk.injEq] at e
              obtain ⟨rfl, rfl⟩ := e
              exact .deeper (List.mem_cons_self ..) ((ih (k, .dict _) (by simp) _ rfl _ _).1 hq)
            · rename_i hnd
              simp at h; obtain ⟨rfl, rfl⟩ := h
              exact .here (List.mem_cons_self ..) (fun d' e => hnd d' e)
          · cases h with
            | here h hv => exact .here (List.mem_cons_of_mem _ h) hv
            | deeper h t => exact .deeper (List.mem_cons_of_mem _ h) t
        · intro h
          cases h with
          | here h hv =>
            rcases List.mem_cons.1 h with e | h
            · simp only [Prod.mk.injEq] at e; obtain ⟨rfl, rfl⟩ := e
              left; unfold leavesItem
              cases v <;> simp_all
            · exact .inr (.here h hv)
          | deeper h t =>
            rcases List.mem_cons.1 h with e | h
            · simp only [Prod.mk.injEq] at e; obtain ⟨rfl, rfl⟩ := e
              left; unfold leavesItem
              exact List.mem_map.2 ⟨(_, v), (ih _ (List.mem_cons_self ..) _ rfl _ _).2 t, rfl⟩
            · exact .inr (.deeper h t)
  exact main (.dict d) d rfl p v

theorem leaf_head {d : List (Str × Val)} {p : List Str} {v : Val} (h : Leaf d p v) :
    ∃ k ks, p = k :: ks ∧ k ∈ d.map Prod.fst := by
  cases h with
  | here h _ => exact ⟨_, _, rfl, List.mem_map.2 ⟨_, h, rfl⟩⟩
  | deeper h _ => exact ⟨_, _, rfl, List.mem_map.2 ⟨_, h, rfl⟩⟩

theorem leaves_nodup (d : List (Str × Val)) (h : Proper (.dict d)) : ((leaves d).map Prod.fst).Nodup := by
  have main : ∀ u : Val, Proper u → ∀ d, u = .dict d → ((leaves d).map Prod.fst).Nodup := by
    intro u
    induction u using Val.induct with
    | none | bool | int | str | list => intro _ d h; cases h
    | dict d ih =>
      intro hp d' h; cases h
      cases hp with
      | dict hk hp =>
      induction d with
      | nil => simp [leaves]
      | cons kv d ihd =>
        obtain ⟨k, u⟩ := kv
        simp only [List.map_cons, List.nodup_cons] at hk
        rw [leaves, List.map_append, List.nodup_append]
        refine ⟨?_, ihd (fun kv h => ih kv (by simp [h])) hk.2 (fun kv h => hp kv (by simp [h])), ?_⟩
        · unfold leavesItem
          split
          · rename_i d2
            rw [List.map_map]
            have h1 := ih (k, .dict d2) (by simp) (hp _ (by simp)) d2 rfl
            have : ((Prod.fst : List Str × Val → List Str) ∘ fun x => (k :: x.1, x.2)) =
                (fun p => k :: p) ∘ Prod.fst := by funext x; rfl
            rw [this, ← List.map_map]
            rw [List.Nodup, List.pairwise_map]
            exact h1.imp (fun h e => h (by simpa using e))
          · simp
        · rintro a ha b hb rfl
          obtain ⟨⟨p1, v1⟩, h1, rfl⟩ := List.mem_map.1 ha
          obtain ⟨⟨p2, v2⟩, h2, e⟩ := List.mem_map.1 hb
          simp only at e; subst e
          obtain ⟨k2, ks2, e2, hm⟩ := leaf_head ((leaves_sound d p2 v2).1 h2)
          have : ∃ ks, p2 = k :: ks := by
            unfold leavesItem at h1
            split at h1
            · obtain ⟨q, _, e⟩ := List.mem_map.1 h1
              simp only [Prod.mk.injEq] at e; exact ⟨_, e.1.symm⟩
            · simp at h1; exact ⟨_, h1.1⟩
          obtain ⟨ks, e3⟩ := this
          rw [e2] at e3
          simp only [List.cons.injEq] at e3
          rw [e3.1] at hm; exact hk.1 hm
  exact main (.dict d) h d rfl

/-! Paging -/

theorem grouperLoop_spec {α} (n : Nat) (hn : 1 ≤ n) (items page : List α) (hp : page.length < n) :
    (grouperLoop n page items).flatten = page ++ items ∧
    (∀ i, i + 1 < (grouperLoop n page items).length → ((grouperLoop n page items)[i]?.map List.length) = some n) ∧
    (∃ last, (grouperLoop n page items).getLast? = some last ∧ last.length < n) ∧
    (grouperLoop n page items).length = (page.length + items.length) / n + 1 := by
  induction items generalizing page with
  | nil =>
    refine ⟨by simp [grouperLoop], by simp [grouperLoop], ⟨page, by simp [grouperLoop], hp⟩, ?_⟩
    simp [grouperLoop, Nat.div_eq_of_lt hp]
  | cons x items ih =>
    rw [grouperLoop]
    by_cases h : (page ++ [x]).length = n
    · simp only [h, if_true]
      obtain ⟨h1, h2, ⟨last, h3, h3'⟩, h4⟩ := ih [] (by simp; omega)
      refine ⟨by simp [h1], ?_, ⟨last, ?_, h3'⟩, ?_⟩
      · intro i hi
        cases i with
        | zero => simp [h]
        | succ i => simp only [List.length_cons] at hi; simpa using h2 i (by omega)
      · rw [List.getLast?_cons, h3]; rfl
      · simp only [List.length_cons, h4, List.length_nil]
        simp only [List.length_append, List.length_singleton] at h
        have : page.length + (items.length + 1) = items.length + n := by omega
        rw [this, Nat.add_div_right _ (by omega)]; simp
    · simp only [h, if_false]
      have hlt : (page ++ [x]).length < n := by simp at h ⊢; omega
      obtain ⟨h1, h2, h3, h4⟩ := ih (page ++ [x]) hlt
      refine ⟨by simp [h1], h2, h3, ?_⟩
      rw [h4]; simp only [List.length_append, List.length_cons, List.length_nil]
      congr 2; omega

end Verif.Doc
