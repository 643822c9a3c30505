import Verif.Spec.ChainMap
/-
C01-C05: chained mappings and contexts.
-/
set_option linter.unusedSectionVars false

namespace Verif.ChainMap
variable {κ υ : Type} [DecidableEq κ]

/-! ### Helper lemmas -/

theorem Chain.ind {P : Chain κ υ → Prop} (hd : ∀ d, P (.dict d))
    (hc : ∀ ms, (∀ m ∈ ms, P m) → P (.chain ms)) (c : Chain κ υ) : P c := by
  refine Chain.rec (motive_1 := P) (motive_2 := fun ms => ∀ m ∈ ms, P m) hd hc ?_ ?_ c
  · simp
  · intro m ms hm hms; simpa using ⟨hm, hms⟩

theorem hasKey_dict {d : AList κ υ} {k : κ} : HasKey (.dict d) k ↔ k ∈ d.keys := by
  constructor
  · rintro ⟨h⟩; exact List.mem_map.2 ⟨_, h, rfl⟩
  · intro h; obtain ⟨⟨a, b⟩, h', rfl⟩ := List.mem_map.1 h; exact .dict h'

theorem hasKey_chain {ms : List (Chain κ υ)} {k : κ} :
    HasKey (.chain ms) k ↔ ∃ m ∈ ms, HasKey m k := by
  constructor
  · rintro (_ | ⟨hm, h⟩); exact ⟨_, hm, h⟩
  · rintro ⟨m, hm, h⟩; exact .chain hm h

theorem binds_hasKey {c : Chain κ υ} {k : κ} {v : υ} (h : Binds c k v) : HasKey c k := by
  induction h with
  | dict h => exact .dict h
  | chain _ _ ih => exact .chain (by simp) ih

theorem getItem_total (c : Chain κ υ) (k : κ) :
    (HasKey c k → ∃ v, c.getItem k = .ok v) ∧ (¬ HasKey c k → c.getItem k = .error .keyError) := by
  induction c using Chain.ind with
  | hd d =>
    rw [hasKey_dict, Chain.getItem]
    have h1 := AList.get?_eq_none (d := d) (k := k)
    cases h : d.get? k <;> grind
  | hc ms ih =>
    rw [hasKey_chain, Chain.getItem]
    induction ms with
    | nil => simp [Chain.getItems]
    | cons m ms ihl =>
      have hm := ih m (by simp)
      have hl := ihl (fun m' h => ih m' (by simp [h]))
      simp only [List.mem_cons, exists_eq_or_imp, Chain.getItems]
      by_cases hk : HasKey m k
      · obtain ⟨v, hv⟩ := hm.1 hk; simp [hv, hk]
      · rw [hm.2 hk]; simpa [hk] using hl

theorem getItem_ok_iff {c : Chain κ υ} (wf : c.WF) (k : κ) (v : υ) :
    c.getItem k = .ok v ↔ Binds c k v := by
  induction c using Chain.ind with
  | hd d =>
    obtain ⟨wf⟩ := wf
    have := AList.get?_iff_mem (d := d) wf (k := k) (v := v)
    rw [Chain.getItem]
    constructor
    · intro h; cases h' : d.get? k <;> rw [h'] at h <;> simp at h; subst h; exact .dict (this.1 h')
    · rintro ⟨h⟩; simp [this.2 h]
  | hc ms ih =>
    obtain _ | ⟨wf⟩ := wf
    rw [Chain.getItem]
    have key : Chain.getItems ms k = .ok v ↔ ∃ pre m post, ms = pre ++ m :: post ∧
        (∀ m' ∈ pre, ¬ HasKey m' k) ∧ Binds m k v := by
      induction ms with
      | nil => simp [Chain.getItems]
      | cons m ms ihl =>
        have hm := ih m (by simp) (wf m (by simp))
        have hl := ihl (fun m' h => ih m' (by simp [h])) (fun m' h => wf m' (by simp [h]))
        rw [Chain.getItems]
        have tot := getItem_total m k
        by_cases hk : HasKey m k
        · obtain ⟨w, hw⟩ := tot.1 hk
          rw [hw] at hm ⊢
          constructor
          · intro h; exact ⟨[], m, ms, rfl, by simp, hm.1 h⟩
          · rintro ⟨pre, m', post, he, hp, hb⟩
            cases pre with
            | nil => simp at he; obtain ⟨rfl, rfl⟩ := he; exact hm.2 hb
            | cons p pre => simp at he; obtain ⟨rfl, rfl⟩ := he; exact absurd hk (hp _ (by simp))
        · rw [tot.2 hk]; simp only; rw [hl]
          constructor
          · rintro ⟨pre, m', post, rfl, hp, hb⟩
            exact ⟨m :: pre, m', post, rfl, by simpa using ⟨hk, hp⟩, hb⟩
          · rintro ⟨pre, m', post, he, hp, hb⟩
            cases pre with
            | nil => simp at he; obtain ⟨rfl, rfl⟩ := he; exact absurd (binds_hasKey hb) hk
            | cons p pre =>
              simp at he; obtain ⟨rfl, rfl⟩ := he
              exact ⟨pre, m', post, rfl, fun x hx => hp x (by simp [hx]), hb⟩
    rw [key]
    constructor
    · rintro ⟨pre, m, post, rfl, hp, hb⟩; exact .chain hp hb
    · intro h
      generalize he : Chain.chain ms = c at h
      cases h with
      | dict h => cases he
      | chain hp hb => cases he; exact ⟨_, _, _, rfl, hp, hb⟩

theorem contains_iff (c : Chain κ υ) (k : κ) : c.contains k = true ↔ HasKey c k := by
  induction c using Chain.ind with
  | hd d => rw [hasKey_dict, Chain.contains, AList.contains_iff]
  | hc ms ih =>
    rw [hasKey_chain, Chain.contains]
    induction ms with
    | nil => simp [Chain.containsAny]
    | cons m ms ihl =>
      have hm := ih m (by simp)
      have hl := ihl (fun m' h => ih m' (by simp [h]))
      simp [Chain.containsAny, hm, hl]

theorem mem_yieldNew {vs ks : List κ} {k : κ} : k ∈ yieldNew vs ks ↔ k ∈ ks ∧ k ∉ vs := by
  induction ks generalizing vs with
  | nil => simp [yieldNew]
  | cons a ks ih => grind [yieldNew]

theorem nodup_yieldNew (vs ks : List κ) : (yieldNew vs ks).Nodup := by
  induction ks generalizing vs with
  | nil => simp [yieldNew]
  | cons a ks ih => 
    rw [yieldNew]; split
    · exact ih vs
    · rw [List.nodup_cons, mem_yieldNew]; simp [ih]

theorem mem_iter (c : Chain κ υ) (k : κ) : k ∈ c.iter ↔ HasKey c k := by
  induction c using Chain.ind with
  | hd d => rw [hasKey_dict, Chain.iter]
  | hc ms ih =>
    rw [hasKey_chain, Chain.iter, mem_yieldNew]
    simp only [List.not_mem_nil, not_false_eq_true, and_true]
    induction ms with
    | nil => simp [Chain.iters]
    | cons m ms ihl =>
      have hm := ih m (by simp)
      have hl := ihl (fun m' h => ih m' (by simp [h]))
      simp [Chain.iters, hm, hl]

theorem nodup_iter {c : Chain κ υ} (wf : c.WF) : c.iter.Nodup := by
  cases wf with
  | dict h => rw [Chain.iter]; exact h
  | chain h => rw [Chain.iter]; exact nodup_yieldNew _ _

theorem mem_reversedKeys (c : Chain κ υ) (k : κ) : k ∈ c.reversedKeys ↔ HasKey c k := by
  induction c using Chain.ind with
  | hd d => rw [hasKey_dict, Chain.reversedKeys]
  | hc ms ih =>
    rw [hasKey_chain, Chain.reversedKeys, mem_yieldNew]
    simp only [List.not_mem_nil, not_false_eq_true, and_true]
    induction ms with
    | nil => simp [Chain.reversedKeysL]
    | cons m ms ihl =>
      have hm := ih m (by simp)
      have hl := ihl (fun m' h => ih m' (by simp [h]))
      simp [Chain.reversedKeysL, hm, hl, or_comm]

theorem nodup_reversedKeys {c : Chain κ υ} (wf : c.WF) : c.reversedKeys.Nodup := by
  cases wf with
  | dict h => rw [Chain.reversedKeys]; exact h
  | chain h => rw [Chain.reversedKeys]; exact nodup_yieldNew _ _

theorem foldl_setAdd (ks acc : List κ) (hn : acc.Nodup) :
    (ks.foldl setAdd acc).Nodup ∧ ∀ k, k ∈ ks.foldl setAdd acc ↔ k ∈ acc ∨ k ∈ ks := by
  induction ks generalizing acc with
  | nil => simp [hn]
  | cons a ks ih =>
    rw [List.foldl_cons]
    have := ih (setAdd acc a) (by grind [setAdd])
    refine ⟨this.1, fun x => ?_⟩
    rw [this.2]; grind [setAdd]

theorem length_eq_of_same_mem {l₁ l₂ : List κ} (h₁ : l₁.Nodup) (h₂ : l₂.Nodup)
    (h : ∀ k, k ∈ l₁ ↔ k ∈ l₂) : l₁.length = l₂.length :=
  ((List.perm_ext_iff_of_nodup h₁ h₂).2 h).length_eq

theorem len_eq {c : Chain κ υ} (wf : c.WF) : c.len = c.iter.length := by
  cases wf with
  | dict h => simp [Chain.len, Chain.iter, AList.keys]
  | @chain ms h =>
    rw [Chain.len]
    have := foldl_setAdd (ms.map Chain.iter).flatten [] (by simp)
    refine length_eq_of_same_mem this.1 (nodup_iter (.chain h)) (fun k => ?_)
    rw [setUnion, this.2, mem_iter, hasKey_chain]
    simp only [List.not_mem_nil, false_or, List.mem_flatten, List.mem_map]
    constructor
    · rintro ⟨_, ⟨m, hm, rfl⟩, hk⟩; exact ⟨m, hm, (mem_iter m k).1 hk⟩
    · rintro ⟨m, hm, hk⟩; exact ⟨_, ⟨m, hm, rfl⟩, (mem_iter m k).2 hk⟩

theorem yieldNew_eq (vs ks : List κ) :
    yieldNew vs ks = (ks.filter (fun k => k ∉ vs)).eraseDups := by
  induction ks generalizing vs with
  | nil => simp [yieldNew]
  | cons a ks ih =>
    rw [yieldNew]; split
    · rename_i h; simp [h, ih]
    · rename_i h
      rw [List.filter_cons_of_pos (by simpa using h), List.eraseDups_cons, ih, List.filter_filter]
      congr 3; funext k; simp [eq_comm]; grind

theorem iters_eq (ms : List (Chain κ υ)) : Chain.iters ms = ms.flatMap Chain.iter := by
  induction ms with
  | nil => simp [Chain.iters]
  | cons m ms ih => simp [Chain.iters, ih]

theorem reversedKeysL_eq (ms : List (Chain κ υ)) :
    Chain.reversedKeysL ms = ms.reverse.flatMap Chain.reversedKeys := by
  induction ms with
  | nil => simp [Chain.reversedKeysL]
  | cons m ms ih => simp [Chain.reversedKeysL, ih]

theorem mergeKeys_spec (m : Chain κ υ) (ks : List κ) (ret : AList κ υ)
    (hk : ∀ k ∈ ks, HasKey m k) (wf : ret.WF) :
    ∃ d, mergeKeys m ks ret = .ok d ∧ d.WF ∧
      ∀ k v, d.get? k = some v ↔
        (k ∈ ks ∧ m.getItem k = .ok v) ∨ (k ∉ ks ∧ ret.get? k = some v) := by
  induction ks generalizing ret with
  | nil => exact ⟨ret, rfl, wf, by simp⟩
  | cons a ks ih =>
    obtain ⟨v, hv⟩ := (getItem_total m a).1 (hk a (by simp))
    obtain ⟨d, h1, h2, h3⟩ := ih (ret.set a v) (fun k h => hk k (by simp [h])) (AList.wf_set wf _ _)
    refine ⟨d, by simp [mergeKeys, hv, h1], h2, fun k w => ?_⟩
    rw [h3, AList.get?_set]
    by_cases hka : a = k
    · subst hka; simp [hv]; grind
    · simp [hka]; grind

theorem merge_spec (ord : List κ → List κ) (hord : ∀ l, (ord l).Perm l)
    (ms : List (Chain κ υ)) (ret : AList κ υ) (wf : ret.WF) :
    ∃ d, merge ord ms ret = .ok d ∧ d.WF ∧
      ∀ k v, d.get? k = some v ↔
        ret.get? k = some v ∨ (k ∉ ret.keys ∧ Chain.getItems ms k = .ok v) := by
  induction ms generalizing ret with
  | nil => exact ⟨ret, rfl, wf, by simp [Chain.getItems]⟩
  | cons m ms ih =>
    obtain ⟨d, h1, h2, h3⟩ := mergeKeys_spec m (ord (m.iter.filter (fun k => k ∉ ret.keys))) ret
      (by intro k hk; rw [(hord _).mem_iff] at hk; exact (mem_iter m k).1 (List.mem_filter.1 hk).1) wf
    obtain ⟨e, g1, g2, g3⟩ := ih d h2
    refine ⟨e, by rw [merge, h1]; exact g1, g2, fun k v => ?_⟩
    have hm : k ∈ ord (m.iter.filter (fun k => k ∉ ret.keys)) ↔ HasKey m k ∧ k ∉ ret.keys := by
      rw [(hord _).mem_iff, List.mem_filter, mem_iter]; simp
    have hd : k ∈ d.keys ↔ k ∈ ret.keys ∨ HasKey m k := by
      rw [← AList.get?_isSome, Option.isSome_iff_exists]
      constructor
      · rintro ⟨w, hw⟩; rw [h3] at hw
        have := AList.get?_isSome (d := ret) (k := k); grind
      · intro h
        by_cases hr : k ∈ ret.keys
        · obtain ⟨w, hw⟩ := Option.isSome_iff_exists.1 (AList.get?_isSome.2 hr)
          exact ⟨w, (h3 k w).2 (.inr ⟨by rw [hm]; grind, hw⟩)⟩
        · obtain ⟨w, hw⟩ := (getItem_total m k).1 (by grind)
          exact ⟨w, (h3 k w).2 (.inl ⟨by rw [hm]; grind, hw⟩)⟩
    have hr := AList.get?_eq_none (d := ret) (k := k)
    rw [g3, h3, hm, hd, Chain.getItems]
    have tot := getItem_total m k
    by_cases hk : HasKey m k
    · obtain ⟨w, hw⟩ := tot.1 hk
      by_cases hkr : k ∈ ret.keys <;> simp [hk, hw, hkr] <;> simp_all
    · simp [hk, tot.2 hk]

theorem getItems_append (a b : List (Chain κ υ)) (k : κ) :
    Chain.getItems (a ++ b) k = match Chain.getItems a k with
      | .ok v => .ok v
      | .error _ => Chain.getItems b k := by
  induction a with
  | nil => simp [Chain.getItems]
  | cons m a ih =>
    rw [List.cons_append, Chain.getItems, Chain.getItems, ih]
    cases m.getItem k <;> rfl

theorem getItems_error (ms : List (Chain κ υ)) (k : κ) {e : Exc}
    (h : Chain.getItems ms k = .error e) : e = .keyError := by
  have := getItem_total (.chain ms) k
  rw [Chain.getItem] at this
  by_cases hk : HasKey (.chain ms) k
  · obtain ⟨v, hv⟩ := this.1 hk; rw [hv] at h; cases h
  · rw [this.2 hk] at h; cases h; rfl

theorem flattened_getItems (c : Chain κ υ) (k : κ) :
    Chain.getItems (c.flattened.map .dict) k = c.getItem k := by
  induction c using Chain.ind with
  | hd d =>
    simp only [Chain.flattened, List.map_cons, List.map_nil, Chain.getItems, Chain.getItem]
    cases d.get? k <;> rfl
  | hc ms ih =>
    rw [Chain.flattened, Chain.getItem]
    induction ms with
    | nil => simp [Chain.flattenedL]
    | cons m ms ihl =>
      have hm := ih m (by simp)
      have hl := ihl (fun m' h => ih m' (by simp [h]))
      rw [Chain.flattenedL, List.map_append, getItems_append, hm, hl, Chain.getItems]
      all_goals (cases m.getItem k <;> rfl)

theorem getItems_nested (a b c : List (Chain κ υ)) (k : κ) :
    Chain.getItems (a ++ .chain b :: c) k = Chain.getItems (a ++ b ++ c) k := by
  rw [getItems_append, List.append_assoc, getItems_append, Chain.getItems, Chain.getItem,
    getItems_append]
  all_goals (cases Chain.getItems a k <;> cases Chain.getItems b k <;> rfl)

/-- A chain lookup only depends on the maps that are not empty dictionaries. -/
theorem getItems_empty (ms : List (Chain κ υ)) (k : κ) :
    Chain.getItems (.dict [] :: ms) k = Chain.getItems ms k := by
  rw [Chain.getItems, Chain.getItem]; rfl

theorem createChild_getItem (c : Ctx κ υ) (ps : List (Chain κ υ)) (loc : AList κ υ) (k : κ) :
    (c.createChild ps loc).getItem k =
      Chain.getItem (.chain (.dict loc :: ps ++ [.chain c.maps])) k := by
  rw [Chain.getItem, List.cons_append, show Chain.dict loc :: (ps ++ [Chain.chain c.maps])
    = (Chain.dict loc :: ps) ++ Chain.chain c.maps :: [] from rfl, getItems_nested]
  unfold Ctx.createChild Ctx.getItem Ctx.init
  cases loc with
  | nil => cases ps <;> simp [getItems_empty]
  | cons p loc => simp [getItems_empty]

end Verif.ChainMap
