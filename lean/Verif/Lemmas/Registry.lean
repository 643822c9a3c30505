import Verif.Spec.Registry
/-
Helper lemmas for C06-C08.
-/
set_option linter.unusedSectionVars false

namespace Verif.Registry
variable {κ ν υ : Type} [DecidableEq κ] [DecidableEq ν]

theorem KM.get?_run_ne (f : κ → ν) (d : AList ν υ) (op : KMOp κ υ) (n : ν)
    (h : ¬ op.touches f n) : (KM.run f d op).get? n = d.get? n := by
  cases op with
  | set k v => exact AList.get?_set_ne _ _ h
  | del k =>
    simp only [KM.run, KM.delItem]; split
    · rw [AList.get?_erase]; simp only [KMOp.touches] at h; grind
    · rfl

theorem KM.get?_runs_ne (f : κ → ν) (d : AList ν υ) (ops : List (KMOp κ υ)) (n : ν)
    (h : ∀ op ∈ ops, ¬ op.touches f n) : (ops.foldl (KM.run f) d).get? n = d.get? n := by
  induction ops generalizing d with
  | nil => rfl
  | cons op ops ih =>
    rw [List.foldl_cons, ih _ (fun o ho => h o (by simp [ho])), KM.get?_run_ne _ _ _ _ (h op (by simp))]

theorem KM.wf_run (f : κ → ν) (d : AList ν υ) (wf : d.WF) (op : KMOp κ υ) : (KM.run f d op).WF := by
  cases op with
  | set k v => exact AList.wf_set wf _ _
  | del k =>
    simp only [KM.run, KM.delItem]; split
    · exact AList.wf_erase wf _
    · exact wf

theorem KM.wf_runs (f : κ → ν) (d : AList ν υ) (wf : d.WF) (ops : List (KMOp κ υ)) :
    (ops.foldl (KM.run f) d).WF := by
  induction ops generalizing d with
  | nil => exact wf
  | cons op ops ih => exact ih _ (KM.wf_run f d wf op)

theorem KM.init_aux (f : κ → ν) (temp : AList κ υ) (d : AList ν υ) :
    temp.foldl (fun d p => d.set (f p.1) p.2) d =
      (temp.map (fun p => KMOp.set p.1 p.2)).foldl (KM.run f) d := by
  induction temp generalizing d with
  | nil => rfl
  | cons p t ih => simp only [List.foldl_cons, List.map_cons, ih]; rfl

theorem KM.wf_init (f : κ → ν) (temp : AList κ υ) : (KM.init f temp).WF := by
  unfold KM.init
  rw [KM.init_aux]; exact KM.wf_runs f _ AList.wf_nil _

theorem upd_self (st : Stores κ υ) (i : Nat) (d : AList κ υ) : st.upd i d i = d := by
  simp [Stores.upd]

theorem upd_ne (st : Stores κ υ) {i j : Nat} (d : AList κ υ) (h : j ≠ i) : st.upd i d j = st j := by
  simp [Stores.upd, h]

theorem Anc.le {F : Forest} {i j : Nat} (h : Anc F i j) : j ≤ i := by
  induction h with
  | refl => exact Nat.le_refl _
  | step hp _ ih => have := F.lt _ _ hp; omega

theorem anc_cases {F : Forest} {i j : Nat} :
    Anc F i j ↔ i = j ∨ ∃ p ∈ F.parents i, Anc F p j := by
  constructor
  · rintro (_ | ⟨hp, h⟩)
    · exact .inl rfl
    · exact .inr ⟨_, hp, h⟩
  · rintro (rfl | ⟨p, hp, h⟩)
    · exact .refl _
    · exact .step hp h

/-- `register` as a function of the parents list without `attach`. -/
theorem register_eq (F : Forest) (i : Nat) (k : κ) (v : υ) (st : Stores κ υ) :
    register F i k v st =
      (F.parents i).foldl (fun st p => register F p k v st) (st.upd i ((st i).set k v)) := by
  rw [register]
  rw [List.foldl_subtype (g := fun st p => register F p k v st) (fun _ _ _ => rfl)]
  simp

theorem register_spec (F : Forest) (i : Nat) (k : κ) (v : υ) (st : Stores κ υ) (j : Nat) (k' : κ) :
    (k' = k ∧ Anc F i j → (register F i k v st j).get? k' = some v) ∧
    (¬ (k' = k ∧ Anc F i j) → (register F i k v st j).get? k' = (st j).get? k') := by
  induction i using Nat.strongRecOn generalizing st with
  | ind i ih =>
    rw [register_eq]
    have loop : ∀ (ps : List Nat), (∀ p ∈ ps, p < i) → ∀ st : Stores κ υ,
        ((k' = k ∧ ∃ p ∈ ps, Anc F p j) →
          (ps.foldl (fun st p => register F p k v st) st j).get? k' = some v) ∧
        (¬ (k' = k ∧ ∃ p ∈ ps, Anc F p j) →
          (ps.foldl (fun st p => register F p k v st) st j).get? k' = (st j).get? k') := by
      intro ps
      induction ps with
      | nil => intro _ st; simp
      | cons p ps ihp =>
        intro hps st
        have hp := ih p (hps p (by simp)) st
        have hl := ihp (fun q hq => hps q (by simp [hq])) (register F p k v st)
        rw [List.foldl_cons]
        simp only [List.mem_cons, exists_eq_or_imp]
        by_cases h1 : k' = k ∧ ∃ p ∈ ps, Anc F p j
        · exact ⟨fun _ => hl.1 h1, fun h => absurd ⟨h1.1, .inr h1.2⟩ h⟩
        · rw [hl.2 h1]
          refine ⟨fun h => hp.1 ⟨h.1, ?_⟩, fun h => hp.2 fun h' => h ⟨h'.1, .inl h'.2⟩⟩
          rcases h.2 with h2 | h2
          · exact h2
          · exact absurd ⟨h.1, h2⟩ h1
    have hl := loop (F.parents i) (F.lt i) (st.upd i ((st i).set k v))
    by_cases h1 : k' = k ∧ ∃ p ∈ F.parents i, Anc F p j
    · exact ⟨fun _ => hl.1 h1, fun h => absurd ⟨h1.1, anc_cases.2 (.inr h1.2)⟩ h⟩
    · rw [hl.2 h1]
      constructor
      · rintro ⟨rfl, ha⟩
        rcases anc_cases.1 ha with rfl | h2
        · rw [upd_self, AList.get?_set_self]
        · exact absurd ⟨rfl, h2⟩ h1
      · intro h
        by_cases hij : j = i
        · subst hij
          rw [upd_self, AList.get?_set]
          have : ¬ k = k' := fun e => h ⟨e.symm, .refl _⟩
          simp [this]
        · rw [upd_ne _ _ hij]

/-- The loop of `unregister` over the parents, without `attach`. -/
def unregisterAll (F : Forest) (k : κ) : List Nat → Stores κ υ → Stores κ υ × Option Exc
  | [], st => (st, none)
  | p :: ps, st => match unregister F p k st with
    | (st, none) => unregisterAll F k ps st
    | (st, some e) => (st, some e)

theorem unregister_eq (F : Forest) (i : Nat) (k : κ) (st : Stores κ υ) :
    unregister F i k st =
      if (st i).contains k then unregisterAll F k (F.parents i) (st.upd i ((st i).erase k))
      else (st, some .keyError) := by
  rw [unregister]
  split
  · rw [List.foldl_subtype (g := fun acc p => match acc with
        | (st, none) => unregister F p k st
        | (st, some e) => (st, some e)) (fun _ _ _ => rfl)]
    simp only [List.unattach_attach]
    have stuck : ∀ (ps : List Nat) (st : Stores κ υ) (e : Exc),
        ps.foldl (fun acc p => match acc with
          | (st, none) => unregister F p k st
          | (st, some e) => (st, some e)) (st, some e) = (st, some e) := by
      intro ps st e
      induction ps with
      | nil => rfl
      | cons p ps ih => simpa using ih
    have : ∀ (ps : List Nat) (st : Stores κ υ),
        ps.foldl (fun acc p => match acc with
          | (st, none) => unregister F p k st
          | (st, some e) => (st, some e)) (st, none) = unregisterAll F k ps st := by
      intro ps
      induction ps with
      | nil => intro st; rfl
      | cons p ps ih =>
        intro st
        rw [List.foldl_cons, unregisterAll]
        rcases h : unregister F p k st with ⟨st', _ | e⟩
        · simp only [h]; exact ih st'
        · simp only [h]; exact stuck _ _ _
    exact this _ _
  · rfl

theorem NoDiamond.parent {F : Forest} {i p : Nat} (h : NoDiamond F i) (hp : p ∈ F.parents i) :
    NoDiamond F p := fun a ha => h a (.step hp ha)

/-- In a hierarchy without diamonds, when the registry and all its ancestors have the key,
`unregister` succeeds, removes the key there and changes nothing else. -/
theorem unregister_ok (F : Forest) (i : Nat) (k : κ) (st : Stores κ υ) (hd : NoDiamond F i)
    (hall : ∀ j, Anc F i j → k ∈ (st j).keys) :
    (unregister F i k st).2 = none ∧
    ∀ j, (Anc F i j → (unregister F i k st).1 j = (st j).erase k) ∧
         (¬ Anc F i j → (unregister F i k st).1 j = st j) := by
  induction i using Nat.strongRecOn generalizing st with
  | ind i ih =>
    rw [unregister_eq, if_pos (AList.contains_iff.2 (hall i (.refl i)))]
    have loop : ∀ (ps : List Nat), (∀ p ∈ ps, p ∈ F.parents i) → ps.Nodup → ∀ st : Stores κ υ,
        (∀ p ∈ ps, ∀ j, Anc F p j → k ∈ (st j).keys) →
        (unregisterAll F k ps st).2 = none ∧
        ∀ j, ((∃ p ∈ ps, Anc F p j) → (unregisterAll F k ps st).1 j = (st j).erase k) ∧
             (¬ (∃ p ∈ ps, Anc F p j) → (unregisterAll F k ps st).1 j = st j) := by
      intro ps
      induction ps with
      | nil => intro _ _ st _; simp [unregisterAll]
      | cons p ps ihp =>
        intro hps hn st hk
        have hpi := hps p (by simp)
        have hp := ih p (F.lt i p hpi) st (hd.parent hpi) (hk p (by simp))
        rw [List.nodup_cons] at hn
        have disj : ∀ q ∈ ps, ∀ j, Anc F q j → ¬ Anc F p j := by
          intro q hq j hqj hpj
          have hne : p ≠ q := fun e => hn.1 (e ▸ hq)
          exact (hd i (.refl i)).2 p hpi q (hps q (by simp [hq])) hne j ⟨hpj, hqj⟩
        have hl := ihp (fun q hq => hps q (by simp [hq])) hn.2 (unregister F p k st).1
          (by
            intro q hq j hqj
            rw [(hp.2 j).2 (disj q hq j hqj)]
            exact hk q (by simp [hq]) j hqj)
        rw [unregisterAll]
        rcases h : unregister F p k st with ⟨st', o⟩
        rw [h] at hp hl
        obtain ⟨h1, h2⟩ := hp
        simp only at h1; subst h1
        refine ⟨hl.1, fun j => ?_⟩
        simp only [List.mem_cons, exists_eq_or_imp]
        constructor
        · rintro (hj | ⟨q, hq, hj⟩)
          · rw [(hl.2 j).2 (by rintro ⟨q, hq, hqj⟩; exact disj q hq j hqj hj)]
            exact (h2 j).1 hj
          · rw [(hl.2 j).1 ⟨q, hq, hj⟩]
            rw [(h2 j).2 (disj q hq j hj)]
        · intro hj
          rw [(hl.2 j).2 (fun h => hj (.inr h)), (h2 j).2 (fun h => hj (.inl h))]
    have notself : ∀ j, (∃ p ∈ F.parents i, Anc F p j) → j ≠ i := by
      rintro j ⟨p, hp, h⟩ rfl
      have := h.le; have := F.lt _ _ hp; omega
    have hl := loop (F.parents i) (fun _ h => h) (hd i (.refl i)).1 (st.upd i ((st i).erase k))
      (by
        intro p hp j hj
        rw [upd_ne _ _ (notself j ⟨p, hp, hj⟩)]
        exact hall j (.step hp hj))
    refine ⟨hl.1, fun j => ?_⟩
    by_cases hj : ∃ p ∈ F.parents i, Anc F p j
    · rw [(hl.2 j).1 hj, upd_ne _ _ (notself j hj)]
      exact ⟨fun _ => rfl, fun h => absurd (anc_cases.2 (.inr hj)) h⟩
    · rw [(hl.2 j).2 hj]
      constructor
      · intro h
        rcases anc_cases.1 h with rfl | h
        · rw [upd_self]
        · exact absurd h hj
      · intro h
        rw [upd_ne]
        rintro rfl; exact h (.refl _)

end Verif.Registry
