import Verif.Lemmas.Registry
/-
C06: key-normalising mappings; C07, C08: registries.
-/
set_option linter.unusedSectionVars false

namespace Verif.Registry
variable {κ ν υ : Type} [DecidableEq κ] [DecidableEq ν]

/-! ### C06 -/

/-- The last mutation whose key has the same normal form as `k` decides: a `set` makes `k` bound to
its value under every spelling, a `del` makes it absent under every spelling. -/
theorem C06_last_mutation_wins (f : κ → ν) (temp : AList κ υ) (before after : List (KMOp κ υ))
    (op : KMOp κ υ) (k : κ) (hop : op.touches f (f k)) (hafter : ∀ o ∈ after, ¬ o.touches f (f k)) :
    let d := (before ++ op :: after).foldl (KM.run f) (KM.init f temp)
    (∀ k' v, op = .set k' v → KM.getItem f d k = .ok v ∧ KM.contains f d k = true) ∧
    (∀ k', op = .del k' → KM.getItem f d k = .error .keyError ∧ KM.contains f d k = false) := by
  intro d
  have hd : d.get? (f k) = (KM.run f (before.foldl (KM.run f) (KM.init f temp)) op).get? (f k) := by
    simp only [d, List.foldl_append, List.foldl_cons]
    exact KM.get?_runs_ne f _ _ _ hafter
  constructor
  · rintro k' v rfl
    have : d.get? (f k) = some v := by
      rw [hd]; simp only [KM.run, KM.setItem]; rw [← show f k' = f k from hop, AList.get?_set_self]
    simp [KM.getItem, KM.contains, AList.contains, this]
  · rintro k' rfl
    have : d.get? (f k) = none := by
      rw [hd]; simp only [KM.run, KM.delItem]
      rw [show f k' = f k from hop]
      split
      · simp [AList.get?_erase]
      · rename_i h; simpa [AList.contains] using h
    simp [KM.getItem, KM.contains, AList.contains, this]

/-- A key that no mutation of the history concerns keeps its initial binding. -/
theorem C06_untouched_key_unchanged (f : κ → ν) (temp : AList κ υ) (ops : List (KMOp κ υ)) (k : κ)
    (h : ∀ o ∈ ops, ¬ o.touches f (f k)) :
    KM.getItem f (ops.foldl (KM.run f) (KM.init f temp)) k = KM.getItem f (KM.init f temp) k := by
  simp only [KM.getItem, KM.get?_runs_ne f _ _ _ h]

/-- The initial binding is that of the last initial item with the same normal form. -/
theorem C06_initial_content (f : κ → ν) (before after : AList κ υ) (k k' : κ) (v : υ)
    (hk : f k' = f k) (h : ∀ p ∈ after, f p.1 ≠ f k) :
    KM.getItem f (KM.init f (before ++ (k', v) :: after)) k = .ok v ∧
    (∀ temp : AList κ υ, (∀ p ∈ temp, f p.1 ≠ f k) →
      KM.getItem f (KM.init f temp) k = .error .keyError) := by
  constructor
  · have : (KM.init f (before ++ (k', v) :: after)).get? (f k) = some v := by
      unfold KM.init
      rw [List.foldl_append, List.foldl_cons, KM.init_aux, KM.get?_runs_ne]
      · rw [← hk, AList.get?_set_self]
      · intro o ho; obtain ⟨p, hp, rfl⟩ := List.mem_map.1 ho; exact h p hp
    simp [KM.getItem, this]
  · intro temp ht
    have : (KM.init f temp).get? (f k) = none := by
      unfold KM.init
      rw [KM.init_aux, KM.get?_runs_ne]
      · rfl
      · intro o ho; obtain ⟨p, hp, rfl⟩ := List.mem_map.1 ho; exact ht p hp
    simp [KM.getItem, this]

/-- Two spellings with one normal form are the same entry, in every state. -/
theorem C06_spellings_identified (f : κ → ν) (d : AList ν υ) (k k' : κ) (h : f k = f k') :
    KM.getItem f d k = KM.getItem f d k' ∧ KM.contains f d k = KM.contains f d k' := by
  simp [KM.getItem, KM.contains, h]

/-- Deleting an absent key raises `KeyError` and changes nothing; deleting a present one succeeds. -/
theorem C06_delete (f : κ → ν) (d : AList ν υ) (k : κ) :
    (KM.contains f d k = false → KM.delItem f d k = (d, some .keyError)) ∧
    (KM.contains f d k = true → (KM.delItem f d k).2 = none) := by
  constructor <;> intro h <;> simp_all [KM.delItem, KM.contains]

/-- After every history, iteration yields each present normal form once and `len` counts them. -/
theorem C06_iteration (f : κ → ν) (temp : AList κ υ) (ops : List (KMOp κ υ)) :
    let d := ops.foldl (KM.run f) (KM.init f temp)
    (KM.iter d).Nodup ∧ (∀ k, f k ∈ KM.iter d ↔ KM.contains f d k = true) ∧
    KM.len d = (KM.iter d).length := by
  intro d
  refine ⟨KM.wf_runs f _ (KM.wf_init f temp) ops, fun k => ?_, ?_⟩
  · rw [KM.contains, AList.contains_iff, KM.iter]
  · simp [KM.len, KM.iter, AList.keys]

/-- Keys normalised by their last digit: 12 and 2 are two spellings of one key. -/
example :
    let f : Nat → Nat := (· % 10)
    let d := [KMOp.set 12 "x", .set 21 "y", .del 2].foldl (KM.run f) (KM.init f [(11, "z")]);
    KM.getItem f d 31 = .ok "y" ∧ KM.getItem f d 12 = .error .keyError := by decide

/-! ### C07 -/

/-- One `register`: visible at `i` and all ancestors of `i`, nothing else changes. -/
theorem C07_register_visible (F : Forest) (i : Nat) (k : κ) (v : υ) (st : Stores κ υ) (j : Nat) :
    (Anc F i j → getItem (register F i k v st) j k = .ok v) ∧
    (¬ Anc F i j → ∀ k', getItem (register F i k v st) j k' = getItem st j k') ∧
    (∀ k', k' ≠ k → getItem (register F i k v st) j k' = getItem st j k') := by
  refine ⟨fun h => ?_, fun h k' => ?_, fun k' h => ?_⟩
  · rw [getItem, (register_spec F i k v st j k).1 ⟨rfl, h⟩]
  · rw [getItem, (register_spec F i k v st j k').2 (fun h' => h h'.2), getItem]
  · rw [getItem, (register_spec F i k v st j k').2 (fun h' => h h'.1), getItem]

/-- Any history: the last call that reaches the registry decides. -/
theorem C07_history_last_wins (F : Forest) (st : Stores κ υ) (before after : List (Reg κ υ))
    (r : Reg κ υ) (j : Nat) (k : κ) (hr : r.reaches F j k) (ha : ∀ r' ∈ after, ¬ r'.reaches F j k) :
    getItem ((before ++ r :: after).foldl (fun st r => register F r.on r.key r.val st) st) j k
      = .ok r.val := by
  rw [List.foldl_append, List.foldl_cons]
  obtain ⟨rfl, hr⟩ := hr
  have key : ∀ (l : List (Reg κ υ)) (st : Stores κ υ), (∀ r' ∈ l, ¬ r'.reaches F j r.key) →
      (l.foldl (fun st r => register F r.on r.key r.val st) st j).get? r.key = (st j).get? r.key := by
    intro l
    induction l with
    | nil => intro st _; rfl
    | cons a l ih =>
      intro st h
      rw [List.foldl_cons, ih _ (fun r' hr' => h r' (by simp [hr'])),
        (register_spec F _ _ _ _ _ _).2 (fun h' => h a (by simp) ⟨h'.1.symm, h'.2⟩)]
  rw [getItem, key _ _ ha, (register_spec F _ _ _ _ _ _).1 ⟨rfl, hr⟩]

/-- ... and a key that no call reaches is as before. -/
theorem C07_history_untouched (F : Forest) (st : Stores κ υ) (hist : List (Reg κ υ)) (j : Nat)
    (k : κ) (h : ∀ r ∈ hist, ¬ r.reaches F j k) :
    getItem (hist.foldl (fun st r => register F r.on r.key r.val st) st) j k = getItem st j k := by
  induction hist generalizing st with
  | nil => rfl
  | cons a l ih =>
    rw [List.foldl_cons, ih _ (fun r' hr' => h r' (by simp [hr'])), getItem,
      (register_spec F _ _ _ _ _ _).2 (fun h' => h a (by simp) ⟨h'.1.symm, h'.2⟩), getItem]

/-- A diamond: 3 has parents 1 and 2, which both have parent 0. -/
def diamond : Forest where
  parents i := if i = 3 then [1, 2] else if i = 1 ∨ i = 2 then [0] else []
  lt i p hp := by split at hp <;> (try split at hp) <;> simp at hp <;> omega

example : Anc diamond 3 0 ∧ getItem (register diamond 3 "k" 5 (fun _ => [])) 0 "k" = .ok 5 := by
  have h : Anc diamond 3 0 := .step (p := 1) (by decide) (.step (p := 0) (by decide) (.refl 0))
  exact ⟨h, (C07_register_visible diamond 3 "k" 5 _ 0).1 h⟩

/-! ### C08 -/

/-- The full statement: `unregister` removes the key from the registry and all its ancestors, or
raises and changes nothing. -/
def UnregisterAtomic (κ υ : Type) [DecidableEq κ] : Prop :=
  ∀ (F : Forest) (i : Nat) (k : κ) (st : Stores κ υ),
    ((unregister F i k st).2 = none ∧ ∀ j, Anc F i j → k ∉ ((unregister F i k st).1 j).keys) ∨
    ((unregister F i k st).2 ≠ none ∧ (unregister F i k st).1 = st)

/-- It does not hold: a parent that lacks the key (it was unregistered there directly) makes the call
raise after the child's own entry is gone. -/
theorem C08_unregister_atomic_violated : ¬ UnregisterAtomic Nat Nat := by
  intro h
  let F : Forest := { parents := fun i => if i = 1 then [0] else [],
                      lt := by intro i p hp; split at hp <;> simp at hp; omega }
  let st : Stores Nat Nat := fun i => if i = 1 then [(7, 7)] else []
  have e : unregister F 1 7 st = (st.upd 1 [], some .keyError) := by
    rw [unregister_eq, if_pos (by decide)]
    show unregisterAll F 7 [0] _ = _
    rw [unregisterAll, unregister_eq, if_neg (by decide)]
    rfl
  rcases h F 1 7 st with h | h
  · rw [e] at h; exact absurd h.1 (by decide)
  · rw [e] at h
    have := congrFun h.2 1
    revert this; decide

/-- A diamond above the registry has the same effect even when every registry has the key: the
common ancestor is deleted twice. -/
theorem C08_unregister_diamond_violated :
    let st := register diamond 3 "k" 5 (fun _ => [])
    (unregister diamond 3 "k" st).2 = some .keyError ∧
    "k" ∈ (st 3).keys ∧ "k" ∉ ((unregister diamond 3 "k" st).1 3).keys := by
  intro st
  have anc : ∀ j, j < 4 → Anc diamond 3 j := by
    intro j hj
    have h1 : Anc diamond 3 1 := .step (p := 1) (by decide) (.refl 1)
    have h2 : Anc diamond 3 2 := .step (p := 2) (by decide) (.refl 2)
    have h0 : Anc diamond 3 0 := .step (p := 1) (by decide) (.step (p := 0) (by decide) (.refl 0))
    have h3 : Anc diamond 3 3 := .refl 3
    rcases show j = 0 ∨ j = 1 ∨ j = 2 ∨ j = 3 by omega with rfl | rfl | rfl | rfl <;> assumption
  have hst : ∀ j, j < 4 → (st j).contains "k" = true := by
    intro j hj
    rw [AList.contains, (register_spec diamond 3 "k" 5 (fun _ => []) j "k").1 ⟨rfl, anc j hj⟩]; rfl
  have er : ∀ d : AList String Nat, (d.erase "k").contains "k" = false := by
    intro d; simp [AList.contains, AList.get?_erase]
  have e0 : ∀ s : Stores String Nat, unregister diamond 0 "k" s =
      if (s 0).contains "k" then (s.upd 0 ((s 0).erase "k"), none) else (s, some .keyError) := by
    intro s; rw [unregister_eq]; rfl
  have e1 : ∀ i, diamond.parents i = [0] → i ≠ 0 → ∀ s : Stores String Nat,
      (s i).contains "k" = true → unregister diamond i "k" s =
        if (s 0).contains "k" then ((s.upd i ((s i).erase "k")).upd 0 ((s 0).erase "k"), none)
        else (s.upd i ((s i).erase "k"), some .keyError) := by
    intro i hi h0 s hs
    rw [unregister_eq, if_pos hs, hi, unregisterAll, e0, upd_ne _ _ (Ne.symm h0)]
    by_cases hc : (s 0).contains "k" = true
    · simp [hc, unregisterAll]
    · simp [hc]
  have e : unregister diamond 3 "k" st =
      ((((st.upd 3 ((st 3).erase "k")).upd 1 ((st 1).erase "k")).upd 0 ((st 0).erase "k")).upd 2
        ((st 2).erase "k"), some .keyError) := by
    rw [unregister_eq, if_pos (hst 3 (by decide)), show diamond.parents 3 = [1, 2] from rfl,
      unregisterAll, e1 1 rfl (by decide) _ (by rw [upd_ne _ _ (by decide)]; exact hst 1 (by decide)),
      upd_ne _ _ (by decide), if_pos (hst 0 (by decide))]
    simp only [unregisterAll]
    rw [e1 2 rfl (by decide) _ (by simp [Stores.upd, hst 2 (by decide)])]
    simp [Stores.upd, er]
  rw [e]
  refine ⟨rfl, AList.contains_iff.1 (hst 3 (by decide)), ?_⟩
  simp only [Stores.upd]
  simp [AList.keys_erase]

/-- What holds (1): on a registry that lacks the key, `KeyError` and nothing changes. -/
theorem C08_unregister_absent_partial (F : Forest) (i : Nat) (k : κ) (st : Stores κ υ)
    (h : k ∉ (st i).keys) : unregister F i k st = (st, some .keyError) := by
  rw [unregister_eq, if_neg]
  intro h'; exact h (AList.contains_iff.1 h')

/-- What holds (2): when no diamond is above the registry and every ancestor has the key, the call
succeeds, removes the key from all of them and changes nothing else. -/
theorem C08_unregister_all_partial (F : Forest) (i : Nat) (k : κ) (st : Stores κ υ)
    (hd : NoDiamond F i) (hall : ∀ j, Anc F i j → k ∈ (st j).keys) :
    (unregister F i k st).2 = none ∧
    (∀ j, Anc F i j → k ∉ ((unregister F i k st).1 j).keys) ∧
    (∀ j k', (k' ≠ k ∨ ¬ Anc F i j) →
      ((unregister F i k st).1 j).get? k' = (st j).get? k') := by
  have h := unregister_ok F i k st hd hall
  refine ⟨h.1, fun j hj => ?_, fun j k' hk => ?_⟩
  · rw [(h.2 j).1 hj, AList.keys_erase]; simp
  · by_cases hj : Anc F i j
    · rw [(h.2 j).1 hj, AList.get?_erase, if_neg]
      rcases hk with hk | hk
      · exact hk
      · exact absurd hj hk
    · rw [(h.2 j).2 hj]

/-- What holds (3): after any history of `register` calls alone, starting from empty registries and
without diamonds, `unregister` is all-or-nothing. -/
theorem C08_unregister_after_registers_partial (F : Forest) (i : Nat) (k : κ)
    (hist : List (Reg κ υ)) (hd : NoDiamond F i) :
    let st : Stores κ υ := hist.foldl (fun st r => register F r.on r.key r.val st) (fun _ => [])
    ((unregister F i k st).2 = none ∧ ∀ j, Anc F i j → k ∉ ((unregister F i k st).1 j).keys) ∨
    ((unregister F i k st).2 = some .keyError ∧ (unregister F i k st).1 = st) := by
  intro st
  have trans : ∀ {a b c}, Anc F a b → Anc F b c → Anc F a c := by
    intro a b c h1 h2
    induction h1 with
    | refl => exact h2
    | step hp _ ih => exact .step hp (ih h2)
  have inv : ∀ a b, Anc F a b → k ∈ (st a).keys → k ∈ (st b).keys := by
    have : ∀ (l : List (Reg κ υ)) (s : Stores κ υ),
        (∀ a b, Anc F a b → k ∈ (s a).keys → k ∈ (s b).keys) →
        ∀ a b, Anc F a b → k ∈ (l.foldl (fun st r => register F r.on r.key r.val st) s a).keys →
          k ∈ (l.foldl (fun st r => register F r.on r.key r.val st) s b).keys := by
      intro l
      induction l with
      | nil => intro s hs; exact hs
      | cons r l ih =>
        intro s hs
        refine ih _ ?_
        intro a b hab ha
        rw [← AList.get?_isSome] at ha ⊢
        have h1 := register_spec F r.on r.key r.val s a k
        have h2 := register_spec F r.on r.key r.val s b k
        by_cases hb : k = r.key ∧ Anc F r.on b
        · rw [h2.1 hb]; rfl
        · rw [h2.2 hb]
          rw [h1.2 (fun h => hb ⟨h.1, trans h.2 hab⟩)] at ha
          exact AList.get?_isSome.2 (hs a b hab (AList.get?_isSome.1 ha))
    exact this hist _ (by simp [AList.keys])
  by_cases hk : k ∈ (st i).keys
  · left
    have h := C08_unregister_all_partial F i k st hd (fun j hj => inv i j hj hk)
    exact ⟨h.1, h.2.1⟩
  · right
    rw [C08_unregister_absent_partial F i k st hk]; exact ⟨rfl, rfl⟩

/-- A two-level chain meets the hypotheses. -/
example : ∃ F : Forest, NoDiamond F 2 ∧ Anc F 2 0 := by
  refine ⟨{ parents := fun i => match i with | 0 => [] | n + 1 => [n], lt := ?_ }, ?_, ?_⟩
  · intro i p hp; cases i <;> simp at hp; omega
  · intro a _
    cases a with
    | zero => simp
    | succ n =>
      refine ⟨by simp, ?_⟩
      intro p hp q hq hne; simp at hp hq; omega
  · exact .step (p := 1) (by simp) (.step (p := 0) (by simp) (.refl _))

end Verif.Registry
