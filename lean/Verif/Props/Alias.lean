import Verif.Lemmas.Alias
import Verif.Spec.Alias
/-
C126-C133: names of properties in documents.
-/
namespace Verif.Alias
open Types (negate)

/-! ### C126: documents written with other names -/

private theorem mem_keys {κ υ : Type} [DecidableEq κ] {d : AList κ υ} {k : κ} : k ∈ d.keys ↔ ∃ v, (k, v) ∈ d := by
  simp [AList.keys]

/-- What is read, name by name, without the assumption that nothing is given twice. -/
theorem readNames_get (ord : List Str → List Str) (hord : ∀ l, (ord l).Perm l) (c : Names) (hc : Unambiguous c)
    (d : AList Str Val) (wf : d.WF) (hn : NumbersNegated c d) :
    ∃ d', readNames ord c d = .ok d' ∧ d'.WF ∧ ∀ k, d'.get? k =
      (lastVal negate c.negated d k).or
        (if k ∈ c.negated.keys then none
         else (lastVal .ok c.aliases d k).or
          (if k ∈ c.aliases.keys then none
           else if k ∉ c.props ∧ k ∈ c.translation.keys then none
           else match c.translation.find? (fun q => q.2 = k && q.1 ∉ c.props && d.contains q.1) with
             | some q => d.get? q.1
             | none => d.get? k)) := by
  have tr : ∀ k p, c.translation.get? k = some p ↔ (k, p) ∈ c.translation := fun k p =>
    AList.get?_iff_mem hc.wf_translation
  let ks := ord (d.keys.filter (fun k => k ∉ c.props && c.translation.contains k))
  have hks : ∀ k, k ∈ ks ↔ k ∈ d.keys ∧ k ∉ c.props ∧ k ∈ c.translation.keys := fun k => by
    rw [(hord _).mem_iff, List.mem_filter]; simp only [Bool.and_eq_true, decide_eq_true_eq, AList.contains_iff]
  have hknd : ks.Nodup := (hord _).nodup_iff.2 (wf.filter _)
  have hkp : ∀ k ∈ ks, k ∉ c.props ∧ ∃ p ∈ c.props, c.translation.get? k = some p := fun k hk => by
    obtain ⟨_, h1, h2⟩ := (hks k).1 hk
    obtain ⟨p, hp⟩ := mem_keys.1 h2
    exact ⟨h1, p, hc.clean_prop k p hp, (tr k p).2 hp⟩
  have hinj : ∀ t t' p, c.translation.get? t = some p → c.translation.get? t' = some p → t = t' := fun t t' p h h' =>
    hc.clean_inj t t' p ((tr t p).1 h) ((tr t' p).1 h')
  have htd : ∀ k, (translate ord c d).get? k =
      if k ∉ c.props ∧ k ∈ c.translation.keys then none
      else match c.translation.find? (fun q => q.2 = k && q.1 ∉ c.props && d.contains q.1) with
        | some q => d.get? q.1
        | none => d.get? k := fun k => by
    unfold translate
    rw [foldl_move_get c hinj ks d hknd hkp k]
    by_cases h : k ∉ c.props ∧ k ∈ c.translation.keys
    · rw [if_pos h]
      by_cases hk : k ∈ ks
      · rw [if_pos hk]
      · rw [if_neg hk]
        have hkd : k ∉ d.keys := fun hd => hk ((hks k).2 ⟨hd, h.1, h.2⟩)
        have hno : ks.find? (fun y => decide (c.translation.get? y = some k)) = none := by
          rw [List.find?_eq_none]
          intro y hy he
          have := hc.clean_prop y k ((tr y k).1 (of_decide_eq_true he))
          exact h.1 this
        rw [hno]; exact AList.get?_eq_none.2 hkd
    · rw [if_neg h, if_neg (fun hk => h ((hks k).1 hk).2)]
      cases hf : c.translation.find? (fun q => q.2 = k && q.1 ∉ c.props && d.contains q.1) with
      | some q =>
        have h1 := List.find?_some hf
        have h2 := List.mem_of_find?_eq_some hf
        simp only [Bool.and_eq_true, decide_eq_true_eq] at h1
        obtain ⟨⟨h3, h4⟩, h5⟩ := h1
        subst h3
        have hq : q.1 ∈ ks := (hks q.1).2 ⟨AList.contains_iff.1 h5, h4, mem_keys.2 ⟨q.2, h2⟩⟩
        have hqt : c.translation.get? q.1 = some q.2 := (tr _ _).2 h2
        cases hff : ks.find? (fun y => decide (c.translation.get? y = some q.2)) with
        | none => exact absurd (decide_eq_true hqt) (List.find?_eq_none.1 hff q.1 hq)
        | some y =>
          have hyq := List.find?_some hff
          have := hinj y q.1 q.2 (of_decide_eq_true hyq) hqt
          subst this
          have : (d.get? q.1).isSome := h5
          cases hg : d.get? q.1 with
          | none => simp [hg] at this
          | some v => simp [hg]
      | none =>
        have hno : ks.find? (fun y => decide (c.translation.get? y = some k)) = none := by
          rw [List.find?_eq_none]
          intro y hy he
          have hy' := (hks y).1 hy
          have := List.find?_eq_none.1 hf (y, k) ((tr y k).1 (of_decide_eq_true he))
          simp only [Bool.and_eq_true, decide_eq_true_eq, not_and] at this
          exact this ⟨trivial, hy'.2.1⟩ (AList.contains_iff.2 hy'.1)
        rw [hno]
  have wft : (translate ord c d).WF := foldl_move_wf c _ d wf
  -- alias names are not touched by the translation
  have hal : ∀ a p, (a, p) ∈ c.aliases → (translate ord c d).get? a = d.get? a := fun a p h => by
    obtain ⟨_, h1, h2, _⟩ := hc.alias_new a p h
    rw [htd, if_neg (fun hh => by obtain ⟨q, hq⟩ := mem_keys.1 hh.2; exact h2 q hq)]
    have hno : c.translation.find? (fun q => q.2 = a && q.1 ∉ c.props && d.contains q.1) = none := by
      rw [List.find?_eq_none]; intro q hq he
      simp only [Bool.and_eq_true, decide_eq_true_eq] at he
      have := hc.clean_prop q.1 q.2 hq
      rw [he.1.1] at this; exact h1 this
    rw [hno]
  obtain ⟨d1, e1, w1, g1⟩ := replaceAll_ok .ok c.aliases (translate ord c d) hc.wf_aliases (fun _ _ v _ => ⟨v, rfl⟩)
  have g1' : ∀ k, d1.get? k = (lastVal .ok c.aliases d k).or
      (if k ∈ c.aliases.keys then none else (translate ord c d).get? k) := fun k => by
    rw [g1 k, lastVal_congr .ok c.aliases (translate ord c d) d k]
    intro a ha
    obtain ⟨p, hp⟩ := mem_keys.1 ha
    exact hal a p hp
  have hng : ∀ a p, (a, p) ∈ c.negated → d1.get? a = d.get? a := fun a p h => by
    obtain ⟨_, h1, h2⟩ := hc.negated_new a p h
    have hnone : lastVal .ok c.aliases d a = none := by
      cases hl : lastVal .ok c.aliases d a with
      | none => rfl
      | some v =>
        obtain ⟨b, w, hb, _, _⟩ := lastVal_some_iff _ _ _ _ _ hl
        exact absurd (hc.alias_new b a hb).1 h1
    rw [g1', hnone, Option.none_or, if_neg (fun hh => by
      obtain ⟨q, hq⟩ := mem_keys.1 hh; exact (hc.alias_new a q hq).2.2.2 p h)]
    rw [htd, if_neg (fun hh => by obtain ⟨q, hq⟩ := mem_keys.1 hh.2; exact h2 q hq)]
    have hno : c.translation.find? (fun q => q.2 = a && q.1 ∉ c.props && d.contains q.1) = none := by
      rw [List.find?_eq_none]; intro q hq he
      simp only [Bool.and_eq_true, decide_eq_true_eq] at he
      have := hc.clean_prop q.1 q.2 hq
      rw [he.1.1] at this; exact h1 this
    rw [hno]
  obtain ⟨d2, e2, w2, g2⟩ := replaceAll_ok negate c.negated d1 hc.wf_negated (fun a ha v hv => by
    obtain ⟨p, hp⟩ := mem_keys.1 ha
    rw [hng a p hp] at hv
    obtain ⟨i, rfl⟩ := hn a p v hp (AList.mem_of_get? hv)
    exact ⟨.int (-i), rfl⟩)
  refine ⟨d2, by simp only [readNames, e1, e2], w2 (w1 wft), fun k => ?_⟩
  rw [g2 k, lastVal_congr negate c.negated d1 d k (fun a ha => by
    obtain ⟨p, hp⟩ := mem_keys.1 ha; exact hng a p hp), g1' k, htd k]

/-- **C126.** A document written with clean names, aliases and negated aliases is read as the document written with
the names of the properties: every property has the value the document gives it, under whatever name, the other names
are gone, and further keys are kept. -/
theorem C126_read (ord : List Str → List Str) (hord : ∀ l, (ord l).Perm l) (c : Names) (hc : Unambiguous c)
    (d : AList Str Val) (wf : (d.map Prod.fst).Nodup) (hn : NumbersNegated c d) (once : Once c d) :
    ∃ d', readNames ord c d = .ok d' ∧
      (∀ p ∈ c.props, ∀ v, (p, v) ∈ d' ↔ Says c d p v) ∧
      (∀ k v, k ∉ c.props → ((k, v) ∈ d' ↔ (k, v) ∈ d ∧ ∀ p, ¬ NameOf c k p ∨ k = p)) := by
  obtain ⟨d', he, wf', g⟩ := readNames_get ord hord c hc d wf hn
  have gm : ∀ k v, (k, v) ∈ d' ↔ d'.get? k = some v := fun k v => (AList.get?_iff_mem wf').symm
  have dm : ∀ k v, (k, v) ∈ d ↔ d.get? k = some v := fun k v => (AList.get?_iff_mem wf).symm
  refine ⟨d', he, fun p hp v => ?_, fun k v hk => ?_⟩
  · have pn : p ∉ c.negated.keys := fun h => by
      obtain ⟨q, hq⟩ := mem_keys.1 h; exact (hc.negated_new p q hq).2.1 hp
    have pa : p ∉ c.aliases.keys := fun h => by
      obtain ⟨q, hq⟩ := mem_keys.1 h; exact (hc.alias_new p q hq).2.1 hp
    rw [gm, g p, if_neg pn, if_neg pa, if_neg (fun h => h.1 hp)]
    have kd : ∀ {k v}, (k, v) ∈ d → k ∈ d.map Prod.fst := fun h => List.mem_map.2 ⟨_, h, rfl⟩
    constructor
    · intro h
      cases h1 : lastVal negate c.negated d p with
      | some w =>
        rw [h1] at h; simp only [Option.some_or, Option.some.injEq] at h; subst h
        obtain ⟨a, x, ha, hx, hf⟩ := lastVal_some_iff _ _ _ _ _ h1
        obtain ⟨i, rfl⟩ := hn a p x ha (AList.mem_of_get? hx)
        simp only [negate, Except.ok.injEq] at hf; subst hf
        exact .negated ha (AList.mem_of_get? hx)
      | none =>
        rw [h1, Option.none_or] at h
        cases h2 : lastVal .ok c.aliases d p with
        | some w =>
          rw [h2] at h; simp only [Option.some_or, Option.some.injEq] at h; subst h
          obtain ⟨a, x, ha, hx, hf⟩ := lastVal_some_iff _ _ _ _ _ h2
          cases hf
          exact .other (.alias ha) (AList.mem_of_get? hx)
        | none =>
          rw [h2, Option.none_or] at h
          cases h3 : c.translation.find? (fun q => q.2 = p && q.1 ∉ c.props && d.contains q.1) with
          | none => rw [h3] at h; exact .name (AList.mem_of_get? h)
          | some q =>
            rw [h3] at h
            have h4 := List.find?_some h3
            simp only [Bool.and_eq_true, decide_eq_true_eq] at h4
            have h5 := List.mem_of_find?_eq_some h3
            exact .other (.clean h4.1.2 (by rw [← h4.1.1]; exact h5)) (AList.mem_of_get? h)
    · intro h
      have hneg : ∀ w, lastVal negate c.negated d p = some w → ∃ a i, (a, p) ∈ c.negated ∧ (a, Val.int i) ∈ d ∧ w = .int (-i) :=
        fun w h1 => by
          obtain ⟨a, x, ha, hx, hf⟩ := lastVal_some_iff _ _ _ _ _ h1
          obtain ⟨i, rfl⟩ := hn a p x ha (AList.mem_of_get? hx)
          simp only [negate, Except.ok.injEq] at hf
          exact ⟨a, i, ha, AList.mem_of_get? hx, hf.symm⟩
      have hali : ∀ w, lastVal .ok c.aliases d p = some w → ∃ a, (a, p) ∈ c.aliases ∧ (a, w) ∈ d := fun w h1 => by
          obtain ⟨a, x, ha, hx, hf⟩ := lastVal_some_iff _ _ _ _ _ h1
          cases hf; exact ⟨a, ha, AList.mem_of_get? hx⟩
      have inD : ∀ {k w w'}, (k, w) ∈ d → (k, w') ∈ d → w = w' := fun h h' => by
        have := (dm _ _).1 h; rw [(dm _ _).1 h'] at this; exact (Option.some.inj this).symm
      cases h with
      | negated ha hx =>
        rename_i k i
        cases h1 : lastVal negate c.negated d p with
        | none => exact absurd (lastVal_none _ _ _ _ h1 k (.int i) (.int (-i)) ha ((dm _ _).1 hx) rfl) id
        | some w =>
          obtain ⟨a, j, ha', hx', rfl⟩ := hneg w h1
          have := once p hp k a (.inr (.inr ha)) (.inr (.inr ha')) (kd hx) (kd hx')
          subst this
          have := inD hx hx'
          cases this; simp
      | other ho hx =>
        rename_i k
        have h1 : lastVal negate c.negated d p = none := by
          cases h1 : lastVal negate c.negated d p with
          | none => rfl
          | some w =>
            obtain ⟨a, j, ha', hx', rfl⟩ := hneg w h1
            have := once p hp k a (.inr (.inl ho)) (.inr (.inr ha')) (kd hx) (kd hx')
            subst this
            cases ho with
            | clean _ ht => exact absurd ht ((hc.negated_new k p ha').2.2 p)
            | alias hl => exact absurd ha' ((hc.alias_new k p hl).2.2.2 p)
        rw [h1, Option.none_or]
        cases ho with
        | alias hl =>
          cases h2 : lastVal .ok c.aliases d p with
          | none => exact absurd (lastVal_none _ _ _ _ h2 k v v hl ((dm _ _).1 hx) rfl) id
          | some w =>
            obtain ⟨a, ha', hx'⟩ := hali w h2
            have := once p hp k a (.inr (.inl (.alias hl))) (.inr (.inl (.alias ha'))) (kd hx) (kd hx')
            subst this
            rw [inD hx hx']; simp
        | clean hkp ht =>
          have h2 : lastVal .ok c.aliases d p = none := by
            cases h2 : lastVal .ok c.aliases d p with
            | none => rfl
            | some w =>
              obtain ⟨a, ha', hx'⟩ := hali w h2
              have := once p hp k a (.inr (.inl (.clean hkp ht))) (.inr (.inl (.alias ha'))) (kd hx) (kd hx')
              subst this
              exact absurd ht ((hc.alias_new k p ha').2.2.1 p)
          rw [h2, Option.none_or]
          cases h3 : c.translation.find? (fun q => q.2 = p && q.1 ∉ c.props && d.contains q.1) with
          | none =>
            have := List.find?_eq_none.1 h3 (k, p) ht
            simp only [Bool.and_eq_true, decide_eq_true_eq, not_and] at this
            exact absurd (AList.contains_iff.2 (kd hx)) (this ⟨trivial, hkp⟩)
          | some q =>
            have h4 := List.find?_some h3
            simp only [Bool.and_eq_true, decide_eq_true_eq] at h4
            have h5 := List.mem_of_find?_eq_some h3
            have : q.1 = k := hc.clean_inj _ _ p (by rw [← h4.1.1]; exact h5) ht
            simp only [this]; exact (dm _ _).1 hx
      | name hx =>
        have h1 : lastVal negate c.negated d p = none := by
          cases h1 : lastVal negate c.negated d p with
          | none => rfl
          | some w =>
            obtain ⟨a, j, ha', hx', rfl⟩ := hneg w h1
            have := once p hp p a (.inl rfl) (.inr (.inr ha')) (kd hx) (kd hx')
            subst this
            exact absurd hp (hc.negated_new p p ha').2.1
        have h2 : lastVal .ok c.aliases d p = none := by
          cases h2 : lastVal .ok c.aliases d p with
          | none => rfl
          | some w =>
            obtain ⟨a, ha', hx'⟩ := hali w h2
            have := once p hp p a (.inl rfl) (.inr (.inl (.alias ha'))) (kd hx) (kd hx')
            subst this
            exact absurd hp (hc.alias_new p p ha').2.1
        rw [h1, h2, Option.none_or, Option.none_or]
        cases h3 : c.translation.find? (fun q => q.2 = p && q.1 ∉ c.props && d.contains q.1) with
        | none => exact (dm _ _).1 hx
        | some q =>
          have h4 := List.find?_some h3
          simp only [Bool.and_eq_true, decide_eq_true_eq] at h4
          have h5 := List.mem_of_find?_eq_some h3
          have := once p hp p q.1 (.inl rfl) (.inr (.inl (.clean h4.1.2 (by rw [← h4.1.1]; exact h5)))) (kd hx)
            (AList.contains_iff.1 h4.2)
          exact absurd hp (this ▸ h4.1.2)
  · have t1 : lastVal negate c.negated d k = none := by
      cases h1 : lastVal negate c.negated d k with
      | none => rfl
      | some w =>
        obtain ⟨a, x, ha, _, _⟩ := lastVal_some_iff _ _ _ _ _ h1
        exact absurd (hc.negated_new a k ha).1 hk
    have t2 : lastVal .ok c.aliases d k = none := by
      cases h1 : lastVal .ok c.aliases d k with
      | none => rfl
      | some w =>
        obtain ⟨a, x, ha, _, _⟩ := lastVal_some_iff _ _ _ _ _ h1
        exact absurd (hc.alias_new a k ha).1 hk
    have t3 : c.translation.find? (fun q => q.2 = k && q.1 ∉ c.props && d.contains q.1) = none := by
      rw [List.find?_eq_none]; intro q hq he
      simp only [Bool.and_eq_true, decide_eq_true_eq] at he
      exact hk (he.1.1 ▸ hc.clean_prop q.1 q.2 hq)
    rw [gm, g k, t1, t2, t3, Option.none_or, Option.none_or, dm]
    have nameOf : (∀ p, ¬ NameOf c k p ∨ k = p) ↔ k ∉ c.negated.keys ∧ k ∉ c.aliases.keys ∧ k ∉ c.translation.keys := by
      constructor
      · intro h
        refine ⟨fun hh => ?_, fun hh => ?_, fun hh => ?_⟩
        · obtain ⟨p, hp⟩ := mem_keys.1 hh
          rcases h p with h | h
          · exact h (.inr (.inr hp))
          · subst h; exact hk (hc.negated_new k k hp).1
        · obtain ⟨p, hp⟩ := mem_keys.1 hh
          rcases h p with h | h
          · exact h (.inr (.inl (.alias hp)))
          · subst h; exact hk (hc.alias_new k k hp).1
        · obtain ⟨p, hp⟩ := mem_keys.1 hh
          rcases h p with h | h
          · exact h (.inr (.inl (.clean hk hp)))
          · subst h; exact hk (hc.clean_prop k k hp)
      · rintro ⟨h1, h2, h3⟩ p
        by_cases e : k = p
        · exact .inr e
        · refine .inl ?_
          rintro (h | h | h)
          · exact e h
          · cases h with
            | clean _ ht => exact h3 (mem_keys.2 ⟨p, ht⟩)
            | alias ha => exact h2 (mem_keys.2 ⟨p, ha⟩)
          · exact h1 (mem_keys.2 ⟨p, h⟩)
    rw [nameOf]
    by_cases a1 : k ∈ c.negated.keys
    · simp [a1]
    · by_cases a2 : k ∈ c.aliases.keys
      · simp [a1, a2]
      · by_cases a3 : k ∈ c.translation.keys
        · simp [a1, a2, a3, hk]
        · simp [a1, a2, a3]

private def car : Names where
  props := ["max-speed".toList, "weight".toList, "drop".toList]
  translation := [("max_speed".toList, "max-speed".toList)]
  aliases := [("mass".toList, "weight".toList)]
  negated := [("rise".toList, "drop".toList)]

private theorem car_ok : Unambiguous car := by
  constructor <;> simp [car] <;> decide

private def carDoc : AList Str Val :=
  [("mass".toList, .int 900), ("max_speed".toList, .str "fast".toList), ("rise".toList, .int 3), ("note".toList, .none)]

private theorem carDoc_numbers : NumbersNegated car carDoc := by
  intro k p v h h'
  simp only [car, List.mem_singleton, Prod.mk.injEq] at h
  obtain ⟨rfl, rfl⟩ := h
  simp [carDoc] at h'
  exact ⟨3, h'⟩

example : ∃ d', readNames id car carDoc = .ok d' ∧ Says car carDoc "drop".toList (.int (-3)) ∧
    d' = [("note".toList, .none), ("max-speed".toList, .str "fast".toList), ("weight".toList, .int 900),
          ("drop".toList, .int (-3))] :=
  ⟨_, rfl, .negated (k := "rise".toList) (i := 3) (by decide) (by decide), by decide +kernel⟩

example : Unambiguous car ∧ NumbersNegated car carDoc ∧ (carDoc.map Prod.fst).Nodup :=
  ⟨car_ok, carDoc_numbers, by decide +kernel⟩

/-! ### C127: the order of the keys does not matter -/

private theorem get?_perm {d d₂ : AList Str Val} (wf : d.WF) (h : d.Perm d₂) (k : Str) : d.get? k = d₂.get? k := by
  have wf2 : d₂.WF := (h.map Prod.fst).nodup_iff.1 wf
  cases h1 : d.get? k with
  | none =>
    have : k ∉ d₂.keys := fun hk => by
      obtain ⟨v, hv⟩ := mem_keys.1 hk
      exact AList.get?_eq_none.1 h1 (mem_keys.2 ⟨v, h.mem_iff.2 hv⟩)
    exact (AList.get?_eq_none.2 this).symm
  | some v => exact (AList.get?_of_mem wf2 (h.mem_iff.1 (AList.mem_of_get? h1))).symm

/-- **C127.** Two documents with the same entries are read as the same data, whatever the order of their keys and of
the sets the code iterates over, even if a property is given under several names. -/
theorem C127_order (ord ord₂ : List Str → List Str) (hord : ∀ l, (ord l).Perm l) (hord₂ : ∀ l, (ord₂ l).Perm l)
    (c : Names) (hc : Unambiguous c) (d d₂ : AList Str Val) (wf : (d.map Prod.fst).Nodup) (hp : d.Perm d₂)
    (hn : NumbersNegated c d) :
    ∃ d' d₂', readNames ord c d = .ok d' ∧ readNames ord₂ c d₂ = .ok d₂' ∧ d'.Perm d₂' := by
  have wf2 : (d₂.map Prod.fst).Nodup := (hp.map Prod.fst).nodup_iff.1 wf
  obtain ⟨d', e, w, g⟩ := readNames_get ord hord c hc d wf hn
  obtain ⟨d₂', e2, w2, g2⟩ := readNames_get ord₂ hord₂ c hc d₂ wf2
    (fun k p v h h' => hn k p v h (hp.mem_iff.2 h'))
  have hg : ∀ k, d.get? k = d₂.get? k := get?_perm wf hp
  have hcon : ∀ k, d.contains k = d₂.contains k := fun k => by unfold AList.contains; rw [hg]
  have : ∀ k, d'.get? k = d₂'.get? k := fun k => by
    rw [g k, g2 k, lastVal_congr _ c.negated d d₂ k (fun a _ => hg a), lastVal_congr _ c.aliases d d₂ k (fun a _ => hg a)]
    simp only [hcon, hg]
  refine ⟨d', d₂', e, e2, ?_⟩
  have nd : ∀ {l : AList Str Val}, l.WF → l.Nodup := fun {l} h => List.Pairwise.of_map Prod.fst (fun a b h e => h (by rw [e])) h
  refine (List.perm_ext_iff_of_nodup (nd w) (nd w2)).2 (fun p => ?_)
  rw [← AList.get?_iff_mem w, ← AList.get?_iff_mem w2, this]

example : (readNames id car (("weight".toList, Val.int 1) :: carDoc)).toOption =
      some [("weight".toList, .int 900), ("note".toList, .none), ("max-speed".toList, .str "fast".toList), ("drop".toList, .int (-3))] ∧
    (readNames List.reverse car (carDoc.reverse ++ [("weight".toList, Val.int 1)])).toOption =
      some [("note".toList, .none), ("weight".toList, .int 900), ("max-speed".toList, .str "fast".toList), ("drop".toList, .int (-3))] := by
  decide +kernel

/-! ### C128: negated aliases of booleans -/

/-- The value a Boolean property gets from a document. -/
def readBool (ord : List Str → List Str) (lower : Str → Str) (trues falses : List Str) (c : Names) (p : Str)
    (d : AList Str Val) : Res Val :=
  match readNames ord c d with
  | .error e => .error e
  | .ok d' => match d'.get? p with
    | none => .error .keyError
    | some v => Types.boolConvert lower trues falses v

/-- **C128, exact behaviour.** True under a negated alias of a Boolean property cannot be read, and False is read as
False, for every class and every configuration of the word lists. -/
theorem C128_boolean_violated (ord : List Str → List Str) (hord : ∀ l, (ord l).Perm l) (lower : Str → Str)
    (trues falses : List Str) (c : Names) (hc : Unambiguous c) (n p : Str) (h : (n, p) ∈ c.negated) :
    readBool ord lower trues falses c p [(n, .bool true)] = .error .conversionError ∧
    readBool ord lower trues falses c p [(n, .bool false)] = .ok (.bool false) := by
  obtain ⟨hp, hnp, hnt⟩ := hc.negated_new n p h
  have tr : ∀ b, translate ord c [(n, .bool b)] = [(n, .bool b)] := fun b => by
    have : (AList.keys ([(n, Val.bool b)] : AList Str Val)).filter (fun k => k ∉ c.props && c.translation.contains k) = [] := by
      rw [List.filter_eq_nil_iff]
      intro k hk
      simp only [AList.keys, List.map_cons, List.map_nil, List.mem_singleton] at hk
      subst hk
      have : c.translation.contains k = false := by
        rw [Bool.eq_false_iff]; intro hh
        obtain ⟨q, hq⟩ := mem_keys.1 (AList.contains_iff.1 hh)
        exact hnt q hq
      simp [this]
    unfold translate
    rw [this, (List.perm_nil.1 (hord []))]; rfl
  have na : n ∉ c.aliases.keys := fun hh => by
    obtain ⟨q, hq⟩ := mem_keys.1 hh; exact (hc.alias_new n q hq).2.2.2 p h
  have pa : ∀ (m : AList Str Str) b, n ∉ m.keys → popAll .ok m [(n, .bool b)] [] = .ok ([(n, .bool b)], []) := by
    intro m b
    induction m with
    | nil => intro _; rfl
    | cons q m ih =>
      intro hh
      simp only [AList.keys_cons, List.mem_cons, not_or] at hh
      have hm := ih hh.2
      simp only [popAll, AList.get?, hh.1, if_false]; exact hm
  have pe : ∀ (m : AList Str Str) new, popAll negate m [] new = .ok ([], new) := by
    intro m; induction m with
    | nil => intro _; rfl
    | cons q m ih => intro new; simp only [popAll, AList.get?]; exact ih new
  have pn : ∀ (m : AList Str Str) b, (m.map Prod.fst).Nodup → (n, p) ∈ m →
      popAll negate m [(n, .bool b)] [] = .ok ([], [(p, .int (if b then -1 else 0))]) := by
    intro m b
    induction m with
    | nil => intro _ hh; simp at hh
    | cons q m ih =>
      intro nd hh
      simp only [List.map_cons, List.nodup_cons] at nd
      rcases List.mem_cons.1 hh with hq | hq
      · subst hq
        simp only [popAll, AList.get?, if_true, negate, AList.erase, AList.set]
        simpa using pe m [(p, .int (if b then -1 else 0))]
      · have : n ≠ q.1 := fun e => nd.1 (e ▸ List.mem_map.2 ⟨_, hq, rfl⟩)
        simp only [popAll, AList.get?, this, if_false]; exact ih nd.2 hq
  have rn : ∀ b, readNames ord c [(n, .bool b)] = .ok [(p, .int (if b then -1 else 0))] := fun b => by
    simp only [readNames, tr, replaceAll, pa c.aliases b na, AList.update, List.foldl_nil,
      pn c.negated b hc.wf_negated h, List.foldl_cons, AList.set]
  constructor
  · simp only [readBool, rn, AList.get?, if_true]; rfl
  · simp only [readBool, rn, AList.get?, if_true]; rfl

private def lamp : Names where
  props := ["enabled".toList]
  negated := [("disabled".toList, "enabled".toList)]

example : Unambiguous lamp ∧ ("disabled".toList, "enabled".toList) ∈ lamp.negated :=
  ⟨by constructor <;> simp [lamp], by simp [lamp]⟩

example : readBool id id [] [] lamp "enabled".toList [("disabled".toList, .bool true)] = .error .conversionError ∧
    readBool id id [] [] lamp "enabled".toList [("disabled".toList, .bool false)] = .ok (.bool false) := by decide +kernel

/-! ### C129: checking and reading -/

private theorem foldl_check_get (d : AList Str Val) : ∀ (ns : AList Str Str) (d' : AList Str Val), ns.WF →
    (∀ q ∈ ns, q.2 ∉ ns.keys) → (∀ q ∈ ns, d'.get? q.1 = d.get? q.1) → ∀ x,
    (ns.foldl (fun d' p => if d.contains p.1 then move p.1 p.2 d' else d') d').get? x =
      if x ∈ ns.keys then none else (lastVal .ok ns d x).or (d'.get? x)
  | [], d', _, _, _, x => by simp [AList.keys, lastVal]
  | (a, p) :: ns, d', wf, ht, hs, x => by
    have ⟨hna, wfn⟩ : a ∉ AList.keys ns ∧ AList.WF ns := by
      simpa [AList.WF, AList.keys_cons, List.nodup_cons] using wf
    have hpa : p ≠ a ∧ p ∉ AList.keys ns := by
      have := ht (a, p) (by simp); simpa [AList.keys_cons] using this
    have ht' : ∀ q ∈ ns, q.2 ∉ AList.keys ns := fun q hq h => ht q (List.mem_cons_of_mem _ hq) (by simp [AList.keys_cons, h])
    have hda := hs (a, p) (by simp)
    simp only at hda
    rw [List.foldl_cons]
    have key : (if d.contains a then move a p d' else d') = move a p d' := by
      by_cases h : d.contains a
      · rw [if_pos h]
      · rw [if_neg h]
        have : d.get? a = none := by
          unfold AList.contains at h; cases hh : d.get? a <;> simp_all
        unfold move; rw [hda, this]
    simp only [key]
    have hs' : ∀ q ∈ ns, (move a p d').get? q.1 = d.get? q.1 := fun q hq => by
      have hqn : q.1 ∈ AList.keys ns := List.mem_map.2 ⟨q, hq, rfl⟩
      have h1 : p ≠ q.1 := fun e => hpa.2 (e ▸ hqn)
      have h2 : q.1 ≠ a := fun e => hna (e ▸ hqn)
      rw [get?_move, hs q (List.mem_cons_of_mem _ hq)]
      cases d'.get? a <;> simp [h1, h2]
    rw [foldl_check_get d ns (move a p d') wfn ht' hs' x, get?_move, hda]
    simp only [AList.keys_cons, List.mem_cons, lastVal]
    by_cases hx : x ∈ AList.keys ns
    · simp [hx]
    · simp only [hx, if_false, or_false]
      by_cases hxa : x = a
      · subst hxa
        have : lastVal .ok ns d x = none := by
          cases h : lastVal .ok ns d x with
          | none => rfl
          | some v =>
            obtain ⟨b, w, hb, _, _⟩ := lastVal_some_iff _ _ _ _ _ h
            exact absurd (by simp [AList.keys_cons]) (ht (b, x) (List.mem_cons_of_mem _ hb))
        simp only [this, Option.none_or, if_true]
        cases hd : d.get? x with
        | none => rw [← hda] at hd; simpa using hd
        | some v => simp [hpa.1]
      · simp only [hxa, if_false]
        by_cases hp : p = x
        · simp only [hp, if_true]
          cases hd : d.get? a with
          | none => simp
          | some v => cases lastVal .ok ns d x <;> simp [Except.toOption]
        · simp only [hp, if_false]
          cases hd : d.get? a with
          | none => cases lastVal .ok ns d x <;> simp
          | some v => cases lastVal .ok ns d x <;> simp

private theorem foldl_erase_get (x : Str) : ∀ (ks : List Str) (d : AList Str Val), x ∉ ks →
    (ks.foldl (fun d k => d.erase k) d).get? x = d.get? x
  | [], _, _ => rfl
  | k :: ks, d, h => by
    simp only [List.mem_cons, not_or] at h
    rw [List.foldl_cons, foldl_erase_get x ks _ h.2, AList.get?_erase, if_neg h.1]

/-- **C129, the part that holds.** A document that uses no negated alias is validated as it is read, up to the keys that
are not validated, provided no property has the clean name of another one. `names` is the chain of names in any
order. -/
theorem C129_check_partial (ord : List Str → List Str) (hord : ∀ l, (ord l).Perm l) (c : Names) (hc : Unambiguous c)
    (names : AList Str Str) (hnames : names.Perm (chained c))
    (d : AList Str Val) (wf : (d.map Prod.fst).Nodup) (once : Once c d)
    (clean : ∀ k p, (k, p) ∈ c.translation → k ∉ c.props)
    (noneg : ∀ k p v, (k, p) ∈ c.negated → (k, v) ∉ d) :
    ∃ d', readNames ord c d = .ok d' ∧ ∀ k ∉ c.notValidated, (checkNames c names d).get? k = d'.get? k := by
  have hn : NumbersNegated c d := fun k p v h h' => absurd h' (noneg k p v h)
  obtain ⟨d', he, hs, hk⟩ := C126_read ord hord c hc d wf hn once
  obtain ⟨_, he', wf', _⟩ := readNames_get ord hord c hc d wf hn
  rw [he] at he'; cases he'
  refine ⟨d', he, fun k hkv => ?_⟩
  have mchain : ∀ a p, (a, p) ∈ names ↔ (a, p) ∈ c.translation ∨ (a, p) ∈ c.aliases ∨ (a, p) ∈ c.negated := fun a p => by
    rw [hnames.mem_iff]
    simp only [chained, List.mem_append, List.mem_filter, Bool.and_eq_true, Bool.not_eq_true', Bool.eq_false_iff,
      ne_eq, AList.contains_iff, mem_keys, not_exists]
    constructor
    · rintro ((h | h) | h)
      · exact .inl h
      · exact .inr (.inl h.1)
      · exact .inr (.inr h.1)
    · rintro (h | h | h)
      · exact .inl (.inl h)
      · exact .inl (.inr ⟨h, (hc.alias_new a p h).2.2.1⟩)
      · exact .inr ⟨h, (hc.negated_new a p h).2.2, fun q hq => (hc.alias_new a q hq).2.2.2 p h⟩
  have target : ∀ a p, (a, p) ∈ names → p ∈ c.props ∧ a ∉ c.props := fun a p h => by
    rcases (mchain a p).1 h with h | h | h
    · exact ⟨hc.clean_prop a p h, clean a p h⟩
    · exact ⟨(hc.alias_new a p h).1, (hc.alias_new a p h).2.1⟩
    · exact ⟨(hc.negated_new a p h).1, (hc.negated_new a p h).2.1⟩
  have wfn : names.WF := by
    refine (hnames.map Prod.fst).nodup_iff.2 ?_
    simp only [chained, List.map_append]
    have sub : ∀ (m : AList Str Str) f, m.WF → ((List.filter f m).map Prod.fst).Nodup := fun m f h =>
      List.Nodup.sublist (List.Sublist.map _ List.filter_sublist) h
    rw [List.nodup_append, List.nodup_append]
    refine ⟨⟨hc.wf_translation, sub _ _ hc.wf_aliases, ?_⟩, sub _ _ hc.wf_negated, ?_⟩
    · intro a ha b hb e
      subst e
      obtain ⟨q, hq, rfl⟩ := List.mem_map.1 hb
      have := (List.mem_filter.1 hq).2
      simp only [Bool.not_eq_true', Bool.eq_false_iff, ne_eq, AList.contains_iff] at this
      exact this ha
    · intro a ha b hb e
      subst e
      obtain ⟨q, hq, rfl⟩ := List.mem_map.1 hb
      have := (List.mem_filter.1 hq).2
      simp only [Bool.and_eq_true, Bool.not_eq_true', Bool.eq_false_iff, ne_eq, AList.contains_iff] at this
      rcases List.mem_append.1 ha with ha | ha
      · exact this.1 ha
      · obtain ⟨r, hr, hre⟩ := List.mem_map.1 ha
        exact this.2 (hre ▸ List.mem_map.2 ⟨r, (List.mem_filter.1 hr).1, rfl⟩)
  have hget := foldl_check_get d names d wfn
    (fun q hq h => by
      obtain ⟨r, hr⟩ := mem_keys.1 h
      exact (target _ r hr).2 (target q.1 q.2 hq).1) (fun _ _ => rfl) k
  rw [checkNames, foldl_erase_get k _ _ hkv, hget]
  have dm : ∀ k v, (k, v) ∈ d ↔ d.get? k = some v := fun k v => (AList.get?_iff_mem wf).symm
  have gm : ∀ k v, (k, v) ∈ d' ↔ d'.get? k = some v := fun k v => (AList.get?_iff_mem wf').symm
  have kd : ∀ {k v}, (k, v) ∈ d → k ∈ d.map Prod.fst := fun h => List.mem_map.2 ⟨_, h, rfl⟩
  have nameOf : ∀ {a p}, (a, p) ∈ names → NameOf c a p := fun {a p} h => by
    rcases (mchain a p).1 h with h | h | h
    · exact .inr (.inl (.clean (clean a p h) h))
    · exact .inr (.inl (.alias h))
    · exact .inr (.inr h)
  have says : ∀ {a p v}, (a, p) ∈ names → (a, v) ∈ d → Says c d p v := fun {a p v} h hv => by
    rcases (mchain a p).1 h with h | h | h
    · exact .other (.clean (clean a p h) h) hv
    · exact .other (.alias h) hv
    · exact absurd hv (noneg a p v h)
  have hext : ∀ v, (if k ∈ names.keys then none else (lastVal .ok names d k).or (d.get? k)) = some v ↔ d'.get? k = some v := by
    intro v
    by_cases hp : k ∈ c.props
    · have hkn : k ∉ names.keys := fun h => by
        obtain ⟨r, hr⟩ := mem_keys.1 h; exact (target k r hr).2 hp
      rw [if_neg hkn, ← gm, hs k hp v]
      constructor
      · intro h
        cases hl : lastVal .ok names d k with
        | some w =>
          rw [hl] at h; simp only [Option.some_or, Option.some.injEq] at h; subst h
          obtain ⟨a, x, ha, hx, hf⟩ := lastVal_some_iff _ _ _ _ _ hl
          cases hf; exact says ha (AList.mem_of_get? hx)
        | none =>
          rw [hl, Option.none_or] at h
          exact .name (AList.mem_of_get? h)
      · intro h
        have given : ∀ a, (a, k) ∈ names → (a, v) ∈ d → (lastVal .ok names d k).or (d.get? k) = some v := fun a ha hv => by
          cases hl : lastVal .ok names d k with
          | none => exact absurd (lastVal_none _ _ _ _ hl a v v ha ((dm _ _).1 hv) rfl) id
          | some w =>
            obtain ⟨b, x, hb, hx, hf⟩ := lastVal_some_iff _ _ _ _ _ hl
            cases hf
            have := once k hp a b (nameOf ha) (nameOf hb) (kd hv) (kd (AList.mem_of_get? hx))
            subst this
            rw [(dm _ _).1 hv] at hx; rw [Option.some_or]; exact hx.symm
        cases h with
        | negated ha hx => exact absurd hx (noneg _ _ _ ha)
        | other ho hx =>
          rename_i a
          refine given a ((mchain a k).2 ?_) hx
          cases ho with
          | clean _ h => exact .inl h
          | alias h => exact .inr (.inl h)
        | name hx =>
          cases hl : lastVal .ok names d k with
          | none => rw [Option.none_or]; exact (dm _ _).1 hx
          | some w =>
            obtain ⟨b, x, hb, hx', hf⟩ := lastVal_some_iff _ _ _ _ _ hl
            have := once k hp k b (.inl rfl) (nameOf hb) (kd hx) (kd (AList.mem_of_get? hx'))
            subst this
            exact absurd hp (target k k hb).2
    · rw [← gm, hk k v hp]
      by_cases hkn : k ∈ names.keys
      · rw [if_pos hkn]
        obtain ⟨r, hr⟩ := mem_keys.1 hkn
        constructor
        · intro h; cases h
        · rintro ⟨_, h⟩
          rcases h r with h | h
          · exact absurd (nameOf hr) h
          · subst h; exact absurd (target k k hr).1 hp
      · rw [if_neg hkn]
        have : lastVal .ok names d k = none := by
          cases hl : lastVal .ok names d k with
          | none => rfl
          | some w =>
            obtain ⟨b, x, hb, hx', hf⟩ := lastVal_some_iff _ _ _ _ _ hl
            exact absurd (target b k hb).1 hp
        rw [this, Option.none_or, ← dm]
        constructor
        · intro h
          refine ⟨h, fun p => ?_⟩
          by_cases e : k = p
          · exact .inr e
          · refine .inl ?_
            rintro (h | h | h)
            · exact e h
            · cases h with
              | clean _ h => exact hkn (mem_keys.2 ⟨p, (mchain k p).2 (.inl h)⟩)
              | alias h => exact hkn (mem_keys.2 ⟨p, (mchain k p).2 (.inr (.inl h))⟩)
            · exact hkn (mem_keys.2 ⟨p, (mchain k p).2 (.inr (.inr h))⟩)
        · exact fun h => h.1
  cases h : d'.get? k with
  | some v => exact (hext v).2 h
  | none =>
    cases h2 : (if k ∈ names.keys then none else (lastVal .ok names d k).or (d.get? k)) with
    | none => rfl
    | some v => rw [(hext v).1 h2] at h; cases h

example : checkNames car (chained car) [("mass".toList, .int 900), ("max_speed".toList, .str "fast".toList)] =
    [("max-speed".toList, .str "fast".toList), ("weight".toList, .int 900)] ∧
    readNames id car [("mass".toList, .int 900), ("max_speed".toList, .str "fast".toList)] =
      .ok [("max-speed".toList, .str "fast".toList), ("weight".toList, .int 900)] := by decide +kernel

/-- **C129 is violated.** What is given under a negated alias is validated as it stands, and read with the opposite
sign: a document is refused although what is read is valid, or accepted although it is not. -/
theorem C129_check_violated : ∃ (c : Names) (d d' : AList Str Val) (valid : AList Str Val → Bool), Unambiguous c ∧
    NumbersNegated c d ∧ Once c d ∧ readNames id c d = .ok d' ∧ valid d' = true ∧ valid (checkNames c (chained c) d) = false := by
  refine ⟨car, [("rise".toList, .int 3)], [("drop".toList, .int (-3))],
    fun d => match d.get? "drop".toList with | some (.int i) => decide (i ≤ 0) | _ => true, car_ok, ?_, ?_, ?_, ?_, ?_⟩
  · intro k p v h h'
    simp only [List.mem_singleton, Prod.mk.injEq] at h'
    exact ⟨3, h'.2⟩
  · intro p _ k k' _ _ h h'
    simp only [List.map_cons, List.map_nil, List.mem_singleton] at h h'
    rw [h, h']
  all_goals decide +kernel

end Verif.Alias
