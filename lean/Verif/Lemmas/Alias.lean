import Verif.Model.Alias
/- Lemmas about names in documents. -/
namespace Verif.Alias
open Types (negate)

theorem get?_move (k1 k2 : Str) (d : AList Str Val) (x : Str) :
    (move k1 k2 d).get? x =
      match d.get? k1 with
      | none => d.get? x
      | some v => if k2 = x then some v else if x = k1 then none else d.get? x := by
  unfold move
  cases h : d.get? k1 with
  | none => rfl
  | some v => simp only [AList.get?_set, AList.get?_erase]

theorem wf_move {d : AList Str Val} (wf : d.WF) (k1 k2 : Str) : (move k1 k2 d).WF := by
  unfold move
  cases d.get? k1 with
  | none => exact wf
  | some v => exact AList.wf_set (AList.wf_erase wf _) _ _

/-- The value a document gives through `m`: the last entry of `m` with that target counts. -/
def lastVal (f : Val → Res Val) : AList Str Str → AList Str Val → Str → Option Val
  | [], _, _ => none
  | (a, p) :: m, d, k => (lastVal f m d k).or
      (if p = k then (match d.get? a with | some v => (f v).toOption | none => none) else none)

theorem lastVal_congr (f : Val → Res Val) : ∀ (m : AList Str Str) (d d' : AList Str Val) (k : Str),
    (∀ a ∈ m.keys, d.get? a = d'.get? a) → lastVal f m d k = lastVal f m d' k
  | [], _, _, _, _ => rfl
  | (a, p) :: m, d, d', k, h => by
    simp only [lastVal]
    rw [lastVal_congr f m d d' k (fun x hx => h x (by simp [AList.keys_cons, hx])), h a (by simp [AList.keys_cons])]

theorem popAll_ok (f : Val → Res Val) : ∀ (m : AList Str Str) (d new : AList Str Val), m.WF →
    (∀ a ∈ m.keys, ∀ v, d.get? a = some v → ∃ w, f v = .ok w) →
    ∃ d' new', popAll f m d new = .ok (d', new') ∧
      (∀ k, d'.get? k = if k ∈ m.keys then none else d.get? k) ∧
      (∀ k, new'.get? k = (lastVal f m d k).or (new.get? k)) ∧
      (new.WF → new'.WF) ∧ (d.WF → d'.WF)
  | [], d, new, _, _ => ⟨d, new, rfl, by simp [AList.keys], by simp [lastVal], id, id⟩
  | (a, p) :: m, d, new, wf, h => by
    have ⟨hna, wfm⟩ : a ∉ AList.keys m ∧ AList.WF m := by
      simpa [AList.WF, AList.keys_cons, List.nodup_cons] using wf
    cases hd : d.get? a with
    | none =>
      obtain ⟨d', new', he, h1, h2, h3, h4⟩ := popAll_ok f m d new wfm
        (fun x hx => h x (by simp [AList.keys_cons, hx]))
      refine ⟨d', new', by simp only [popAll, hd, he], fun k => ?_, fun k => ?_, h3, h4⟩
      · rw [h1 k]; simp only [AList.keys_cons, List.mem_cons]
        by_cases hk : k = a
        · subst hk; simp [hna, hd]
        · simp [hk]
      · rw [h2 k]; simp [lastVal, hd]
    | some v =>
      obtain ⟨w, hw⟩ := h a (by simp [AList.keys_cons]) v hd
      have hsame : ∀ x ∈ AList.keys m, (d.erase a).get? x = d.get? x := fun x hx => by
        rw [AList.get?_erase]; rw [if_neg]; rintro rfl; exact hna hx
      obtain ⟨d', new', he, h1, h2, h3, h4⟩ := popAll_ok f m (d.erase a) (new.set p w) wfm
        (fun x hx y hy => h x (by simp [AList.keys_cons, hx]) y (by rw [← hsame x hx]; exact hy))
      refine ⟨d', new', by simp only [popAll, hd, hw, he], fun k => ?_, fun k => ?_,
        fun hn => h3 (AList.wf_set hn _ _), fun hd => h4 (AList.wf_erase hd _)⟩
      · rw [h1 k, AList.get?_erase]; simp only [AList.keys_cons, List.mem_cons]
        by_cases hk : k = a
        · simp [hk]
        · simp [hk]
      · rw [h2 k, lastVal_congr f m _ d k hsame, AList.get?_set]
        simp only [lastVal, hd, hw, Except.toOption]
        by_cases hp : p = k
        · simp only [hp, if_true]; cases lastVal f m d k <;> simp
        · simp only [hp, if_false]; cases lastVal f m d k <;> simp

/-- The document after the names of `m` are replaced. -/
theorem replaceAll_ok (f : Val → Res Val) (m : AList Str Str) (d : AList Str Val) (wfm : m.WF)
    (h : ∀ a ∈ m.keys, ∀ v, d.get? a = some v → ∃ w, f v = .ok w) :
    ∃ d', replaceAll f m d = .ok d' ∧ (d.WF → d'.WF) ∧
      ∀ k, d'.get? k = (lastVal f m d k).or (if k ∈ m.keys then none else d.get? k) := by
  obtain ⟨d', new', he, h1, h2, h3, h4⟩ := popAll_ok f m d [] wfm h
  refine ⟨d'.update new', by simp only [replaceAll, he], fun wf => AList.wf_update (h4 wf) _, fun k => ?_⟩
  rw [AList.get?_update _ (h3 AList.wf_nil), h2 k, h1 k]
  simp [AList.get?]

theorem lastVal_some_iff (f : Val → Res Val) : ∀ (m : AList Str Str) (d : AList Str Val) (k : Str) (v : Val),
    lastVal f m d k = some v → ∃ a w, (a, k) ∈ m ∧ d.get? a = some w ∧ f w = .ok v
  | [], _, _, _, h => by simp [lastVal] at h
  | (a, p) :: m, d, k, v, h => by
    simp only [lastVal] at h
    cases hl : lastVal f m d k with
    | some v' =>
      rw [hl] at h; simp only [Option.some_or, Option.some.injEq] at h; subst h
      obtain ⟨a', w, h1, h2, h3⟩ := lastVal_some_iff f m d k v' hl
      exact ⟨a', w, List.mem_cons_of_mem _ h1, h2, h3⟩
    | none =>
      rw [hl, Option.none_or] at h
      split at h
      · rename_i hp; subst hp
        cases hd : d.get? a with
        | none => simp [hd] at h
        | some w =>
          simp only [hd] at h
          cases hf : f w with
          | error e => simp [hf, Except.toOption] at h
          | ok x =>
            simp only [hf, Except.toOption, Option.some.injEq] at h
            exact ⟨a, w, by simp, hd, by rw [hf, h]⟩
      · simp at h

theorem lastVal_none (f : Val → Res Val) : ∀ (m : AList Str Str) (d : AList Str Val) (k : Str),
    lastVal f m d k = none → ∀ a w v, (a, k) ∈ m → d.get? a = some w → f w = .ok v → False
  | [], _, _, _, _, _, _, h, _, _ => by simp at h
  | (a, p) :: m, d, k, h, a', w, v, hm, hd, hf => by
    simp only [lastVal, Option.or_eq_none_iff] at h
    rcases List.mem_cons.1 hm with he | hm
    · cases he; simp [hd, hf, Except.toOption] at h
    · exact lastVal_none f m d k h.1 a' w v hm hd hf

/-! ### Clean names -/

theorem foldl_move_get (c : Names) (inj : ∀ t t' p, c.translation.get? t = some p → c.translation.get? t' = some p → t = t')
    : ∀ (ks : List Str) (d : AList Str Val), ks.Nodup →
    (∀ k ∈ ks, k ∉ c.props ∧ ∃ p ∈ c.props, c.translation.get? k = some p) → ∀ x,
    (ks.foldl (moveClean c) d).get? x =
      if x ∈ ks then none
      else match ks.find? (fun k => c.translation.get? k = some x) with
        | some k => (d.get? k).or (d.get? x)
        | none => d.get? x
  | [], d, _, _, x => by simp
  | k :: ks, d, nd, h, x => by
    obtain ⟨hkn, nd⟩ := List.nodup_cons.1 nd
    obtain ⟨hk, p, hp, hkp⟩ := h k (by simp)
    have hks := fun y hy => h y (List.mem_cons_of_mem k hy)
    simp only [List.foldl_cons, moveClean, hkp]
    rw [foldl_move_get c inj ks _ nd hks x]
    have hpk : p ≠ k := fun e => hk (e ▸ hp)
    by_cases hx : x ∈ ks
    · simp [hx]
    · rw [if_neg hx]
      by_cases hxk : x = k
      · subst hxk
        simp only [List.mem_cons, true_or, if_true]
        have hno : ks.find? (fun y => decide (c.translation.get? y = some x)) = none := by
          rw [List.find?_eq_none]
          intro y hy he
          obtain ⟨_, q, hq, hyq⟩ := hks y hy
          rw [of_decide_eq_true he] at hyq
          cases hyq
          exact hk hq
        rw [hno]; simp only [get?_move]
        cases hdk : d.get? x with
        | none => rfl
        | some v => simp [hpk]
      · simp only [List.mem_cons, hxk, hx, or_self, if_false, List.find?_cons]
        by_cases hxp : p = x
        · subst hxp
          have hno : ks.find? (fun y => decide (c.translation.get? y = some p)) = none := by
            rw [List.find?_eq_none]
            intro y hy he
            have := inj y k p (of_decide_eq_true he) hkp
            exact hkn (this ▸ hy)
          rw [hno]
          simp only [hkp, decide_true, get?_move]
          cases hdk : d.get? k <;> simp
        · have : (decide (c.translation.get? k = some x)) = false := by simp [hkp, hxp]
          simp only [this]
          cases hf : ks.find? (fun y => decide (c.translation.get? y = some x)) with
          | none =>
            simp only [get?_move]
            cases hdk : d.get? k <;> simp [hxp, hxk]
          | some y =>
            have hyx := List.find?_some hf
            have hy := List.mem_of_find?_eq_some hf
            have hyk : y ≠ k := fun e => hkn (e ▸ hy)
            have hpy : p ≠ y := fun e => (hks y hy).1 (e ▸ hp)
            simp only [get?_move]
            cases hdk : d.get? k <;> simp [hxp, hxk, hyk, hpy]

theorem foldl_move_wf (c : Names) : ∀ (ks : List Str) (d : AList Str Val), d.WF →
    (ks.foldl (moveClean c) d).WF
  | [], _, wf => wf
  | k :: ks, d, wf => by
    simp only [List.foldl_cons]
    apply foldl_move_wf c ks
    unfold moveClean
    cases c.translation.get? k with
    | none => exact wf
    | some p => exact wf_move wf _ _

end Verif.Alias
