import Verif.Spec.Array
namespace Verif.Arr
open Spec

theorem norm_lt {n i k} (h : norm n i = some k) : k < n := by
  unfold norm at h
  split at h
  · split at h
    · cases h; omega
    · cases h
  · split at h
    · cases h; omega
    · cases h

theorem norm_inside (n : Nat) (i : Int) :
    norm n i = if inside n i then some (place n i).toNat else none := by
  unfold norm inside place
  by_cases h : 0 ≤ i
  · have h' : ¬ i < 0 := by omega
    simp only [h, if_true, h', if_false]
    by_cases h2 : i < n <;> simp [h2, h]
  · have h' : i < 0 := by omega
    simp only [h, if_true, h', if_false]
    by_cases h2 : -(n:Int) ≤ i
    · have : 0 ≤ i + n ∧ i + n < n := by omega
      simp [h2, this]
    · have : ¬ (0 ≤ i + n ∧ i + n < n) := by omega
      rw [if_neg h2, if_neg this]

theorem clamp_eq (n : Nat) (i : Int) : clamp n i = (max 0 (min (place n i) n)).toNat := by
  unfold clamp place
  split <;> omega

theorem clamp_le (n : Nat) (i : Int) : clamp n i ≤ n := by
  unfold clamp
  split <;> omega

@[simp] theorem insertAt_length {α} (l : List α) (i : Int) (x : α) :
    (insertAt l i x).length = l.length + 1 := by
  have := clamp_le l.length i
  simp [insertAt]; omega

theorem getAt_map {α β} (f : α → β) (l : List α) (i : Int) :
    getAt (l.map f) i = match getAt l i with
      | .error e => .error e
      | .ok x => .ok (f x) := by
  unfold getAt
  simp only [List.length_map]
  cases norm l.length i with
  | none => rfl
  | some k => simp only [List.getElem?_map]; cases l[k]? <;> rfl

theorem getAt_some {α} {l : List α} {i : Int} {k} (h : norm l.length i = some k) :
    getAt l i = .ok (l[k]'(norm_lt h)) := by
  unfold getAt
  rw [h]
  simp [List.getElem?_eq_getElem (norm_lt h)]

theorem setAt_some {α} {l : List α} {i : Int} {k} (x : α) (h : norm l.length i = some k) :
    setAt l i x = .ok (l.set k x) := by
  unfold setAt; rw [h]

theorem getAt_none {α} {l : List α} {i : Int} (h : norm l.length i = none) :
    getAt l i = .error .indexError := by
  unfold getAt; rw [h]

theorem setAt_none {α} {l : List α} {i : Int} (x : α) (h : norm l.length i = none) :
    setAt l i x = .error .indexError := by
  unfold setAt; rw [h]

theorem insertAt_map {α β} (f : α → β) (l : List α) (i : Int) (x : α) :
    (insertAt l i x).map f = insertAt (l.map f) i (f x) := by
  simp [insertAt, List.map_take, List.map_drop]

/-! ### Lengths -/

theorem setAt_length {α} {l l' : List α} {i x} (h : setAt l i x = .ok l') : l'.length = l.length := by
  unfold setAt at h
  split at h
  · cases h
  · cases h; simp

theorem setValidated_len (cfg : Cfg) (i v) (s : Arr) (h : Aligned s) :
    Aligned (setValidated cfg i v s).2 ∧ (setValidated cfg i v s).2.data.length = s.data.length := by
  unfold setValidated
  split
  · exact ⟨h, rfl⟩
  · split
    · exact ⟨h, rfl⟩
    · rename_i data hd
      have hl : data.length = s.data.length := by
        split at hd
        · cases hd; rfl
        · exact setAt_length hd
      split
      · exact ⟨⟨h.1.trans hl.symm, h.2.trans hl.symm⟩, hl⟩
      · rename_i va hv
        exact ⟨⟨(setAt_length hv).trans (h.1.trans hl.symm), h.2.trans hl.symm⟩, hl⟩

theorem evaluate_len (cfg : Cfg) (i) (s : Arr) (h : Aligned s) :
    Aligned (evaluate cfg i s).2 ∧ (evaluate cfg i s).2.data.length = s.data.length := by
  unfold evaluate
  split
  · exact ⟨h, rfl⟩
  · rename_i inp hi
    have hs : Aligned { s with inputs := inp } := ⟨h.1, (setAt_length hi).trans h.2⟩
    split
    · exact ⟨hs, rfl⟩
    · split
      · exact ⟨hs, rfl⟩
      · exact setValidated_len cfg i _ _ hs

theorem getitem_len (cfg : Cfg) (i) (s : Arr) (h : Aligned s) :
    Aligned (getitem cfg i s).2 ∧ (getitem cfg i s).2.data.length = s.data.length := by
  unfold getitem
  have he := evaluate_len cfg i s h
  split
  · exact ⟨h, rfl⟩
  · split
    · rename_i heq; rw [heq] at he; exact he
    · rename_i heq; rw [heq] at he; exact he
  · exact ⟨h, rfl⟩

theorem setitem_len (cfg : Cfg) (i v) (s : Arr) (h : Aligned s) :
    Aligned (setitem cfg i v s).2 ∧ (setitem cfg i v s).2.data.length = s.data.length := by
  unfold setitem
  split
  · exact ⟨h, rfl⟩
  · rename_i data hd
    have hl := setAt_length hd
    have hs : Aligned { s with data := data } := ⟨h.1.trans hl.symm, h.2.trans hl.symm⟩
    split
    · exact ⟨hs, hl⟩
    · have := evaluate_len cfg i _ hs
      exact ⟨this.1, this.2.trans hl⟩

theorem checkItem_snd (cfg : Cfg) (v s) : (checkItem cfg v s).2 = s := by
  unfold checkItem
  split
  · split <;> rfl
  · rfl

theorem insert_len (cfg : Cfg) (i v) (s : Arr) (h : Aligned s) :
    Aligned (insert cfg i v s).2 ∧ (insert cfg i v s).2.data.length = s.data.length + 1 := by
  unfold insert
  have hs : Aligned { data := insertAt s.data i v, validated := insertAt s.validated i .none,
                      inputs := insertAt s.inputs i () } := by
    constructor <;> simp [h.1, h.2]
  simp only
  split
  · rw [checkItem_snd]; exact ⟨hs, by simp⟩
  · have he := evaluate_len cfg i _ hs
    split
    · rename_i heq; rw [heq] at he; exact ⟨he.1, he.2.trans (by simp)⟩
    · rename_i heq; rw [heq] at he; rw [checkItem_snd]; exact ⟨he.1, he.2.trans (by simp)⟩

theorem delitem_len (cfg : Cfg) (i) (s : Arr) (h : Aligned s) :
    Aligned (delitem cfg i s).2 ∧
    (delitem cfg i s).2.data.length = if inside s.data.length i then s.data.length - 1 else s.data.length := by
  have hn := norm_inside s.data.length i
  unfold delitem delAt
  rw [h.1, h.2, hn]
  by_cases hi : inside s.data.length i
  · simp only [if_pos hi]
    have hp : (place s.data.length i).toNat < s.data.length := by
      have := hi.1; have := hi.2; omega
    have hA : ∀ s1 : Arr, s1 = Arr.mk (s.data.eraseIdx (place s.data.length i).toNat)
          (s.validated.eraseIdx (place s.data.length i).toNat)
          (s.inputs.eraseIdx (place s.data.length i).toNat) →
        Aligned s1 ∧ s1.data.length = s.data.length - 1 := by
      rintro _ rfl
      simp only [Aligned, List.length_eraseIdx, h.1, h.2, hp, if_true, and_self]
    split
    · exact hA _ rfl
    · exact hA _ rfl
  · simp only [if_neg hi]
    exact ⟨h, trivial⟩

theorem step_len (cfg : Cfg) (op : Op) (s : Arr) (raw : List Val) (h : Aligned s) (hr : raw.length = s.data.length) :
    Aligned (step cfg op s).2 ∧ (Spec.step raw op).length = (step cfg op s).2.data.length := by
  cases op with
  | get i =>
    have := getitem_len cfg i s h
    simp only [step, Spec.step]
    split <;> (rename_i heq; rw [heq] at this; exact ⟨this.1, hr.trans this.2.symm⟩)
  | set i v =>
    have := setitem_len cfg i v s h
    have hl : (Spec.step raw (.set i v)).length = raw.length := by
      simp only [Spec.step]; split <;> simp
    rw [hl]
    simp only [step]
    split <;> (rename_i heq; rw [heq] at this; exact ⟨this.1, hr.trans this.2.symm⟩)
  | del i =>
    have := delitem_len cfg i s h
    have hl : (Spec.step raw (.del i)).length =
        if inside s.data.length i then s.data.length - 1 else s.data.length := by
      simp only [Spec.step, hr]
      split
      · rename_i hi
        have : (place s.data.length i).toNat < s.data.length := by
          have := hi.1; have := hi.2; omega
        simp [List.length_eraseIdx, hr, this]
      · exact hr
    rw [hl]
    simp only [step]
    split <;> (rename_i heq; rw [heq] at this; exact ⟨this.1, this.2.symm⟩)
  | ins i v =>
    have := insert_len cfg i v s h
    have hl : (Spec.step raw (.ins i v)).length = s.data.length + 1 := by
      simp only [Spec.step, ← clamp_eq]
      have := insertAt_length raw i v
      rw [← hr, ← this]; rfl
    rw [hl]
    simp only [step]
    split <;> (rename_i heq; rw [heq] at this; exact ⟨this.1, this.2.symm⟩)
  | app v =>
    have := insert_len cfg s.data.length v s h
    have hl : (Spec.step raw (.app v)).length = s.data.length + 1 := by
      simp [Spec.step, hr]
    rw [hl]
    simp only [step, append]
    split <;> (rename_i heq; rw [heq] at this; exact ⟨this.1, this.2.symm⟩)

theorem run_len (cfg : Cfg) (ops : List Op) : ∀ (s : Arr) (raw : List Val), Aligned s → raw.length = s.data.length →
    Aligned (run cfg ops s) ∧ (Spec.run raw ops).length = (run cfg ops s).data.length := by
  induction ops with
  | nil => intro s raw h hr; exact ⟨h, hr⟩
  | cons op ops ih =>
    intro s raw h hr
    have := step_len cfg op s raw h hr
    exact ih _ _ this.1 this.2

theorem readAll_len (cfg : Cfg) (ks : List Nat) : ∀ (s : Arr), Aligned s →
    Aligned (readAll cfg ks s).2 ∧ (readAll cfg ks s).2.data.length = s.data.length := by
  induction ks with
  | nil => intro s h; exact ⟨h, rfl⟩
  | cons k ks ih =>
    intro s h
    have hg := getitem_len cfg k s h
    simp only [readAll]
    split
    · rename_i heq; rw [heq] at hg; exact hg
    · rename_i heq; rw [heq] at hg; exact ⟨(ih _ hg.1).1, (ih _ hg.1).2.trans hg.2⟩

theorem touch_aligned (s : Arr) : Aligned (touch s) := by
  constructor <;> simp [touch]

theorem create_len {cfg : Cfg} {data s} (h : create cfg data = .ok s) :
    Aligned s ∧ s.data.length = data.length := by
  unfold create at h
  have ht := touch_aligned { data := data, validated := [], inputs := [] }
  have hr := readAll_len cfg (List.range data.length) _ ht
  simp only at h
  split at h
  · cases h
  · rename_i s1 heq
    split at h
    · cases h
    · cases h
      split at heq
      · cases heq; exact ⟨ht, rfl⟩
      · rw [heq] at hr; exact hr

/-! ### Values -/

/-- Raw item, stored item, converted item. -/
abbrev Row := Val × Val × Val

def Good (c : Val → Res Val) (t : Row) : Prop :=
  (t.2.2 = .none ∧ t.2.1 = t.1) ∨ (c t.1 = .ok t.2.2 ∧ (t.2.1 = t.2.2 ∨ t.2.1 = t.1))

def arrOf (T : List Row) : Arr :=
  { data := T.map (fun t => t.2.1), validated := T.map (fun t => t.2.2), inputs := T.map (fun _ => ()) }

def Rel (c : Val → Res Val) (raw : List Val) (s : Arr) : Prop :=
  ∃ T : List Row, raw = T.map (fun t => t.1) ∧ s = arrOf T ∧ ∀ t ∈ T, Good c t

theorem conv_good {c : Val → Res Val} (hid : Idempotent c) {t : Row} (h : Good c t) : c t.2.1 = c t.1 := by
  rcases h with ⟨_, h⟩ | ⟨h1, h2 | h2⟩
  · rw [h]
  · rw [h2, h1]; exact hid _ _ h1
  · rw [h2]

theorem unit_set (T : List Row) (k : Nat) : (T.map (fun _ => ())).set k () = T.map (fun _ => ()) := by
  apply List.ext_getElem
  · simp
  · intros; rfl

/-- Evaluating the item at a place inside. -/
theorem evaluate_arrOf {cfg : Cfg} {c} (hu : Uniform cfg c) (hid : Idempotent c) (T : List Row)
    (hT : ∀ t ∈ T, Good c t) {i : Int} {k} (hk : norm T.length i = some k) (hlt : k < T.length) :
    (∃ e, c T[k].1 = .error e ∧ evaluate cfg i (arrOf T) = (.error e, arrOf T)) ∨
    (∃ w d, c T[k].1 = .ok w ∧ (d = w ∨ d = T[k].2.1) ∧
      evaluate cfg i (arrOf T) = (.ok (), arrOf (T.set k (T[k].1, d, w)))) := by
  have hg : Good c T[k] := hT _ (List.getElem_mem hlt)
  have hc := conv_good hid hg
  have hlen : ∀ {β : Type} (f : Row → β), norm (T.map f).length i = some k := by intro β f; simpa using hk
  have h1 : setAt (arrOf T).inputs i () = .ok (arrOf T).inputs := by
    simp only [arrOf]
    rw [setAt_some () (hlen _), unit_set]
  have h2 : getAt (arrOf T).data i = .ok T[k].2.1 := by
    simp only [arrOf]
    rw [getAt_some (hlen _)]; simp
  have hev : evaluate cfg i (arrOf T) = match c T[k].1 with
      | .error e => (.error e, arrOf T)
      | .ok w => setValidated cfg i w (arrOf T) := by
    simp only [evaluate]
    rw [h1]
    simp only []
    rw [h2]
    simp only [hu i, hc]
    all_goals (cases c T[k].1 <;> rfl)
  cases hr : c T[k].1 with
  | error e => left; rw [hr] at hev; exact ⟨e, rfl, hev⟩
  | ok w =>
    right
    rw [hr] at hev
    have hv : setAt (arrOf T).validated i w = .ok ((T.map (fun t => t.2.2)).set k w) := by
      simp only [arrOf]; rw [setAt_some w (hlen _)]
    have hd : setAt (arrOf T).data i w = .ok ((T.map (fun t => t.2.1)).set k w) := by
      simp only [arrOf]; rw [setAt_some w (hlen _)]
    by_cases hp : (cfg.prim i && cfg.tpl T[k].2.1) = true
    · refine ⟨w, T[k].2.1, rfl, Or.inr rfl, hev.trans ?_⟩
      simp only [setValidated, h2, hp, if_true, hv]
      congr 1
      simp only [arrOf, List.map_set, unit_set]
      congr 1
      rw [← List.getElem_map (fun t : Row => t.2.1) (h := by simpa using hlt), List.set_getElem_self]
    · refine ⟨w, w, rfl, Or.inl rfl, hev.trans ?_⟩
      simp only [setValidated, h2, hp, hd, hv]
      simp only [arrOf, List.map_set, unit_set]
      rfl

theorem good_set {c : Val → Res Val} {T : List Row} (hT : ∀ t ∈ T, Good c t) {k : Nat} {t : Row} (ht : Good c t) :
    ∀ u ∈ T.set k t, Good c u := by
  intro u hu
  rcases List.mem_or_eq_of_mem_set hu with h | h
  · exact hT u h
  · exact h ▸ ht

theorem good_evaluated {c : Val → Res Val} {t : Row} (hg : Good c t) {w d} (hw : c t.1 = .ok w)
    (hd : d = w ∨ d = t.2.1) : Good c (t.1, d, w) := by
  right
  refine ⟨hw, ?_⟩
  rcases hd with h | h
  · exact Or.inl h
  · rcases hg with ⟨_, h2⟩ | ⟨h1, h2 | h2⟩
    · exact Or.inr (h.trans h2)
    · rw [h1] at hw; cases hw
      exact Or.inl (h.trans h2)
    · exact Or.inr (h.trans h2)

theorem evaluate_outside {cfg : Cfg} {T : List Row} {i : Int} (hk : norm T.length i = none) :
    evaluate cfg i (arrOf T) = (.error .indexError, arrOf T) := by
  have h1 : setAt (arrOf T).inputs i () = .error .indexError := by
    simp only [arrOf]
    exact setAt_none () (by simpa using hk)
  simp only [evaluate]
  rw [h1]

/-- Evaluating keeps the relation. -/
theorem evaluate_rel {cfg : Cfg} {c} (hu : Uniform cfg c) (hid : Idempotent c) {raw : List Val} {s : Arr}
    (h : Rel c raw s) (i : Int) : Rel c raw (evaluate cfg i s).2 := by
  obtain ⟨T, rfl, rfl, hT⟩ := h
  cases hk : norm T.length i with
  | none => rw [evaluate_outside hk]; exact ⟨T, rfl, rfl, hT⟩
  | some k =>
    have hlt := norm_lt hk
    rcases evaluate_arrOf (cfg := cfg) hu hid T hT hk hlt with ⟨e, _, he⟩ | ⟨w, d, hw, hd, he⟩
    · rw [he]; exact ⟨T, rfl, rfl, hT⟩
    · rw [he]
      refine ⟨T.set k (T[k].1, d, w), ?_, rfl, good_set hT (good_evaluated (hT _ (List.getElem_mem hlt)) hw hd)⟩
      rw [List.map_set]
      show _ = (List.map (fun t : Row => t.1) T).set k T[k].1
      rw [← List.getElem_map (fun t : Row => t.1) (h := by simpa using hlt), List.set_getElem_self]

theorem getitem_rel {cfg : Cfg} {c} (hu : Uniform cfg c) (hid : Idempotent c) {raw : List Val} {s : Arr}
    (h : Rel c raw s) (i : Int) :
    (getitem cfg i s).1 = Spec.read c raw i ∧ Rel c raw (getitem cfg i s).2 := by
  have her := evaluate_rel (cfg := cfg) hu hid h i
  obtain ⟨T, rfl, rfl, hT⟩ := h
  have hn := norm_inside T.length i
  cases hk : norm T.length i with
  | none =>
    have hni : ¬ inside T.length i := by
      intro hi; rw [hk, if_pos hi] at hn; cases hn
    have hg : getAt (arrOf T).validated i = .error .indexError := by
      simp only [arrOf]; exact getAt_none (by simpa using hk)
    refine ⟨?_, ?_⟩
    · simp only [getitem, hg, Spec.read, List.length_map, hni, if_false]
    · simp only [getitem, hg]; exact ⟨T, rfl, rfl, hT⟩
  | some k =>
    have hlt := norm_lt hk
    have hi : inside T.length i := by
      apply Classical.byContradiction
      intro hi; rw [hk, if_neg hi] at hn; cases hn
    have hkp : k = (place T.length i).toNat := by
      rw [hk, if_pos hi] at hn; cases hn; rfl
    have hread : Spec.read c (T.map (fun t => t.1)) i = c T[k].1 := by
      simp only [Spec.read, List.length_map, hi, if_true, ← hkp]
      rw [List.getElem?_map, List.getElem?_eq_getElem hlt]
      rfl
    have hgv : getAt (arrOf T).validated i = .ok T[k].2.2 := by
      simp only [arrOf]
      rw [getAt_some (l := T.map (fun t => t.2.2)) (i := i) (k := k) (by simpa using hk)]
      simp
    rw [hread]
    by_cases hnone : T[k].2.2 = .none
    · have hgi : getitem cfg i (arrOf T) = match evaluate cfg i (arrOf T) with
          | (.error e, s1) => (.error e, s1)
          | (.ok _, s1) => (getAt s1.validated i, s1) := by
        simp only [getitem, hgv, hnone]
        all_goals rfl
      rcases evaluate_arrOf (cfg := cfg) hu hid T hT hk hlt with ⟨e, hc, he⟩ | ⟨w, d, hw, hd, he⟩
      · rw [hgi, he, hc]; exact ⟨rfl, T, rfl, rfl, hT⟩
      · rw [he] at her
        rw [hgi, he, hw]
        refine ⟨?_, her⟩
        show getAt (arrOf _).validated i = _
        simp only [arrOf]
        rw [getAt_some (k := k) (by simpa using hk)]
        simp
    · have hg := hT _ (List.getElem_mem hlt)
      have hgi : getitem cfg i (arrOf T) = (.ok T[k].2.2, arrOf T) := by
        simp only [getitem, hgv]
      rw [hgi]
      refine ⟨?_, T, rfl, rfl, hT⟩
      rcases hg with ⟨h1, _⟩ | ⟨h1, _⟩
      · exact absurd h1 hnone
      · exact h1.symm

theorem setitem_rel {cfg : Cfg} {c} (hu : Uniform cfg c) (hid : Idempotent c) (hl : cfg.lazy = false) {raw : List Val} {s : Arr}
    (h : Rel c raw s) (i : Int) (v : Val) (hv : ∃ w, c v = .ok w) :
    Rel c (Spec.step raw (.set i v)) (setitem cfg i v s).2 := by
  obtain ⟨T, rfl, rfl, hT⟩ := h
  have hn := norm_inside T.length i
  cases hk : norm T.length i with
  | none =>
    have hni : ¬ inside T.length i := by
      intro hi; rw [hk, if_pos hi] at hn; cases hn
    have hs : setAt (arrOf T).data i v = .error .indexError := by
      simp only [arrOf]; exact setAt_none v (by simpa using hk)
    simp only [setitem, hs, Spec.step, List.length_map, hni, if_false]
    exact ⟨T, rfl, rfl, hT⟩
  | some k =>
    have hlt := norm_lt hk
    have hi : inside T.length i := by
      apply Classical.byContradiction
      intro hi; rw [hk, if_neg hi] at hn; cases hn
    have hkp : k = (place T.length i).toNat := by
      rw [hk, if_pos hi] at hn; cases hn; rfl
    obtain ⟨w, hw⟩ := hv
    -- the row without its old conversion
    let T0 := T.set k (v, v, T[k].2.2)
    have hs : setAt (arrOf T).data i v = .ok (arrOf T0).data := by
      simp only [arrOf, T0, List.map_set]
      exact setAt_some v (by simpa using hk)
    have hs0 : ({ arrOf T with data := (arrOf T0).data } : Arr) = arrOf T0 := by
      simp only [arrOf, T0, List.map_set, unit_set]
      congr 1
      rw [← List.getElem_map (fun t : Row => t.2.2) (h := by simpa using hlt), List.set_getElem_self]
    have hstep : setitem cfg i v (arrOf T) = evaluate cfg i (arrOf T0) := by
      simp only [setitem, hs, hl, hs0]
      rfl
    rw [hstep]
    -- evaluation does not look at the old conversion
    have hk0 : norm T0.length i = some k := by simpa [T0] using hk
    have hlen : ∀ {β : Type} (f : Row → β), norm (T0.map f).length i = some k := by intro β f; simpa using hk0
    have h1 : setAt (arrOf T0).inputs i () = .ok (arrOf T0).inputs := by
      simp only [arrOf]
      rw [setAt_some () (hlen _), unit_set]
    have h2 : getAt (arrOf T0).data i = .ok v := by
      simp only [arrOf]
      rw [getAt_some (hlen _)]; simp [T0]
    have hev : evaluate cfg i (arrOf T0) = setValidated cfg i w (arrOf T0) := by
      simp only [evaluate]
      rw [h1]
      simp only []
      rw [h2]
      simp only [hu i, hw]
    have hvv : setAt (arrOf T0).validated i w = .ok ((T0.map (fun t => t.2.2)).set k w) := by
      simp only [arrOf]; rw [setAt_some w (hlen _)]
    have hd : setAt (arrOf T0).data i w = .ok ((T0.map (fun t => t.2.1)).set k w) := by
      simp only [arrOf]; rw [setAt_some w (hlen _)]
    have hraw : Spec.step (T.map (fun t => t.1)) (.set i v) = (T.map (fun t => t.1)).set k v := by
      simp only [Spec.step, List.length_map, hi, if_true, ← hkp]
    rw [hev, hraw]
    by_cases hp : (cfg.prim i && cfg.tpl v) = true
    · refine ⟨T.set k (v, v, w), by simp [List.map_set], ?_, good_set hT (Or.inr ⟨hw, Or.inr rfl⟩)⟩
      simp only [setValidated, h2, hp, if_true, hvv]
      simp [arrOf, List.map_set, T0, unit_set]
    · refine ⟨T.set k (v, w, w), by simp [List.map_set], ?_, good_set hT (Or.inr ⟨hw, Or.inl rfl⟩)⟩
      simp only [setValidated, h2, hp, hd, hvv]
      simp [arrOf, List.map_set, T0, unit_set]

theorem map_eraseIdx' {α β} (f : α → β) : ∀ (l : List α) (k : Nat), (l.eraseIdx k).map f = (l.map f).eraseIdx k
  | [], _ => rfl
  | _ :: _, 0 => rfl
  | a :: l, k + 1 => by simp [map_eraseIdx' f l k]

theorem delitem_rel {cfg : Cfg} {c} {raw : List Val} {s : Arr} (h : Rel c raw s) (i : Int) :
    Rel c (Spec.step raw (.del i)) (delitem cfg i s).2 := by
  obtain ⟨T, rfl, rfl, hT⟩ := h
  have hn := norm_inside T.length i
  by_cases hi : inside T.length i
  · rw [if_pos hi] at hn
    have hA : Rel c (Spec.step (T.map (fun t => t.1)) (.del i)) (arrOf (T.eraseIdx (place T.length i).toNat)) :=
      ⟨_, by simp [Spec.step, hi, map_eraseIdx'], rfl,
        fun t ht => hT t (List.mem_of_mem_eraseIdx ht)⟩
    have hd : ∀ {β : Type} (f : Row → β), delAt (T.map f) i = .ok ((T.eraseIdx (place T.length i).toNat).map f) := by
      intro β f
      simp only [delAt, List.length_map, hn, map_eraseIdx']
    have : (delitem cfg i (arrOf T)).2 = arrOf (T.eraseIdx (place T.length i).toNat) := by
      simp only [delitem, arrOf, hd]
      split <;> rfl
    rw [this]; exact hA
  · rw [if_neg hi] at hn
    have hd : delAt (T.map (fun t : Row => t.2.1)) i = .error .indexError := by
      simp only [delAt, List.length_map, hn]
    simp only [delitem, arrOf, hd, Spec.step, List.length_map, hi, if_false]
    exact ⟨T, rfl, rfl, hT⟩

theorem insert_rel {cfg : Cfg} {c} (hu : Uniform cfg c) (hid : Idempotent c) {raw : List Val} {s : Arr}
    (h : Rel c raw s) (i : Int) (v : Val) :
    Rel c (Spec.step raw (.ins i v)) (insert cfg i v s).2 := by
  obtain ⟨T, rfl, rfl, hT⟩ := h
  have hA : Rel c (Spec.step (T.map (fun t => t.1)) (.ins i v)) (arrOf (insertAt T i (v, v, .none))) := by
    refine ⟨_, ?_, rfl, ?_⟩
    · rw [insertAt_map]
      simp only [Spec.step, ← clamp_eq]
      rfl
    · intro t ht
      simp only [insertAt, List.mem_append, List.mem_cons] at ht
      rcases ht with ht | ht | ht
      · exact hT t (List.mem_of_mem_take ht)
      · subst ht; exact Or.inl ⟨rfl, rfl⟩
      · exact hT t (List.mem_of_mem_drop ht)
  have hs : ({ data := insertAt (arrOf T).data i v, validated := insertAt (arrOf T).validated i .none,
               inputs := insertAt (arrOf T).inputs i () } : Arr) = arrOf (insertAt T i (v, v, .none)) := by
    simp only [arrOf, insertAt_map]
  have he := evaluate_rel (cfg := cfg) hu hid hA i
  simp only [insert]
  rw [hs]
  split
  · rw [checkItem_snd]; exact hA
  · split
    · rename_i heq; rw [heq] at he; exact he
    · rename_i heq; rw [heq] at he; rw [checkItem_snd]; exact he

theorem app_ins (raw : List Val) (v : Val) : Spec.step raw (.ins raw.length v) = Spec.step raw (.app v) := by
  simp only [Spec.step, place]
  have h1 : ¬ ((raw.length : Int) < 0) := by omega
  simp only [h1, if_false]
  have h2 : (max 0 (min (raw.length : Int) raw.length)).toNat = raw.length := by omega
  rw [h2]
  simp

theorem step_rel' {cfg : Cfg} {c} (hu : Uniform cfg c) (hid : Idempotent c) {raw : List Val}
    {s : Arr} (h : Rel c raw s) (op : Op) (hl : cfg.lazy = false ∨ ∀ i v, op ≠ .set i v) (hg : ∀ i v, op = .set i v → ∃ w, c v = .ok w) :
    Rel c (Spec.step raw op) (step cfg op s).2 := by
  cases op with
  | get i =>
    have := (getitem_rel (cfg := cfg) hu hid h i).2
    simp only [step]
    split <;> (rename_i heq; rw [heq] at this; exact this)
  | set i v =>
    have hl : cfg.lazy = false := hl.resolve_right (fun hn => hn i v rfl)
    have := setitem_rel (cfg := cfg) hu hid hl h i v (hg i v rfl)
    simp only [step]
    split <;> (rename_i heq; rw [heq] at this; exact this)
  | del i =>
    have := delitem_rel (cfg := cfg) h i
    simp only [step]
    split <;> (rename_i heq; rw [heq] at this; exact this)
  | ins i v =>
    have := insert_rel (cfg := cfg) hu hid h i v
    simp only [step]
    split <;> (rename_i heq; rw [heq] at this; exact this)
  | app v =>
    have hlen : raw.length = s.data.length := by
      obtain ⟨T, rfl, rfl, _⟩ := h; simp [arrOf]
    have := insert_rel (cfg := cfg) hu hid h raw.length v
    rw [app_ins, hlen] at this
    simp only [step, append]
    split <;> (rename_i heq; rw [heq] at this; exact this)

theorem step_rel {cfg : Cfg} {c} (hu : Uniform cfg c) (hid : Idempotent c) (hl : cfg.lazy = false) {raw : List Val}
    {s : Arr} (h : Rel c raw s) (op : Op) (hg : ∀ i v, op = .set i v → ∃ w, c v = .ok w) :
    Rel c (Spec.step raw op) (step cfg op s).2 := step_rel' hu hid h op (Or.inl hl) hg

theorem run_rel' {cfg : Cfg} {c} (hu : Uniform cfg c) (hid : Idempotent c) (ops : List Op) :
    ∀ {raw : List Val} {s : Arr}, Rel c raw s → (cfg.lazy = false ∨ ∀ i v, Op.set i v ∉ ops) → GoodSets c ops →
      Rel c (Spec.run raw ops) (run cfg ops s) := by
  induction ops with
  | nil => intro raw s h _ _; exact h
  | cons op ops ih =>
    intro raw s h hl hg
    refine ih (step_rel' hu hid h op ?_ (fun i v he => hg i v (he ▸ List.mem_cons_self))) ?_
      (fun i v hm => hg i v (List.mem_cons_of_mem _ hm))
    · exact hl.imp_right (fun hn i v he => hn i v (he ▸ List.mem_cons_self))
    · exact hl.imp_right (fun hn i v hm => hn i v (List.mem_cons_of_mem _ hm))

theorem run_rel {cfg : Cfg} {c} (hu : Uniform cfg c) (hid : Idempotent c) (hl : cfg.lazy = false) (ops : List Op) :
    ∀ {raw : List Val} {s : Arr}, Rel c raw s → GoodSets c ops → Rel c (Spec.run raw ops) (run cfg ops s) := by
  induction ops with
  | nil => intro raw s h _; exact h
  | cons op ops ih =>
    intro raw s h hg
    exact ih (step_rel hu hid hl h op (fun i v he => hg i v (he ▸ List.mem_cons_self)))
      (fun i v hm => hg i v (List.mem_cons_of_mem _ hm))

theorem touch_rel (c) (data : List Val) : Rel c data (touch { data := data, validated := [], inputs := [] }) := by
  refine ⟨data.map (fun v => (v, v, .none)), by simp [Function.comp_def], ?_, ?_⟩
  · simp [touch, arrOf, Function.comp_def, List.map_const']
  · intro t ht
    obtain ⟨v, _, rfl⟩ := List.mem_map.1 ht
    exact Or.inl ⟨rfl, rfl⟩

theorem readAll_rel {cfg : Cfg} {c} (hu : Uniform cfg c) (hid : Idempotent c) (ks : List Nat) :
    ∀ {raw : List Val} {s : Arr}, Rel c raw s → Rel c raw (readAll cfg ks s).2 := by
  induction ks with
  | nil => intro raw s h; exact h
  | cons k ks ih =>
    intro raw s h
    have hg := (getitem_rel (cfg := cfg) hu hid h k).2
    simp only [readAll]
    split
    · rename_i heq; rw [heq] at hg; exact hg
    · rename_i heq; rw [heq] at hg; exact ih hg

theorem create_rel {cfg : Cfg} {c} (hu : Uniform cfg c) (hid : Idempotent c) {data s}
    (h : create cfg data = .ok s) : Rel c data s := by
  unfold create at h
  have ht := touch_rel c data
  have hr := readAll_rel (cfg := cfg) hu hid (List.range data.length) ht
  simp only at h
  split at h
  · cases h
  · rename_i s1 heq
    split at h
    · cases h
    · cases h
      split at heq
      · cases heq; exact ht
      · rw [heq] at hr; exact hr

end Verif.Arr
