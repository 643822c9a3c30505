import Verif.Spec.Types
import Verif.Props.Topo
/-
Lemmas for Props/Types.lean.
-/
namespace Verif.Types
open Query (pyEq pyIn hashable)

theorem pyIn_member {v : Val} {enum : List Val} (h : pyIn v enum = true) : Member v enum := by
  unfold pyIn at h
  rw [List.any_eq_true] at h
  obtain ⟨m, hm, h⟩ := h
  refine ⟨m, hm, ?_⟩
  simpa using h

theorem pyIn_self {v : Val} {enum : List Val} (h : v ∈ enum) : pyIn v enum = true := by
  unfold pyIn; rw [List.any_eq_true]; exact ⟨v, h, by simp⟩

theorem splitSep_ne_nil (sep : Str) (n : Nat) (s : Str) : splitSep sep n s ≠ [] := by
  induction s generalizing n with
  | nil => cases n <;> simp [splitSep]
  | cons c s ih =>
    cases n with
    | succ n => rw [splitSep]; exact ih n
    | zero =>
      rw [splitSep]
      split
      · simp
      · split <;> simp

theorem splitSep_join (sep : Str) (hs : sep ≠ []) (n : Nat) (s : Str) :
    joinWith sep (splitSep sep n s) = s.drop n := by
  induction s generalizing n with
  | nil => cases n <;> simp [splitSep, joinWith]
  | cons c s ih =>
    cases n with
    | succ n => rw [splitSep, ih]; simp
    | zero =>
      rw [splitSep]
      split
      · rename_i hp
        rw [List.isPrefixOf_iff_prefix] at hp
        rw [joinWith.eq_3 _ _ _ (by intro h; exact splitSep_ne_nil _ _ _ h), ih]
        obtain ⟨t, ht⟩ := hp
        cases sep with
        | nil => exact absurd rfl hs
        | cons d ds =>
          simp only [List.cons_append, List.cons.injEq] at ht
          obtain ⟨rfl, rfl⟩ := ht
          simp
      · cases hw : splitSep sep 0 s with
        | nil => exact absurd hw (splitSep_ne_nil _ _ _)
        | cons w ws =>
          have := ih 0
          rw [hw] at this
          simp only [List.drop_zero] at this ⊢
          cases ws with
          | nil => simp only [joinWith] at this ⊢; rw [this]
          | cons x xs =>
            rw [joinWith.eq_3 _ _ _ (by simp)] at this ⊢
            rw [← this]; simp

theorem splitSep_head (sep : Str) (s : Str) : ∃ w ws, splitSep sep 0 s = w :: ws ∧ w <+: s := by
  induction s with
  | nil => exact ⟨[], [], rfl, List.nil_prefix⟩
  | cons c s ih =>
    rw [splitSep]
    split
    · exact ⟨_, _, rfl, List.nil_prefix⟩
    · obtain ⟨w, ws, h, hp⟩ := ih
      rw [h]
      exact ⟨_, _, rfl, (List.cons_prefix_cons).2 ⟨rfl, hp⟩⟩

theorem splitSep_pieces (sep : Str) (hs : sep ≠ []) (n : Nat) (s : Str) :
    ∀ w ∈ splitSep sep n s, ¬ sep <:+: w := by
  have nil : ¬ sep <:+: [] := by
    intro h; exact hs (List.infix_nil.1 h)
  induction s generalizing n with
  | nil => cases n <;> simp [splitSep, hs]
  | cons c s ih =>
    cases n with
    | succ n => rw [splitSep]; exact ih n
    | zero =>
      rw [splitSep]
      split
      · intro w hw
        rcases List.mem_cons.1 hw with rfl | hw
        · exact nil
        · exact ih _ w hw
      · rename_i hp
        obtain ⟨w, ws, h, hpre⟩ := splitSep_head sep s
        have ih0 := ih 0
        rw [h] at ih0 ⊢
        intro x hx
        rcases List.mem_cons.1 hx with rfl | hx
        · intro hin
          rcases List.infix_cons_iff.1 hin with hin | hin
          · apply hp
            rw [List.isPrefixOf_iff_prefix]
            exact hin.trans ((List.cons_prefix_cons).2 ⟨rfl, hpre⟩)
          · exact ih0 w (by simp) hin
        · exact ih0 x (by simp [hx])

theorem splitSep_char (c : Char) (s : Str) : splitSep [c] 0 s = splitOn c s := by
  induction s with
  | nil => rfl
  | cons d s ih =>
    rw [splitSep, splitOn]
    by_cases h : d = c
    · subst h; simp [ih]
    · rw [if_neg h, if_neg (by simpa [List.isPrefixOf, beq_iff_eq] using (fun e => h e.symm)), ih]
      cases splitOn c s <;> rfl

theorem keys_of_get? {d : List (Str × Val)} {k : Str} {v : Val} (h : AList.get? d k = some v) : k ∈ d.map Prod.fst :=
  List.mem_map.2 ⟨_, AList.mem_of_get? h, rfl⟩

theorem get?_map_none (l : List (Str × Val)) (k : Str) :
    AList.get? (l.map (fun p => (p.1, Val.none))) k = if k ∈ l.map Prod.fst then some .none else none := by
  induction l with
  | nil => rfl
  | cons p l ih =>
    simp only [List.map_cons, AList.get?, ih, List.mem_cons]
    by_cases h : p.1 = k
    · simp [h]
    · have h' : ¬ k = p.1 := fun e => h e.symm
      simp only [h, if_false]
      by_cases h2 : k ∈ l.map Prod.fst
      · rw [if_pos h2, if_pos (.inr h2)]
      · rw [if_neg h2, if_neg (by rintro (e | e); exact h' e; exact h2 e)]

theorem get?_filter_key (l : List (Str × Val)) (p : Str → Bool) (k : Str) (q : Val → Bool) (wf : AList.WF l) :
    AList.get? (l.filter (fun x => q x.2 && p x.1)) k =
      match AList.get? l k with
      | some v => if q v && p k then some v else none
      | none => none := by
  have wf' : AList.WF (l.filter (fun x => q x.2 && p x.1)) := by
    unfold AList.WF AList.keys at *
    exact wf.sublist (List.filter_sublist.map _)
  cases hg : AList.get? l k with
  | none =>
    rw [AList.get?_eq_none] at hg ⊢
    intro h
    apply hg
    obtain ⟨x, hx, rfl⟩ := List.mem_map.1 h
    exact List.mem_map.2 ⟨x, (List.mem_filter.1 hx).1, rfl⟩
  | some v =>
    have hm := AList.mem_of_get? hg
    simp only
    split
    · rename_i hc
      exact AList.get?_of_mem wf' (List.mem_filter.2 ⟨hm, hc⟩)
    · rename_i hc
      rw [AList.get?_eq_none]
      intro h
      obtain ⟨x, hx, hk⟩ := List.mem_map.1 h
      obtain ⟨h1, h2⟩ := List.mem_filter.1 hx
      have : AList.get? l k = some x.2 := AList.get?_of_mem wf (by rw [← hk]; exact h1)
      rw [hg] at this; simp at this; subst this
      rw [hk] at h2
      exact hc h2

/-- The completed value before ordering. -/
theorem completed_get? (props value : List (Str × Val)) (wf : AList.WF props) (k : Str) :
    let v1 := AList.update value ((props.filter (fun p => p.2.truthy)).filter (fun p => !AList.contains value p.1))
    let v2 := AList.update v1 ((props.filter (fun p => !AList.contains v1 p.1)).map (fun p => (p.1, Val.none)))
    AList.get? v2 k = match AList.get? value k with
      | some v => some v
      | none => match AList.get? props k with
        | some d => some (if d.truthy then d else .none)
        | none => none := by
  intro v1 v2
  have sub : ∀ (q : Str × Val → Bool), AList.WF (props.filter q) := by
    intro q; unfold AList.WF AList.keys at *; exact wf.sublist (List.filter_sublist.map _)
  have e1 : AList.get? v1 k = match AList.get? value k with
      | some v => some v
      | none => match AList.get? props k with
        | some d => if d.truthy then some d else none
        | none => none := by
    show AList.get? (AList.update _ _) k = _
    rw [List.filter_filter]
    have := get?_filter_key props (fun k => !AList.contains value k) k Val.truthy wf
    rw [AList.get?_update _ (sub _)]
    have e : (fun a : Str × Val => (!AList.contains value a.1) && a.2.truthy) =
        (fun x => x.2.truthy && !AList.contains value x.1) := by funext x; rw [Bool.and_comm]
    rw [e, this]
    cases hv : AList.get? value k with
    | some v =>
      have : AList.contains value k = true := by simp [AList.contains, hv]
      simp [this]
      cases AList.get? props k <;> rfl
    | none =>
      have : AList.contains value k = false := by simp [AList.contains, hv]
      simp [this]
  have wf2 : AList.WF ((props.filter (fun p => !AList.contains v1 p.1)).map (fun p => (p.1, Val.none))) := by
    have := sub (fun p => !AList.contains v1 p.1)
    unfold AList.WF AList.keys at *
    simpa [List.map_map, Function.comp_def] using this
  show AList.get? (AList.update _ _) k = _
  rw [AList.get?_update _ wf2, get?_map_none]
  have hmem : k ∈ (props.filter (fun p => !AList.contains v1 p.1)).map Prod.fst ↔
      (AList.get? v1 k = none ∧ ∃ d, AList.get? props k = some d) := by
    constructor
    · intro h
      obtain ⟨x, hx, rfl⟩ := List.mem_map.1 h
      obtain ⟨h1, h2⟩ := List.mem_filter.1 hx
      refine ⟨?_, x.2, AList.get?_of_mem wf h1⟩
      simpa [AList.contains] using h2
    · rintro ⟨h1, d, h2⟩
      exact List.mem_map.2 ⟨(k, d), List.mem_filter.2 ⟨AList.mem_of_get? h2, by simp [AList.contains, h1]⟩, rfl⟩
  by_cases hk : k ∈ (props.filter (fun p => !AList.contains v1 p.1)).map Prod.fst
  · rw [if_pos hk]
    obtain ⟨h1, d, h2⟩ := hmem.1 hk
    rw [e1] at h1
    rw [h2] at h1 ⊢
    cases hv : AList.get? value k with
    | some v => rw [hv] at h1; simp at h1
    | none =>
      rw [hv] at h1
      cases hd : d.truthy <;> simp_all
  · rw [if_neg hk]
    simp only [Option.none_or, e1]
    cases hv : AList.get? value k with
    | some v => simp
    | none =>
      cases hp : AList.get? props k with
      | none => rfl
      | some d =>
        simp only
        cases hd : d.truthy with
        | true => simp
        | false =>
          exfalso; apply hk; rw [hmem]
          exact ⟨by rw [e1, hv, hp]; simp [hd], d, hp⟩

theorem cyclic_nil : ¬ Topo.Cyclic ([] : AList Str (List Str)) := by
  rintro ⟨x, h⟩
  have : ∀ x y, ¬ Topo.Dep ([] : AList Str (List Str)) x y := by intro x y; simp [Topo.Dep]
  cases h <;> exact this _ _ ‹_›

theorem get?_map_get (v : List (Str × Val)) (ks : List Str) (k : Str) :
    AList.get? (ks.map (fun k => (k, (AList.get? v k).getD .none))) k =
      if k ∈ ks then some ((AList.get? v k).getD .none) else none := by
  induction ks with
  | nil => rfl
  | cons x ks ih =>
    simp only [List.map_cons, AList.get?, ih, List.mem_cons]
    by_cases h : x = k
    · subst h; simp
    · rw [if_neg h]
      by_cases h2 : k ∈ ks
      · rw [if_pos h2, if_pos (.inr h2)]
      · rw [if_neg h2, if_neg (by rintro (e | e); exact h e.symm; exact h2 e)]

theorem printOrder_mem (ord : List Str → List Str) (hord : Reorders ord) (dflt : List Str) (o : ObjDecl) (p : PrintOpts)
    (value : List (Str × Val)) (k : Str) :
    k ∈ (printOrder ord dflt o p value).1 ↔
      k ∈ value.map Prod.fst ∧ (k ∈ o.required ∨ Wanted (p.excludes.getD dflt) o p value k) := by
  have hm : ∀ l, k ∈ ord l ↔ k ∈ l := fun l => (hord l).mem_iff
  unfold printOrder
  simp only [List.mem_filter, List.mem_append, hm]
  have hc : k ∈ value.map Prod.fst → AList.contains value k = true := by
    intro h; rw [AList.contains_iff]; exact h
  constructor
  · rintro ⟨h1, h2⟩
    have hk : k ∈ value.map Prod.fst := by rcases h1 with h | h <;> exact h.1
    refine ⟨hk, ?_⟩
    by_cases hr : k ∈ o.required
    · exact .inl hr
    · right
      simp only [hr, decide_false, Bool.false_or, Bool.and_eq_true, decide_eq_true_eq, Bool.or_eq_true] at h2
      obtain ⟨⟨⟨a, b⟩, -⟩, c⟩ := h2
      refine ⟨fun h => a (.inl h), fun hn h => a (.inr (by simp [hn, h])), ?_, ?_⟩
      · intro hne
        rcases b with b | b
        · simp at b; exact absurd b hne
        · exact b
      · intro hn h
        simp [hn, h] at c
  · rintro ⟨hk, h⟩
    refine ⟨?_, ?_⟩
    · by_cases hr : k ∈ o.required
      · left; exact ⟨hk, by simpa using hr⟩
      · right; exact ⟨hk, by simpa using hr⟩
    · rcases h with h | ⟨a, b, c, d⟩
      · simp [h]
      · simp only [Bool.or_eq_true, Bool.and_eq_true, decide_eq_true_eq]
        right
        refine ⟨⟨⟨?_, ?_⟩, hc hk⟩, ?_⟩
        · rintro (h | h)
          · exact a h
          · split at h
            · rename_i hn; exact b hn h
            · simp at h
        · by_cases ho : p.only = []
          · left; simp [ho]
          · right; exact c ho
        · cases hn : p.noDefaults with
          | false => simp
          | true => simp [d hn]

theorem printOrder_nodup (ord : List Str → List Str) (hord : Reorders ord) (dflt : List Str) (o : ObjDecl) (p : PrintOpts)
    (value : List (Str × Val)) (hv : AList.WF value) : (printOrder ord dflt o p value).1.Nodup := by
  unfold printOrder
  refine List.Nodup.sublist List.filter_sublist ?_
  rw [List.nodup_append]
  refine ⟨(hord _).nodup_iff.2 (List.Nodup.sublist List.filter_sublist hv), (hord _).nodup_iff.2 (List.Nodup.sublist List.filter_sublist hv), ?_⟩
  intro a ha b hb
  rw [(hord _).mem_iff] at ha hb
  have h1 := (List.mem_filter.1 ha).2
  have h2 := (List.mem_filter.1 hb).2
  rintro rfl
  simp at h1 h2
  exact h2 h1

theorem dropDefaults_sublist (o : ObjDecl) (value : List (Str × Val)) (ks r : List Str)
    (h : dropDefaults o value ks = .ok r) : r.Sublist ks ∧ ∀ k ∈ ks, k ∈ r ↔ atDefault o value k = .ok false := by
  induction ks generalizing r with
  | nil => simp [dropDefaults] at h; subst h; simp
  | cons k ks ih =>
    rw [dropDefaults] at h
    split at h
    · simp at h
    · rename_i b hb
      split at h
      · simp at h
      · rename_i r' hr
        simp at h; subst h
        obtain ⟨i1, i2⟩ := ih r' hr
        cases b with
        | true =>
          refine ⟨.cons _ i1, ?_⟩
          intro x hx
          simp only [if_true]
          rcases List.mem_cons.1 hx with rfl | hx
          · by_cases hm : x ∈ ks
            · rw [i2 x hm]
            · rw [hb]; simp; exact fun h => hm (i1.subset h)
          · exact i2 x hx
        | false =>
          refine ⟨by simpa using i1.cons_cons k, ?_⟩
          intro x hx
          simp only [Bool.false_eq_true, if_false, List.mem_cons]
          by_cases hxk : x = k
          · subst hxk; simp [hb]
          · rcases List.mem_cons.1 hx with rfl | hx
            · exact absurd rfl hxk
            · simp [hxk, i2 x hx]

theorem objPrintOrder_sub {ord : List Str → List Str} {dflt d' : List Str} {o : ObjDecl} {p : PrintOpts}
    {value : List (Str × Val)} {ks : List Str} (h : objPrintOrder ord dflt o p value = (.ok ks, d')) :
    ks.Sublist (printOrder ord dflt o p value).1 ∧ d' = (printOrder ord dflt o p value).2 ∧
    (∀ k ∈ (printOrder ord dflt o p value).1, k ∈ ks ↔ p.noDefaults = false ∨ atDefault o value k = .ok false) := by
  unfold objPrintOrder at h
  generalize printOrder ord dflt o p value = G at h ⊢
  obtain ⟨ks0, d0⟩ := G
  simp only [Prod.mk.injEq] at h
  obtain ⟨h1, h2⟩ := h
  cases hn : p.noDefaults with
  | true =>
    rw [hn] at h1
    simp only [if_true] at h1
    have := dropDefaults_sublist o value ks0 ks h1
    exact ⟨this.1, h2.symm, by simpa using this.2⟩
  | false =>
    rw [hn] at h1
    simp at h1; subst h1
    exact ⟨List.Sublist.refl _, h2.symm, by simp⟩

/-- Whatever is serialised: a key is a key of the value, and is required or wanted by the options. -/
theorem serialize_keys (ser : Val → Val) (ord : List Str → List Str) (hord : Reorders ord) (dflt d' : List Str) (o : ObjDecl)
    (p : PrintOpts) (value r : List (Str × Val)) (h : objSerialize ser ord dflt o p value = (.ok r, d')) (k : Str) :
    k ∈ r.map Prod.fst ↔ k ∈ value.map Prod.fst ∧ (k ∈ o.required ∨ Wanted (p.excludes.getD dflt) o p value k) ∧
      (p.noDefaults = false ∨ atDefault o value k = .ok false) := by
  unfold objSerialize at h
  generalize h1 : objPrintOrder ord dflt o p value = G at h
  obtain ⟨g, d1⟩ := G
  cases g with
  | error e => simp at h
  | ok ks =>
    simp only at h
    generalize h2 : objPrintOrder ord d1 o p (ks.map (fun k => (k, (AList.get? value k).getD .none))) = G at h
    obtain ⟨g, d2⟩ := G
    cases g with
    | error e => simp at h
    | ok ks2 =>
      simp only [Prod.mk.injEq, Except.ok.injEq] at h
      obtain ⟨h3, -⟩ := h
      have hk : r.map Prod.fst = ks2 := by
        rw [← h3, List.map_map]
        conv => rhs; rw [← List.map_id ks2]
        apply List.map_congr_left
        intro x _
        simp only [Function.comp]
        repeat' split
        all_goals rfl
      rw [hk]
      obtain ⟨s1, e1, m1⟩ := objPrintOrder_sub h1
      obtain ⟨s2, e2, m2⟩ := objPrintOrder_sub h2
      have p1 := printOrder_mem ord hord dflt o p value k
      have p2 := printOrder_mem ord hord d1 o p (ks.map (fun k => (k, (AList.get? value k).getD .none))) k
      have hkeys : (ks.map (fun k => (k, (AList.get? value k).getD Val.none))).map Prod.fst = ks := by
        simp [List.map_map, Function.comp_def]
      rw [hkeys] at p2
      have hget : k ∈ ks → AList.get? (ks.map (fun k => (k, (AList.get? value k).getD Val.none))) k = AList.get? value k := by
        intro hk
        rw [get?_map_get, if_pos hk]
        have := (p1.1 (s1.subset hk)).1
        cases h : AList.get? value k with
        | none => rw [AList.get?_eq_none] at h; exact absurd this h
        | some v => rfl
      have hex : Wanted (p.excludes.getD dflt) o p value k → Wanted (p.excludes.getD d1) o p value k := by
        intro w
        refine ⟨?_, w.2, w.3, w.4⟩
        rw [e1]; unfold printOrder
        cases he : p.excludes with
        | some ex => have := w.1; rw [he] at this; simpa using this
        | none =>
          have w1 := w.1
          rw [he] at w1
          simp only [Option.getD_none, Option.isNone_none, if_true, List.mem_append] at w1 ⊢
          rintro (h | h)
          · exact w1 h
          · split at h
            · rename_i hn; exact w.2 hn h
            · simp at h
      have hat : k ∈ ks → atDefault o (ks.map (fun k => (k, (AList.get? value k).getD Val.none))) k = atDefault o value k := by
        intro hk; unfold atDefault; rw [hget hk]
      constructor
      · intro hk2
        have hk := (p2.1 (s2.subset hk2)).1
        obtain ⟨a, b⟩ := p1.1 (s1.subset hk)
        exact ⟨a, b, (m1 k (s1.subset hk)).1 hk⟩
      · rintro ⟨a, b, c⟩
        have hin := p1.2 ⟨a, b⟩
        have hk := (m1 k hin).2 c
        have hin2 := p2.2 ⟨hk, b.imp id (fun w => by
          have w' := hex w
          exact ⟨w'.1, w'.2, w'.3, fun hn => by rw [hget hk]; exact w'.4 hn⟩)⟩
        refine (m2 k hin2).2 ?_
        rw [hat hk]; exact c

theorem atDefault_iff (o : ObjDecl) (ns : List Str) (hneg : o.negated = some ns) (value : List (Str × Val)) (k : Str)
    (hop : Opposable o ns value) (hin : k ∈ value.map Prod.fst) :
    ∃ b, atDefault o value k = .ok b ∧ (b = true ↔ HasItsDefault o ns value k) := by
  have hop := hop k
  unfold atDefault hasDefault HasItsDefault
  cases hv : AList.get? value k with
  | none => rw [AList.get?_eq_none] at hv; exact absurd hin hv
  | some v =>
    cases hp : AList.get? o.props k with
    | none => exact ⟨false, by simp [Val.truthy], by simp⟩
    | some d =>
      cases hd : d.truthy with
      | false => exact ⟨false, by simp [hd], by simp; intro h; rw [hd] at h; simp at h⟩
      | true =>
        by_cases hk : k ∈ ns
        · have := hop v hv hk (by simp [hp, hd])
          simp only [Option.getD_some, hd, if_true, hneg, if_pos hk]
          rcases this with ⟨n, rfl⟩ | ⟨b, rfl⟩
          · exact ⟨_, rfl, by simp [hd]⟩
          · cases b
            · exact ⟨_, rfl, by simp [hd]⟩
            · exact ⟨_, rfl, by simp [hd]⟩
        · refine ⟨pyEq v d, by simp only [Option.getD_some, hd, if_true, hneg, if_neg hk], ?_⟩
          simp [hd, hk]

theorem dropDefaults_ok (o : ObjDecl) (value : List (Str × Val)) (ks : List Str)
    (h : ∀ k ∈ ks, ∃ b, atDefault o value k = .ok b) : ∃ r, dropDefaults o value ks = .ok r := by
  induction ks with
  | nil => exact ⟨[], rfl⟩
  | cons k ks ih =>
    obtain ⟨b, hb⟩ := h k (by simp)
    obtain ⟨r, hr⟩ := ih (fun k hk => h k (by simp [hk]))
    exact ⟨_, by rw [dropDefaults, hb, hr]⟩

end Verif.Types
