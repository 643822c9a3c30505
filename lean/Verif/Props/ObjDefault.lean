import Verif.Spec.ObjDefault
import Verif.Props.Types
/-
C359.
-/
namespace Verif.ObjDefault
open Types
open ObjDefault.Spec

theorem mem_withDefault (o : ObjDecl) (hp : AList.WF o.props) (k : Str) :
    k ∈ withDefault o ↔ ∃ d, Declared o k d := by
  simp only [withDefault, List.mem_map, List.mem_filter, Declared]
  constructor
  · rintro ⟨⟨k', d⟩, ⟨h1, h2⟩, rfl⟩
    exact ⟨d, AList.get?_of_mem hp h1, h2⟩
  · rintro ⟨d, h1, h2⟩
    exact ⟨(k, d), ⟨AList.mem_of_get? h1, h2⟩, rfl⟩

theorem get_fillAll (o : ObjDecl) (k : Str) : (ks : List Str) → (ret : List (Str × Val)) →
    (∀ j ∈ ks, ∃ d, Declared o j d) →
    AList.get? (ks.foldl (fillOne o) ret) k =
      if k ∈ ks then some (if (AList.get? ret k).getD .none = .none then (AList.get? o.props k).getD .none
        else (AList.get? ret k).getD .none) else AList.get? ret k
  | [], ret, _ => by simp
  | j :: ks, ret, h => by
    rw [List.foldl_cons, get_fillAll o k ks _ (fun i hi => h i (by simp [hi]))]
    obtain ⟨d, hd, ht⟩ := h j (by simp)
    have hd0 : d ≠ .none := by rintro rfl; cases ht
    have hset : AList.get? (fillOne o ret j) k = if j = k then
        some (if (AList.get? ret j).getD .none = .none then (AList.get? o.props j).getD .none
          else (AList.get? ret j).getD .none) else AList.get? ret k := AList.get?_set _ _ _ _
    rw [hset]
    by_cases hjk : j = k
    · subst hjk
      simp only [if_true, List.mem_cons, true_or, Option.getD_some, hd]
      by_cases h0 : (AList.get? ret j).getD .none = .none
      · simp [h0, hd0]
      · simp [h0]
    · have : ¬ k = j := fun h => hjk h.symm
      simp [hjk, this]

theorem wf_fillAll (o : ObjDecl) : (ks : List Str) → (ret : List (Str × Val)) → AList.WF ret →
    AList.WF (ks.foldl (fillOne o) ret)
  | [], _, h => h
  | _ :: ks, _, h => wf_fillAll o ks _ (AList.wf_set h _ _)

/-- What is written: the default for what is missing, the value otherwise. -/
theorem get_fill {ord : List Str → List Str} (hord : Reorders ord) (o : ObjDecl) (hp : AList.WF o.props)
    (own value : List (Str × Val)) (k : Str) :
    (∀ d, Declared o k d → AList.get? (fill ord o own value) k =
      some (if (AList.get? (if value.isEmpty then own else value) k).getD .none = .none then d
        else (AList.get? (if value.isEmpty then own else value) k).getD .none))
    ∧ ((¬ ∃ d, Declared o k d) → AList.get? (fill ord o own value) k =
      AList.get? (if value.isEmpty then own else value) k) := by
  have hm : ∀ j, j ∈ ord (withDefault o) ↔ ∃ d, Declared o j d := fun j =>
    (hord _).mem_iff.trans (mem_withDefault o hp j)
  have := get_fillAll o k (ord (withDefault o)) (if value.isEmpty then own else value) (fun j hj => (hm j).1 hj)
  refine ⟨fun d hd => ?_, fun h => ?_⟩
  · rw [fill, this, if_pos ((hm k).2 ⟨d, hd⟩), hd.1]; rfl
  · rw [fill, this, if_neg (fun hk => h ((hm k).1 hk))]

theorem mem_keys {m : List (Str × Val)} {k : Str} {v : Val} (h : AList.get? m k = some v) : k ∈ m.map Prod.fst :=
  AList.get?_isSome.mp (by rw [h]; rfl)

theorem default_eq {ser : Val → Val} {ord : List Str → List Str} {o : ObjDecl} {own value : List (Str × Val)} {nd : Bool}
    {r : List (Str × Val)} (h : default ser ord o own nd value = .ok r) :
    ∃ d', objSerialize ser ord [] o { noDefaults := nd } (fill ord o own value) = (.ok r, d') :=
  ⟨_, Prod.ext h rfl⟩

/-- With defaults (`no_defaults=False`), the default of a type or a class has the default of every property that has one,
or the value that is given. Partial: see below for what is lost without. -/
theorem C359_kept_partial (ser : Val → Val) {ord : List Str → List Str} (hord : Reorders ord) (o : ObjDecl)
    (hp : AList.WF o.props) (own value : List (Str × Val)) (ho : AList.WF own) (hv : AList.WF value) :
    ∃ r, default ser ord o own false value = .ok r ∧ ∀ k d, Declared o k d →
      (∀ v, Has (if value.isEmpty then own else value) k v → AList.get? r k = some (ser v))
      ∧ ((¬ ∃ v, Has (if value.isEmpty then own else value) k v) → AList.get? r k = some (ser d)) := by
  have hwf : AList.WF (fill ord o own value) := wf_fillAll _ _ _ (by split <;> assumption)
  obtain ⟨r, d', h, hnd, hk⟩ := C64_exact_partial ser ord hord [] o { noDefaults := false } _ hwf rfl
  refine ⟨r, by rw [default, h], fun k d hd => ?_⟩
  have hg := (get_fill hord o hp own value k).1 d hd
  have hw : Wanted [] o { noDefaults := false } (fill ord o own value) k :=
    ⟨by simp, by simp, by simp, by simp⟩
  have hmem := (hk k).2 ⟨mem_keys hg, .inr hw⟩
  obtain ⟨⟨k', v⟩, hkv, rfl⟩ := List.mem_map.1 hmem
  obtain ⟨x, hx, -, hxv⟩ := C64_values ser ord hord [] d' o _ _ _ h _ v hkv
  have hv' := hxv hw
  have hr : AList.get? r k' = some v := AList.get?_of_mem hnd hkv
  dsimp only at hr hx hg ⊢
  rw [hg] at hx
  cases hx
  rw [hr, hv']
  refine ⟨fun w hw => ?_, fun hno => ?_⟩
  · rw [hw.1, Option.getD_some, if_neg hw.2]
  · rw [if_pos]
    cases hz : AList.get? (if value.isEmpty then own else value) k' with
    | none => rfl
    | some z =>
      by_cases h0 : z = .none
      · exact h0
      · exact absurd ⟨z, hz, h0⟩ hno

theorem plain_eq {d : Val} (h : Plain d) : Query.pyEq d d = true := by
  cases d <;> simp_all [Plain, Query.pyEq, Query.num]

/-- Without, which is the default, the default of a class has the default of no property. -/
theorem C359_without_violated (ser : Val → Val) {ord : List Str → List Str} (hord : Reorders ord) (o : ObjDecl)
    (hp : AList.WF o.props) (ns : List Str) (hneg : o.negated = some ns) (own value r : List (Str × Val))
    (h : default ser ord o own true value = .ok r) (k : Str) (hk : k ∉ ns) (d : Val) (hd : Declared o k d) (hpl : Plain d)
    (hno : ¬ ∃ v, Has (if value.isEmpty then own else value) k v) : AList.get? r k = none := by
  obtain ⟨d', h⟩ := default_eq h
  rw [AList.get?_eq_none]
  intro hin
  obtain ⟨-, -, h3⟩ := (serialize_keys ser ord hord [] d' o _ _ r h k).1 hin
  rcases h3 with h3 | h3
  · cases h3
  have hg := (get_fill hord o hp own value k).1 d hd
  have h0 : (AList.get? (if value.isEmpty then own else value) k).getD .none = .none := by
    cases hz : AList.get? (if value.isEmpty then own else value) k with
    | none => rfl
    | some z =>
      by_cases h0 : z = .none
      · exact h0
      · exact absurd ⟨z, hz, h0⟩ hno
  rw [if_pos h0] at hg
  simp [atDefault, hasDefault, hd.1, hd.2, hneg, hg, hk, plain_eq hpl] at h3

/-- Of a type that is no class, there is no default without defaults as soon as some property has one. -/
theorem C359_plain_violated (ser : Val → Val) {ord : List Str → List Str} (hord : Reorders ord) (o : ObjDecl)
    (hp : AList.WF o.props) (hneg : o.negated = none) (own value : List (Str × Val)) (k : Str) (d : Val)
    (hd : Declared o k d) : default ser ord o own true value = .error .attributeError := by
  have hg := (get_fill hord o hp own value k).1 d hd
  have hd0 : d ≠ .none := by rintro rfl; cases hd.2
  have hin : k ∈ (printOrder ord [] o { noDefaults := true } (fill ord o own value)).1 := by
    rw [printOrder_mem ord hord]
    refine ⟨mem_keys hg, .inr ⟨by simp, by simp, by simp, fun _ h => ?_⟩⟩
    rw [hg] at h
    simp only [Option.some.injEq] at h
    generalize (AList.get? (if value.isEmpty then own else value) k).getD .none = x at h
    by_cases h0 : x = .none
    · rw [if_pos h0] at h; exact hd0 h
    · rw [if_neg h0] at h; exact h0 h
  have herr : ∀ (value : List (Str × Val)) (ks : List Str), k ∈ ks →
      dropDefaults o value ks = .error .attributeError := by
    intro value ks
    induction ks with
    | nil => simp
    | cons j ks ih =>
      intro hm
      rw [dropDefaults]
      cases hj : hasDefault o j with
      | true => simp [atDefault, hj, hneg]
      | false =>
        have : k ≠ j := by
          rintro rfl
          simp [hasDefault, hd.1, hd.2] at hj
        rcases List.mem_cons.1 hm with hm | hm
        · exact absurd hm this
        · simp [atDefault, hj, ih hm]
  unfold default objSerialize objPrintOrder
  generalize hG : printOrder ord [] o { noDefaults := true } (fill ord o own value) = G at hin
  obtain ⟨ks, d1⟩ := G
  dsimp only at hin ⊢
  simp [herr _ ks hin]

theorem serialize_nodup {ser : Val → Val} {ord : List Str → List Str} (hord : Reorders ord) {dflt d' : List Str}
    {o : ObjDecl} {p : PrintOpts} {value r : List (Str × Val)} (hv : AList.WF value)
    (h : objSerialize ser ord dflt o p value = (.ok r, d')) : AList.WF r := by
  unfold objSerialize at h
  generalize h1 : objPrintOrder ord dflt o p value = G at h
  obtain ⟨g, d1⟩ := G
  cases g with
  | error e => simp at h
  | ok ks =>
    simp only at h
    generalize h2 : objPrintOrder ord d1 o p (ks.map (fun k => (k, (AList.get? value k).getD .none))) = G at h
    obtain ⟨g, d2⟩ := G
    cases g with
    | error e => simp at h
    | ok ks2 =>
      simp only [Prod.mk.injEq, Except.ok.injEq] at h
      obtain ⟨h3, -⟩ := h
      have hid : ∀ (l : List Str) (f : Str → Str × Val), (∀ x, (f x).1 = x) → (l.map f).map Prod.fst = l := by
        intro l f hf
        rw [List.map_map]
        conv => rhs; rw [← List.map_id l]
        exact List.map_congr_left (fun x _ => hf x)
      have n1 : ks.Nodup := (printOrder_nodup ord hord _ _ _ _ hv).sublist (objPrintOrder_sub h1).1
      have n2 : ks2.Nodup := (printOrder_nodup ord hord _ _ _ _ (by
        show ((ks.map _).map Prod.fst).Nodup
        rw [hid _ _ (fun _ => rfl)]; exact n1)).sublist (objPrintOrder_sub h2).1
      rw [← h3]
      show (List.map Prod.fst (List.map _ ks2)).Nodup
      rw [hid]
      · exact n2
      · intro x
        repeat' split
        all_goals rfl

/-- What a class gives as its default is read as the values that are given, and the defaults of the properties without. -/
theorem C359_read_partial (ser : Val → Val) {ord : List Str → List Str} (hord : Reorders ord) (o : ObjDecl)
    (hp : AList.WF o.props) (hr : o.required.Nodup) (ns : List Str) (hneg : o.negated = some ns)
    (own value r s : List (Str × Val)) (ho : AList.WF own) (hv : AList.WF value)
    (h : default ser ord o own true value = .ok r) (hs : objDeserialize ord o r = .ok s)
    (k : Str) (hk : k ∉ ns) (d : Val) (hd : Declared o k d) (hpl : Plain d) :
    ((¬ ∃ v, Has (if value.isEmpty then own else value) k v) → AList.get? s k = some d)
    ∧ ∀ v, Has (if value.isEmpty then own else value) k v →
      AList.get? s k = some (if Query.pyEq v d then d else ser v) := by
  have hwf : AList.WF (fill ord o own value) := wf_fillAll _ _ _ (by split <;> assumption)
  obtain ⟨d', h'⟩ := default_eq h
  have hrw := serialize_nodup hord hwf h'
  obtain ⟨hs', -⟩ | ⟨s', hs', -, -, -, a1, a2, -⟩ := C62_deserialize_partial ord hord o r hrw hp hr
  · rw [hs'] at hs; cases hs
  rw [hs'] at hs
  cases hs
  have hg := (get_fill hord o hp own value k).1 d hd
  refine ⟨fun hno => ?_, fun v hv => ?_⟩
  · have := a2 k d (C359_without_violated ser hord o hp ns hneg own value r h k hk d hd hpl hno) hd.1
    rw [if_pos hd.2] at this
    exact this
  · rw [hv.1, Option.getD_some, if_neg hv.2] at hg
    have hkeys := serialize_keys ser ord hord [] d' o _ _ r h' k
    have hat : atDefault o (fill ord o own value) k = .ok (Query.pyEq v d) := by
      simp [atDefault, hasDefault, hd.1, hd.2, hneg, hg, hk]
    cases he : Query.pyEq v d with
    | true =>
      rw [he] at hat
      have : AList.get? r k = none := by
        rw [AList.get?_eq_none]
        intro hin
        rcases (hkeys.1 hin).2.2 with h3 | h3
        · cases h3
        · rw [hat] at h3; cases h3
      have := a2 k d this hd.1
      rw [if_pos hd.2] at this
      simpa using this
    | false =>
      rw [he] at hat
      have hw : Wanted [] o { noDefaults := true } (fill ord o own value) k :=
        ⟨by simp, by simp, by simp, fun _ h => by rw [hg] at h; exact hv.2 (Option.some.inj h)⟩
      have hmem := hkeys.2 ⟨mem_keys hg, .inr hw, .inr hat⟩
      obtain ⟨⟨k', w⟩, hkv, rfl⟩ := List.mem_map.1 hmem
      obtain ⟨x, hx, -, hxv⟩ := C64_values ser ord hord [] d' o _ _ _ h' _ w hkv
      have hv' := hxv hw
      dsimp only at hx hg ⊢
      rw [hg] at hx
      cases hx
      subst hv'
      simpa using a1 _ _ (AList.get?_of_mem hrw hkv)

/-- An empty mapping is not the default that is asked for: the default of the class is. -/
theorem C359_empty_violated (ser : Val → Val) (ord : List Str → List Str) (o : ObjDecl) (own : List (Str × Val))
    (nd : Bool) : default ser ord o own nd [] = default ser ord o own nd own := by
  cases own <;> rfl

/-- A class of a number `n`, 3 by default, a text `s`, "x" by default, and a number `m`. -/
def point (negated : Option (List Str)) : ObjDecl :=
  ⟨[(['n'], .int 3), (['s'], .str ['x']), (['m'], .none)], fun _ => false, false, [], [], negated⟩

example : default id id (point none) [] false [] = .ok [(['n'], .int 3), (['s'], .str ['x'])]
    ∧ default id id (point none) [(['m'], .int 1)] false [(['s'], .str ['y']), (['n'], .none)]
      = .ok [(['s'], .str ['y']), (['n'], .int 3)]
    ∧ Declared (point none) ['n'] (.int 3) ∧ Plain (.int 3) ∧ AList.WF (point none).props := by
  refine ⟨by decide +kernel, by decide +kernel, ⟨by decide +kernel, rfl⟩, trivial, by unfold AList.WF; decide +kernel⟩

example : default id id (point (some [])) [] true [] = .ok []
    ∧ default id id (point none) [] true [] = .error .attributeError
    ∧ default id id (point (some [])) [] true [(['s'], .str ['y']), (['m'], .int 1)]
      = .ok [(['s'], .str ['y']), (['m'], .int 1)]
    ∧ objDeserialize id (point (some [])) [(['s'], .str ['y']), (['m'], .int 1)]
      = .ok [(['s'], .str ['y']), (['m'], .int 1), (['n'], .int 3)]
    ∧ default id id (point (some [])) [(['m'], .int 1)] true [] = .ok [(['m'], .int 1)] := by decide +kernel

end Verif.ObjDefault
