import Verif.Lemmas.Writing
import Verif.Props.Nested
/-
C345: what a collection type writes, it reads back.
-/
namespace Verif.Writing
open Nested Spec Nested.Spec

theorem eq_of_get {d d' : List (Str × Val)} (hd : (AList.keys d).Nodup) (hk : AList.keys d' = AList.keys d)
    (h : ∀ k x, AList.get? d k = some x → AList.get? d' k = some x) : d' = d := by
  have hs : ∀ k y, AList.get? d' k = some y → ∃ x, AList.get? d k = some x := by
    intro k y hy
    rw [← Option.isSome_iff_exists, AList.get?_isSome, ← hk, ← AList.get?_isSome, hy]; rfl
  rw [← pick_self hd (fun k => (AList.get? d k).getD .none) (fun k x hx => by rw [hx]; rfl)]
  conv => lhs; rw [← pick_self (d := d') (by rw [hk]; exact hd) (fun k => (AList.get? d k).getD .none) (fun k y hy => by
    obtain ⟨x, hx⟩ := hs k y hy
    have := h k x hx
    rw [hy] at this
    cases this
    rw [hx]; rfl)]
  rw [hk]

/-- Inside arrays, where values are only converted. -/
theorem kept_back {ord : List Str → List Str} (ho : SetOrder ord) (ser : Leaf → Val → Res Val) (nd : Bool) (t : Ty) :
    Single t → ∀ v, Kept ord ser nd t v → (v = .none → serialize ord ser nd t v = .ok .none)
      ∧ (v ≠ .none → (∃ s, serialize ord ser nd t v = .ok s ∧ s ≠ .none ∧ convert ord t s = .ok v)
        ∧ convert ord t v = .ok v) := by
  induction t with
  | leaf l =>
    intro _ v h
    rcases h with ⟨rfl, h⟩ | ⟨h1, h2, s, h3, h4, h5⟩
    · exact ⟨fun _ => h, fun h => absurd rfl h⟩
    · exact ⟨fun h => absurd h h1, fun _ => ⟨⟨s, h3, h4, h5⟩, h2⟩⟩
  | arr a n item ih =>
    rintro ⟨rfl, hS⟩ v ⟨vs, rfl, hvs⟩
    refine ⟨fun h => absurd h (by simp), fun _ => ?_⟩
    have hex : ∀ j x, vs[j]? = some x → ∃ y, (if beyond none (0 + j) || (nd && decide (x = Val.none)) then Except.ok Val.none
        else serialize ord ser nd (item (0 + j)) x) = .ok y := by
      intro j x hx
      simp only [Nat.zero_add, beyond, Bool.false_or]
      by_cases hc : nd = true ∧ x = .none
      · exact ⟨.none, by simp [hc.1, hc.2]⟩
      · rw [if_neg (by simpa using hc)]
        rcases hvs j x hx with h | h
        · exact absurd h hc
        · by_cases h0 : x = .none
          · exact ⟨_, ((ih j (hS j) x h).1 h0)⟩
          · obtain ⟨⟨s, hs, -⟩, -⟩ := (ih j (hS j) x h).2 h0
            exact ⟨s, hs⟩
    obtain ⟨ws, hws⟩ := each_total (fun i x => if beyond none i || (nd && decide (x = Val.none)) then Except.ok Val.none
      else serialize ord ser nd (item i) x) vs 0 hex
    constructor
    · refine ⟨.list ws, ?_, by simp, ?_⟩
      · simp only [serialize]
        rw [hws]
      · simp only [convert, toList]
        rw [each_back _ _ vs 0 ws hws]
        intro j x y hx hy
        simp only [Nat.zero_add, beyond, Bool.false_or] at hy ⊢
        by_cases hc : nd = true ∧ x = .none
        · rw [if_pos (by simpa using hc)] at hy
          cases hy
          simp [hc.2]
        · rw [if_neg (by simpa using hc)] at hy
          rcases hvs j x hx with h | h
          · exact absurd h hc
          · by_cases h0 : x = .none
            · rw [(ih j (hS j) x h).1 h0] at hy
              cases hy
              simp [h0]
            · obtain ⟨⟨s, hs, hs0, hs1⟩, -⟩ := (ih j (hS j) x h).2 h0
              rw [hs] at hy
              cases hy
              rw [if_neg (by simpa using hs0), hs1]
    · simp only [convert, toList]
      rw [each_self]
      intro j x hx
      simp only [Nat.zero_add, beyond]
      by_cases h0 : x = .none
      · simp [h0]
      · rw [if_neg (by simpa using h0)]
        rcases hvs j x hx with h | h
        · exact absurd h.2 h0
        · exact ((ih j (hS j) x h).2 h0).2
  | obj o field ih =>
    rintro hS v ⟨d, rfl, hO, hd⟩
    refine ⟨fun h => absurd h (by simp), fun _ => ?_⟩
    obtain ⟨s, hs, hsn, hsk, hsv⟩ := serialize_obj ho ser nd o field d hO.2 fun k x hx => ⟨(hd k x hx).1, (hd k x hx).2.1, by
      intro hc
      rcases (hd k x hx).2.2 with h | ⟨-, h⟩
      · exact absurd ⟨h.1, h.2.1⟩ hc
      · by_cases h0 : x = .none
        · exact ⟨_, (ih k (hS k) x h).1 h0⟩
        · obtain ⟨⟨s, hs, -⟩, -⟩ := (ih k (hS k) x h).2 h0
          exact ⟨s, hs⟩⟩
    constructor
    · refine ⟨.dict s, hs, by simp, ?_⟩
      apply convert_obj ho o field d s hO hsn
      · intro k hk
        obtain ⟨x, hx, -⟩ := (hsk k).mp hk
        rw [← AList.get?_isSome, hx]; rfl
      · intro k x hx hn
        apply hn
        rw [hsk]
        refine ⟨x, hx, ?_⟩
        rcases (hd k x hx).2.2 with h | ⟨h, -⟩
        · exact .inl h.2.2
        · cases nd with
          | false => exact .inr (.inl rfl)
          | true => exact .inr (.inr fun h0 => h ⟨rfl, h0⟩)
      · exact fun k x hx => (hd k x hx).1
      · intro k x z hx hz
        rcases hsv k x z hx hz with ⟨-, h1, h2⟩ | ⟨hc, hz'⟩
        · exact .inl ⟨h2, h1⟩
        · rcases (hd k x hx).2.2 with h | ⟨-, h⟩
          · exact absurd ⟨h.1, h.2.1⟩ hc
          · by_cases h0 : x = .none
            · rw [(ih k (hS k) x h).1 h0] at hz'
              cases hz'
              exact .inl ⟨rfl, h0⟩
            · obtain ⟨⟨s, hs, hs0, hs1⟩, -⟩ := (ih k (hS k) x h).2 h0
              rw [hs] at hz'
              cases hz'
              exact .inr ⟨hs0, hs1⟩
    · apply convert_obj ho o field d d hO hO.2 (fun k hk => hk)
      · intro k x hx hn
        exact hn (by rw [← AList.get?_isSome, hx]; rfl)
      · exact fun k x hx => (hd k x hx).1
      · intro k x z hx hz
        rw [hx] at hz
        cases hz
        rcases (hd k x hx).2.2 with h | ⟨-, h⟩
        · exact .inl ⟨h.2.1, h.2.1⟩
        · by_cases h0 : x = .none
          · exact .inl ⟨h0, h0⟩
          · exact .inr ⟨h0, ((ih k (hS k) x h).2 h0).2⟩

theorem settled_back {ord : List Str → List Str} (ho : SetOrder ord) (ser : Leaf → Val → Res Val) (nd : Bool) (t : Ty) :
    Single t → ∀ v, Settled ord ser nd t v →
      (∃ s, serialize ord ser nd t v = .ok s ∧ deserialize ord t s = .ok v ∧ (v = .none → s = .none))
      ∧ (v ≠ .none → convert ord t v = .ok v) := by
  induction t with
  | leaf l =>
    intro _ v h
    rcases h with ⟨rfl, h1, h2⟩ | ⟨⟨h1, h2, s, h3, h4, h5⟩, h6⟩
    · exact ⟨⟨.none, h2, by simp [deserialize, evaluate, h1], fun _ => rfl⟩, fun h => absurd rfl h⟩
    · refine ⟨⟨s, h3, ?_, fun h => absurd h h1⟩, fun _ => h2⟩
      simp [deserialize, evaluate, h4, h5, checked, validate, h6]
  | arr a n item ih =>
    rintro hS v ⟨vs, rfl, he, hmin, hvs, hval⟩
    have hk : Kept ord ser nd (.arr a n item) (.list vs) := ⟨vs, rfl, hvs⟩
    obtain ⟨⟨s, hs, -, hc⟩, hself⟩ := (kept_back ho ser nd (.arr a n item) hS _ hk).2 (by simp)
    refine ⟨⟨s, hs, ?_, fun h => absurd h (by simp)⟩, fun _ => hself⟩
    have : ∃ ws, s = .list ws ∧ ws.length = vs.length := by
      simp only [serialize] at hs
      split at hs
      · exact absurd hs (by simp)
      next ws hws =>
        cases hs
        exact ⟨ws, rfl, (each_ok _ _ _ _ hws).1⟩
    obtain ⟨ws, rfl, hl⟩ := this
    have hL : listed a (.list ws) = ws := by
      unfold listed
      cases ws with
      | nil =>
        have h0 : vs = [] := List.length_eq_zero_iff.mp hl.symm
        subst h0
        have := Nat.le_zero.mp hmin
        simp [Val.truthy, he rfl, this]
      | cons w ws =>
        have : a.minItems - (ws.length + 1) = 0 := by simp at hl; omega
        simp [Val.truthy, this]
    simp only [deserialize, hL, evaluateWhole, hc, checked, hval]
  | obj o field ih =>
    rintro hS v ⟨d, rfl, hD0, hO, hDn, hPn, hall, hd, hval⟩
    have hget : ∀ k, (∃ x, AList.get? d k = some x) ↔ k ∈ AList.keys d := by
      intro k; rw [← Option.isSome_iff_exists, AList.get?_isSome]
    have hself : convert ord (.obj o field) (.dict d) = .ok (.dict d) := by
      apply convert_obj ho o field d d hO hO.2 (fun k hk => hk)
      · intro k x hx hn
        exact hn ((hget k).mp ⟨x, hx⟩)
      · exact fun k x hx => (hd k x hx).1
      · intro k x z hx hz
        rw [hx] at hz
        cases hz
        by_cases h0 : x = .none
        · exact .inl ⟨h0, h0⟩
        · exact .inr ⟨h0, (ih k (hS k) x (hd k x hx).2.2.1).2 h0⟩
    refine ⟨?_, fun _ => hself⟩
    obtain ⟨s, hs, hsn, hsk, hsv⟩ := serialize_obj ho ser nd o field d hO.2 fun k x hx => ⟨(hd k x hx).1, (hd k x hx).2.1, by
      intro _
      obtain ⟨⟨s, hs, -⟩, -⟩ := ih k (hS k) x (hd k x hx).2.2.1
      exact ⟨s, hs⟩⟩
    refine ⟨.dict s, hs, ?_, fun h => absurd h (by simp)⟩
    have hT : toDict (if (Val.dict s).truthy = true then .dict s else .dict o.dflt) = some s := by
      rw [hD0]
      cases s <;> simp [Val.truthy, toDict]
    have hF := get?_filled (o := o) hDn hPn s
    have hFn : (AList.keys (filled o s)).Nodup := by
      unfold filled
      exact AList.wf_update (AList.wf_update hsn _) _
    have hgs : ∀ k, k ∉ AList.keys s → AList.get? s k = none := fun k hk => AList.get?_eq_none.mpr hk
    have hsz : ∀ k, k ∈ AList.keys s → ∃ z, AList.get? s k = some z := by
      intro k hk; rwa [← Option.isSome_iff_exists, AList.get?_isSome]
    have hnone : ∀ k x, AList.get? d k = some x → k ∉ AList.keys s →
        x = .none ∧ k ∈ o.props ∧ AList.get? o.defaults k = none := by
      intro k x hx hk
      rw [hsk] at hk
      have hr : k ∉ o.required := fun h => hk ⟨x, hx, .inl h⟩
      have hnd : nd = true := by
        cases nd with
        | true => rfl
        | false => exact absurd ⟨x, hx, .inr (.inl rfl)⟩ hk
      have h0 : x = .none := Classical.byContradiction fun h => hk ⟨x, hx, .inr (.inr h)⟩
      exact ⟨h0, (hd k x hx).2.2.2 hnd h0 hr⟩
    have hFm : ∀ k, k ∈ AList.keys (filled o s) ↔ k ∈ AList.keys d := by
      intro k
      rw [← AList.get?_isSome, hF]
      by_cases hk : k ∈ AList.keys s
      · obtain ⟨z, hz⟩ := hsz k hk
        obtain ⟨x, hx, -⟩ := (hsk k).mp hk
        rw [hz]
        simp only [Option.some_or, Option.isSome_some, true_iff]
        exact (hget k).mp ⟨x, hx⟩
      · rw [hgs k hk]
        by_cases hkd : k ∈ AList.keys d
        · obtain ⟨x, hx⟩ := (hget k).mpr hkd
          obtain ⟨-, hp, hq⟩ := hnone k x hx hk
          simp [hp, hq, hkd]
        · have h1 : k ∉ o.props := fun h => hkd (hall k (.inl h))
          have h2 : AList.get? o.defaults k = none := AList.get?_eq_none.mpr fun h => hkd (hall k (.inr h))
          simp [h1, h2, hkd]
    have hFv : ∀ k x z, AList.get? d k = some x → AList.get? (filled o s) k = some z →
        deserialize ord (field k) z = .ok x := by
      intro k x z hx hz
      obtain ⟨⟨y, hy, hy', hy0⟩, -⟩ := ih k (hS k) x (hd k x hx).2.2.1
      rw [hF] at hz
      by_cases hk : k ∈ AList.keys s
      · obtain ⟨z', hz'⟩ := hsz k hk
        rw [hz'] at hz
        simp only [Option.some_or] at hz
        cases hz
        rcases hsv k x z hx hz' with ⟨-, h1, h2⟩ | ⟨-, h⟩
        · rw [h2, ← hy0 h1]; exact hy'
        · rw [hy] at h; cases h; exact hy'
      · obtain ⟨h0, hp, hq⟩ := hnone k x hx hk
        rw [hgs k hk, hq] at hz
        simp [hp] at hz
        rw [← hz, ← hy0 h0]; exact hy'
    have hreq : ∀ k ∈ o.required, k ∈ AList.keys d := by
      intro k hk
      have h1 := hO.1
      rw [AList.keys, h1]
      exact List.mem_append.mpr (.inl hk)
    have ha1 : (o.required.any fun k => !AList.contains (filled o s) k) = false := by
      rw [List.any_eq_false]
      intro k hk
      have := (hFm k).mpr (hreq k hk)
      rw [← AList.contains_iff] at this
      simp [this]
    have ha2 : ((filled o s).any fun p => !o.known p.1) = false := by
      rw [List.any_eq_false]
      intro p hp
      have : p.1 ∈ AList.keys d := (hFm p.1).mp (List.mem_map.2 ⟨p, hp, rfl⟩)
      obtain ⟨x, hx⟩ := (hget _).mpr this
      simp [(hd _ _ hx).1]
    simp only [deserialize, hT, ha1, ha2]
    rw [order_of ho hO _ hFn hFm]
    generalize hFe : filled o s = F at *
    have htab : ∀ k, AList.get? ((AList.keys d).map fun k => (k, (AList.get? F k).getD .none)) k
        = AList.get? F k := by
      intro k
      rw [get?_tabulate fun k => (AList.get? F k).getD .none]
      by_cases hk : k ∈ AList.keys d
      · rw [if_pos hk]
        have := (hFm k).mpr hk
        rw [← AList.get?_isSome, Option.isSome_iff_exists] at this
        obtain ⟨z, hz⟩ := this
        rw [hz]; rfl
      · rw [if_neg hk]
        exact (AList.get?_eq_none.mpr fun h => hk ((hFm k).mp h)).symm
    obtain ⟨d', hd'⟩ := eachKey_total (fun k x => deserialize ord (field k) x)
      ((AList.keys d).map fun k => (k, (AList.get? F k).getD .none)) (by
      intro k z hkz
      have hz := AList.get?_of_mem (by
        unfold AList.WF; rw [keys_tabulate fun k => (AList.get? F k).getD .none]; exact hO.2) hkz
      rw [htab] at hz
      have hkd : k ∈ AList.keys d := by
        rw [← hFm, ← AList.get?_isSome, hz]; rfl
      obtain ⟨x, hx⟩ := (hget k).mpr hkd
      exact ⟨x, hFv k x z hx hz⟩)
    obtain ⟨e1, e2⟩ := eachKey_ok _ _ _ hd'
    rw [keys_tabulate fun k => (AList.get? F k).getD .none] at e1
    have hdd : d' = d := by
      apply eq_of_get hO.2 e1
      intro k x hx
      have := (hFm k).mpr ((hget k).mp ⟨x, hx⟩)
      rw [← AList.get?_isSome, Option.isSome_iff_exists] at this
      obtain ⟨z, hz⟩ := this
      obtain ⟨y, hy, hy'⟩ := e2 k z (by rw [htab]; exact hz)
      rw [hFv k x z hx hz] at hy'
      cases hy'
      exact hy
    subst hdd
    rw [hd']
    simp only [Bool.false_eq_true, if_false, evaluateWhole, hself, checked, hval]

/-- What is written of a value that reading gives, at any depth of types with one type for the items of each array, is
read as the value: in the same order, with the same missing values. Partial: see below for what is lost. -/
theorem C345_roundtrip_partial {ord : List Str → List Str} (ho : SetOrder ord) (ser : Leaf → Val → Res Val) (nd : Bool)
    (t : Ty) (hS : Single t) (v : Val) (h : Settled ord ser nd t v) :
    ∃ s, serialize ord ser nd t v = .ok s ∧ deserialize ord t s = .ok v := by
  obtain ⟨⟨s, h1, h2, -⟩, -⟩ := settled_back ho ser nd t hS v h
  exact ⟨s, h1, h2⟩

/-- Whole numbers written as text. -/
def text (_ : Leaf) : Val → Res Val
  | .int i => .ok (.str (toString i).toList)
  | v => .ok v

/-- A whole number `a` and an array `b` of whole numbers. -/
def points : Ty := .obj ab fun k => if k = "a".toList then .leaf (int) else ints

example : Settled sort text false points (.dict [("a".toList, .int 1), ("b".toList, .list [.int 2, .none])]) := by
  refine ⟨_, rfl, rfl, ⟨by decide +kernel, by decide +kernel⟩, by decide +kernel, by decide +kernel, by
    intro k; simp [ab], ?_, by decide +kernel⟩
  intro k x hx
  have := AList.mem_of_get? hx
  simp only [List.mem_cons, Prod.mk.injEq, List.not_mem_nil, or_false] at this
  rcases this with ⟨rfl, rfl⟩ | ⟨rfl, rfl⟩
  · exact ⟨by decide +kernel, by simp, .inr ⟨⟨by simp, by decide +kernel, .str "1".toList, by decide +kernel, by simp,
      by decide +kernel⟩, by decide +kernel⟩, by simp⟩
  · refine ⟨by decide +kernel, by simp, ⟨_, rfl, by simp, by decide +kernel, ?_, by decide +kernel⟩, by simp⟩
    intro i x hx
    right
    match i with
    | 0 => cases hx; exact .inr ⟨by simp, by decide +kernel, .str "2".toList, by decide +kernel, by simp, by decide +kernel⟩
    | 1 => cases hx; exact .inl ⟨rfl, rfl⟩
    | _ + 2 => simp at hx

example : serialize sort text false points (.dict [("a".toList, .int 1), ("b".toList, .list [.int 2, .none])])
      = .ok (.dict [("a".toList, .str "1".toList), ("b".toList, .list [.str "2".toList, .none])])
    ∧ deserialize sort points (.dict [("a".toList, .str "1".toList), ("b".toList, .list [.str "2".toList, .none])])
      = .ok (.dict [("a".toList, .int 1), ("b".toList, .list [.int 2, .none])]) := by decide +kernel

example : serialize sort text true (.obj ab fun _ => .leaf (int)) (.dict [("a".toList, .int 1), ("b".toList, .none)])
      = .ok (.dict [("a".toList, .str "1".toList)])
    ∧ deserialize sort (.obj ab fun _ => .leaf (int)) (.dict [("a".toList, .str "1".toList)])
      = .ok (.dict [("a".toList, .int 1), ("b".toList, .none)]) := by decide +kernel

theorem named_error (o : Obj) (field : Str → Ty) : (ks : List Str) → (∀ k ∈ ks, o.known k = true) →
    (∃ k ∈ ks, hasDefault (field k) = true) → named o field ks = .error .attributeError
  | [], _, ⟨_, h, _⟩ => by simp at h
  | k :: ks, h1, h2 => by
    rw [named, if_neg (by simp [h1 k (by simp)])]
    by_cases hk : hasDefault (field k) = true
    · rw [if_pos hk]
    · rw [if_neg hk]
      obtain ⟨k', hk', h⟩ := h2
      rcases List.mem_cons.mp hk' with rfl | hk'
      · exact absurd h hk
      · exact named_error o field ks (fun j hj => h1 j (by simp [hj])) ⟨k', hk', h⟩

/-- Without defaults, which is the default, no object with a value for a property that has a default is written: all
properties that are arrays are such. -/
theorem C345_default_violated {ord : List Str → List Str} (ho : SetOrder ord) (ser : Leaf → Val → Res Val) (o : Obj)
    (field : Str → Ty) (d : List (Str × Val)) (hn : (d.map Prod.fst).Nodup) (hk : ∀ k ∈ d.map Prod.fst, o.known k = true)
    (k : Str) (x : Val) (hx : AList.get? d k = some x) (h0 : x ≠ .none ∨ k ∈ o.required) (hd : ¬ NoDefault (field k)) :
    serialize ord ser true (.obj o field) (.dict d) = .error .attributeError := by
  have h1 : hasDefault (field k) = true := by
    cases hf : field k with
    | leaf l => rw [hf] at hd; simpa [NoDefault, hasDefault] using hd
    | arr => rfl
    | obj o' f => rw [hf] at hd; simpa [NoDefault, hasDefault] using hd
  have hm := mem_candidates ho true o d
  simp only [serialize, printOrder, if_true]
  rw [named_error o field _ (fun j hj => ?_) ⟨k, (hm k).mpr ⟨x, hx, ?_⟩, h1⟩]
  · rcases h0 with h | h
    · exact .inr (.inr h)
    · exact .inl h
  · obtain ⟨y, hy, -⟩ := (hm j).mp hj
    exact hk j (AList.get?_isSome.mp (by rw [hy]; rfl))

example : ¬ NoDefault ints
    ∧ serialize sort text true points (.dict [("a".toList, .int 1), ("b".toList, .list [.int 2])])
      = .error .attributeError := ⟨id, by decide +kernel⟩

/-- An item for which there is no type is written as None, and read as None. -/
theorem C345_beyond_violated (ord : List Str → List Str) (ser : Leaf → Val → Res Val) (nd : Bool) (a : Arr) (n : Nat)
    (item : Nat → Ty) (vs : List Val) (i : Nat) (x : Val) (hi : n ≤ i) (hx : vs[i]? = some x) (h0 : x ≠ .none) (s : Val)
    (hs : serialize ord ser nd (.arr a (some n) item) (.list vs) = .ok s) :
    (∃ ws, s = .list ws ∧ ws[i]? = some .none) ∧ deserialize ord (.arr a (some n) item) s ≠ .ok (.list vs) := by
  simp only [serialize] at hs
  split at hs
  · exact absurd hs (by simp)
  next ws hws =>
    cases hs
    obtain ⟨y, hy, hf⟩ := (each_ok _ _ _ _ hws).2 i x hx
    rw [if_pos (by simp [beyond, hi])] at hf
    cases hf
    refine ⟨⟨ws, rfl, hy⟩, ?_⟩
    intro hc
    have hl : (listed a (.list ws))[i]? = some .none := by
      have ht : (Val.list ws).truthy = true := by
        cases ws with
        | nil => simp at hy
        | cons w ws => rfl
      have hlt : i < ws.length := by
        rw [List.getElem?_eq_some_iff] at hy; exact hy.1
      simp only [listed, ht, if_true]
      rw [List.getElem?_append_left hlt]; exact hy
    simp only [deserialize, evaluateWhole, convert, toList] at hc
    split at hc
    · exact absurd hc (by simp)
    next w hw =>
      split at hw
      · exact absurd hw (by simp)
      next l' hl' =>
        cases hw
        obtain ⟨y', hy', hg⟩ := (each_ok _ _ _ _ hl').2 i _ hl
        rw [if_pos (.inl rfl)] at hg
        cases hg
        unfold checked at hc
        split at hc
        · exact absurd hc (by simp)
        · cases hc
          rw [hx] at hy'
          cases hy'
          exact h0 rfl

example : serialize sort text true (.arr anyArr (some 1) fun _ => .leaf (int)) (.list [.int 1, .int 2])
      = .ok (.list [.str "1".toList, .none])
    ∧ deserialize sort (.arr anyArr (some 1) fun _ => .leaf (int)) (.list [.str "1".toList, .none])
      = .ok (.list [.int 1, .none])
    ∧ deserialize sort (.arr anyArr (some 1) fun _ => .leaf (int)) (.list [.int 1, .int 2])
      = .ok (.list [.int 1, .int 2]) := by decide +kernel

/-- A None of an object inside an array is not written without defaults, and not filled in when read. -/
theorem C345_inside_violated :
    deserialize sort (.arr anyArr none fun _ => .obj ab fun _ => .leaf (int))
        (.list [.dict [("a".toList, .int 1), ("b".toList, .none)]])
      = .ok (.list [.dict [("a".toList, .int 1), ("b".toList, .none)]])
    ∧ serialize sort text true (.arr anyArr none fun _ => .obj ab fun _ => .leaf (int))
        (.list [.dict [("a".toList, .int 1), ("b".toList, .none)]])
      = .ok (.list [.dict [("a".toList, .str "1".toList)]])
    ∧ deserialize sort (.arr anyArr none fun _ => .obj ab fun _ => .leaf (int)) (.list [.dict [("a".toList, .str "1".toList)]])
      = .ok (.list [.dict [("a".toList, .int 1)]]) := by decide +kernel

/-- An empty array of a type with a default is read as the default. -/
theorem C345_empty_violated (ord : List Str → List Str) (ser : Leaf → Val → Res Val) (nd : Bool) (a : Arr) (n : Option Nat)
    (item : Nat → Ty) (h : a.dflt ≠ []) :
    serialize ord ser nd (.arr a n item) (.list []) = .ok (.list [])
    ∧ deserialize ord (.arr a n item) (.list []) ≠ .ok (.list []) := by
  refine ⟨rfl, fun hc => ?_⟩
  simp only [deserialize, evaluateWhole, convert, toList] at hc
  split at hc
  · exact absurd hc (by simp)
  next w hw =>
    split at hw
    · exact absurd hw (by simp)
    next l' hl' =>
      cases hw
      have hlen := (each_ok _ _ _ _ hl').1
      unfold checked at hc
      split at hc
      · exact absurd hc (by simp)
      · cases hc
        have : listed a (.list []) = [] := List.length_eq_zero_iff.mp hlen.symm
        simp [listed, Val.truthy] at this
        exact h this.1

example : deserialize sort (.arr { anyArr with dflt := [.int 7] } none fun _ => .leaf (int)) (.list [])
    = .ok (.list [.int 7]) := by decide +kernel

end Verif.Writing
