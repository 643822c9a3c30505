import Verif.Model.Writing
import Verif.Spec.Writing
import Verif.Lemmas.Nested
/-
Lemmas on written collections.
-/
namespace Verif.Writing
open Nested Spec Nested.Spec

theorem each_back (f g : Nat → Val → Res Val) : (l : List Val) → (i : Nat) → (l' : List Val) → each f i l = .ok l' →
    (∀ j x y, l[j]? = some x → f (i + j) x = .ok y → g (i + j) y = .ok x) → each g i l' = .ok l
  | [], i, l', h, _ => by rw [each] at h; cases h; rfl
  | v :: vs, i, l', h, hb => by
    rw [each] at h
    split at h
    · exact absurd h (by simp)
    next w hw =>
    split at h
    · exact absurd h (by simp)
    next ws hws =>
    cases h
    rw [each, show g i w = .ok v from hb 0 v w rfl hw]
    simp only
    rw [each_back f g vs (i + 1) ws hws fun j x y hx hy => by
      have := hb (j + 1) x y (by simpa using hx) (by rw [show i + (j + 1) = i + 1 + j by omega]; exact hy)
      rwa [show i + (j + 1) = i + 1 + j by omega] at this]

theorem pick_self {d : List (Str × Val)} (h : (AList.keys d).Nodup) (g : Str → Val)
    (hg : ∀ k x, AList.get? d k = some x → g k = x) : ((AList.keys d).map fun k => (k, g k)) = d := by
  induction d with
  | nil => rfl
  | cons p d ih =>
    simp only [AList.keys, List.map_cons, List.nodup_cons] at h
    simp only [AList.keys, List.map_cons, List.cons.injEq]
    constructor
    · have := hg p.1 p.2 (by simp [AList.get?])
      rw [this]
    · refine ih h.2 fun k x hx => hg k x ?_
      rw [AList.get?, if_neg, hx]
      rintro rfl
      exact h.1 (by
        have := AList.mem_of_get? hx
        exact List.mem_map.2 ⟨_, this, rfl⟩)

theorem get?_pick (d : List (Str × Val)) (ks : List Str) (hk : ∀ k ∈ ks, k ∈ AList.keys d) (k : Str) :
    AList.get? (pick d ks) k = if k ∈ ks then AList.get? d k else none := by
  rw [pick, get?_tabulate fun k => (AList.get? d k).getD .none]
  split
  · next h =>
    have := hk k h
    rw [← AList.get?_isSome, Option.isSome_iff_exists] at this
    obtain ⟨x, hx⟩ := this
    rw [hx]; rfl
  · rfl

theorem keys_pick (d : List (Str × Val)) (ks : List Str) : AList.keys (pick d ks) = ks := by
  rw [pick, keys_tabulate fun k => (AList.get? d k).getD .none]

theorem mem_candidates {ord : List Str → List Str} (ho : SetOrder ord) (nd : Bool) (o : Obj) (d : List (Str × Val))
    (k : Str) : k ∈ candidates ord nd o d
      ↔ ∃ x, AList.get? d k = some x ∧ (k ∈ o.required ∨ nd = false ∨ x ≠ .none) := by
  have hs : (∃ x, AList.get? d k = some x) ↔ k ∈ AList.keys d := by
    rw [← Option.isSome_iff_exists, AList.get?_isSome]
  rw [candidates, List.mem_filter, List.mem_append, (ho.1 _).mem_iff, (ho.1 _).mem_iff, List.mem_filter, List.mem_filter]
  constructor
  · rintro ⟨h1, h2⟩
    have : k ∈ AList.keys d := h1.elim (·.1) (·.1)
    obtain ⟨x, hx⟩ := hs.mpr this
    refine ⟨x, hx, ?_⟩
    rw [hx] at h2
    simpa [or_assoc] using h2
  · rintro ⟨x, hx, h⟩
    have := hs.mp ⟨x, hx⟩
    refine ⟨?_, by rw [hx]; simpa [or_assoc] using h⟩
    by_cases hr : k ∈ o.required
    · exact .inl ⟨this, by simpa using hr⟩
    · exact .inr ⟨this, by simpa using hr⟩

theorem nodup_candidates {ord : List Str → List Str} (ho : SetOrder ord) (nd : Bool) (o : Obj) (d : List (Str × Val))
    (h : (AList.keys d).Nodup) : (candidates ord nd o d).Nodup := by
  unfold candidates
  refine List.Nodup.sublist List.filter_sublist ?_
  rw [List.nodup_append]
  refine ⟨(ho.1 _).nodup_iff.mpr (h.sublist List.filter_sublist), (ho.1 _).nodup_iff.mpr (h.sublist List.filter_sublist), ?_⟩
  intro a ha b hb
  rw [(ho.1 _).mem_iff, List.mem_filter] at ha hb
  rintro rfl
  simp_all

theorem named_ok (o : Obj) (field : Str → Ty) : (ks : List Str) →
    (∀ k ∈ ks, o.known k = true ∧ hasDefault (field k) = false) → named o field ks = .ok ()
  | [], _ => rfl
  | k :: ks, h => by
    rw [named, (h k (by simp)).1, (h k (by simp)).2]
    simpa using named_ok o field ks fun k hk => h k (by simp [hk])

theorem hasDefault_of {t : Ty} (h : NoDefault t) : hasDefault t = false := by
  cases t with
  | leaf l => exact h
  | arr => exact h.elim
  | obj o f => simp [hasDefault, show o.dflt = [] from h]

theorem printOrder_ok {ord : List Str → List Str} (ho : SetOrder ord) (nd : Bool) (o : Obj) (field : Str → Ty)
    (d : List (Str × Val)) (h : ∀ k x, AList.get? d k = some x → o.known k = true ∧ (nd = true → NoDefault (field k))) :
    printOrder ord nd o field d = .ok (candidates ord nd o d) := by
  unfold printOrder
  cases hnd : nd with
  | false => rfl
  | true =>
    subst hnd
    rw [named_ok]
    · rfl
    · intro k hk
      obtain ⟨x, hx, -⟩ := (mem_candidates ho _ o d k).mp hk
      exact ⟨(h k x hx).1, hasDefault_of ((h k x hx).2 rfl)⟩

/-- What an object whose items can be written is written as. -/
theorem serialize_obj {ord : List Str → List Str} (ho : SetOrder ord) (ser : Leaf → Val → Res Val) (nd : Bool) (o : Obj)
    (field : Str → Ty) (d : List (Str × Val)) (hd : (AList.keys d).Nodup)
    (h : ∀ k x, AList.get? d k = some x → o.known k = true ∧ (nd = true → NoDefault (field k))
      ∧ (¬ (nd = true ∧ x = .none) → ∃ y, serialize ord ser nd (field k) x = .ok y)) :
    ∃ s, serialize ord ser nd (.obj o field) (.dict d) = .ok (.dict s) ∧ (AList.keys s).Nodup
      ∧ (∀ k, k ∈ AList.keys s ↔ ∃ x, AList.get? d k = some x ∧ (k ∈ o.required ∨ nd = false ∨ x ≠ .none))
      ∧ ∀ k x z, AList.get? d k = some x → AList.get? s k = some z → (nd = true ∧ x = .none ∧ z = .none)
        ∨ (¬ (nd = true ∧ x = .none) ∧ serialize ord ser nd (field k) x = .ok z) := by
  have hm := mem_candidates ho nd o d
  have hk1 : ∀ k ∈ candidates ord nd o d, k ∈ AList.keys d := by
    intro k hk
    obtain ⟨x, hx, -⟩ := (hm k).mp hk
    rw [← AList.get?_isSome, hx]; rfl
  have hp1 := printOrder_ok ho nd o field d fun k x hx => ⟨(h k x hx).1, (h k x hx).2.1⟩
  have hg1 := get?_pick d (candidates ord nd o d) hk1
  have hp2 := printOrder_ok ho nd o field (pick d (candidates ord nd o d)) fun k x hx => by
    rw [hg1] at hx
    split at hx
    · exact ⟨(h k x hx).1, (h k x hx).2.1⟩
    · exact absurd hx (by simp)
  have hm2 : ∀ k, k ∈ candidates ord nd o (pick d (candidates ord nd o d)) ↔ k ∈ candidates ord nd o d := by
    intro k
    rw [mem_candidates ho, hg1]
    constructor
    · rintro ⟨x, hx, -⟩
      split at hx
      · assumption
      · exact absurd hx (by simp)
    · intro hk
      rw [if_pos hk]
      exact (hm k).mp hk
  have hn2 := nodup_candidates ho nd o (pick d (candidates ord nd o d)) (by
    rw [keys_pick]; exact nodup_candidates ho nd o d hd)
  have hg2 : ∀ k, AList.get? (pick (pick d (candidates ord nd o d)) (candidates ord nd o (pick d (candidates ord nd o d)))) k
      = if k ∈ candidates ord nd o d then AList.get? d k else none := by
    intro k
    rw [get?_pick _ _ (fun k hk => by rw [keys_pick]; exact (hm2 k).mp hk), hg1]
    by_cases hk : k ∈ candidates ord nd o d
    · rw [if_pos ((hm2 k).mpr hk)]
    · rw [if_neg fun h => hk ((hm2 k).mp h), if_neg hk]
  have hkn : (candidates ord nd o (pick d (candidates ord nd o d))).any (fun k => !o.known k) = false := by
    rw [List.any_eq_false]
    intro k hk
    obtain ⟨x, hx, -⟩ := (hm k).mp ((hm2 k).mp hk)
    simp [(h k x hx).1]
  have hkeys := keys_pick (pick d (candidates ord nd o d)) (candidates ord nd o (pick d (candidates ord nd o d)))
  simp only [serialize, hp1, hp2, hkn]
  generalize hP : pick (pick d (candidates ord nd o d)) (candidates ord nd o (pick d (candidates ord nd o d))) = P at *
  obtain ⟨s, hs⟩ := eachKey_total (fun k x => if nd && decide (x = .none) then Except.ok Val.none
      else serialize ord ser nd (field k) x) P (by
    intro k x hkx
    have hx : AList.get? P k = some x := AList.get?_of_mem (by unfold AList.WF; rw [hkeys]; exact hn2) hkx
    rw [hg2] at hx
    split at hx
    · by_cases hc : nd = true ∧ x = .none
      · exact ⟨.none, by simp [hc.1, hc.2]⟩
      · obtain ⟨y, hy⟩ := (h k x hx).2.2 hc
        refine ⟨y, ?_⟩
        rw [if_neg (by simpa using hc), hy]
    · exact absurd hx (by simp))
  rw [hs]
  obtain ⟨hsk, hsv⟩ := eachKey_ok _ _ _ hs
  refine ⟨s, by simp, by rw [hsk, hkeys]; exact hn2, fun k => ?_, fun k x z hx hz => ?_⟩
  · rw [hsk, hkeys, hm2, hm]
  · have hkc : k ∈ candidates ord nd o d := by
      rw [← hm2, ← hkeys, ← hsk, ← AList.get?_isSome, hz]; rfl
    obtain ⟨y, hy, hy'⟩ := hsv k x (by rw [hg2, if_pos hkc, hx])
    rw [hz] at hy
    cases hy
    by_cases hc : nd = true ∧ x = .none
    · rw [if_pos (by simpa using hc)] at hy'
      cases hy'
      exact .inl ⟨hc.1, hc.2, rfl⟩
    · rw [if_neg (by simpa using hc)] at hy'
      exact .inr ⟨hc, hy'⟩

/-- A mapping in order is converted to itself. -/
theorem order_of {ord : List Str → List Str} (ho : SetOrder ord) {o : Obj} {d : List (Str × Val)} (h : Ordered ord o d)
    (ks : List Str) (hk : ks.Nodup) (hm : ∀ k, k ∈ ks ↔ k ∈ AList.keys d) : order ord o.required ks = AList.keys d := by
  have h1 := h.1
  rw [order_eq ho]
  conv => rhs; rw [AList.keys, h1]
  congr 1
  apply ho.2
  apply List.Perm.filter
  exact (List.perm_ext_iff_of_nodup hk h.2).mpr hm

theorem convert_obj {ord : List Str → List Str} (ho : SetOrder ord) (o : Obj) (field : Str → Ty) (d s : List (Str × Val))
    (h : Ordered ord o d) (hs : (AList.keys s).Nodup)
    (hm : ∀ k, k ∈ AList.keys s → k ∈ AList.keys d) (hr : ∀ k x, AList.get? d k = some x → k ∉ AList.keys s → False)
    (hk : ∀ k x, AList.get? d k = some x → o.known k = true)
    (hc : ∀ k x z, AList.get? d k = some x → AList.get? s k = some z → (z = .none ∧ x = .none)
      ∨ (z ≠ .none ∧ convert ord (field k) z = .ok x)) :
    convert ord (.obj o field) (.dict s) = .ok (.dict d) := by
  have hsd : ∀ k, k ∈ AList.keys s ↔ k ∈ AList.keys d := by
    intro k
    refine ⟨hm k, fun hkd => Classical.byContradiction fun hn => ?_⟩
    rw [← AList.get?_isSome, Option.isSome_iff_exists] at hkd
    obtain ⟨x, hx⟩ := hkd
    exact hr k x hx hn
  have hget : ∀ k z, AList.get? s k = some z → ∃ x, AList.get? d k = some x := by
    intro k z hz
    rw [← Option.isSome_iff_exists, AList.get?_isSome, ← hsd, ← AList.get?_isSome, hz]; rfl
  have hany : (s.any fun p => !o.known p.1) = false := by
    rw [List.any_eq_false]
    intro p hp
    obtain ⟨x, hx⟩ := hget p.1 p.2 (AList.get?_of_mem hs hp)
    simp [hk _ _ hx]
  simp only [convert, toDict, hany]
  obtain ⟨d', hd'⟩ := eachKey_total (fun k x => if x = .none then Except.ok x else convert ord (field k) x) s (by
    intro k z hkz
    have hz := AList.get?_of_mem hs hkz
    obtain ⟨x, hx⟩ := hget k z hz
    rcases hc k x z hx hz with ⟨rfl, rfl⟩ | ⟨h1, h2⟩
    · exact ⟨.none, by simp⟩
    · exact ⟨x, by rw [if_neg h1, h2]⟩)
  obtain ⟨e1, e2⟩ := eachKey_ok _ _ _ hd'
  rw [hd']
  simp only [Bool.false_eq_true, if_false]
  rw [order_of ho h _ (by rw [e1]; exact hs) (by intro k; rw [e1, hsd])]
  rw [pick_self h.2]
  intro k x hx
  have hks : k ∈ AList.keys s := by rw [hsd, ← AList.get?_isSome, hx]; rfl
  rw [← AList.get?_isSome, Option.isSome_iff_exists] at hks
  obtain ⟨z, hz⟩ := hks
  obtain ⟨y, hy, hy'⟩ := e2 k z hz
  rw [hy]
  rcases hc k x z hx hz with ⟨rfl, rfl⟩ | ⟨h1, h2⟩
  · rw [if_pos rfl] at hy'; cases hy'; rfl
  · rw [if_neg h1, h2] at hy'; cases hy'; rfl

end Verif.Writing
