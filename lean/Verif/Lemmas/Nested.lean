import Verif.Spec.Nested
/-
The loops over items.
-/
namespace Verif.Nested
open Spec

theorem each_ok {β : Type} (f : Nat → Val → Res β) : (l : List Val) → (i : Nat) → (l' : List β) →
    each f i l = .ok l' → l'.length = l.length ∧ ∀ j x, l[j]? = some x → ∃ y, l'[j]? = some y ∧ f (i + j) x = .ok y
  | [], i, l', h => by
    rw [each] at h; cases h
    exact ⟨rfl, fun j x hx => by simp at hx⟩
  | v :: vs, i, l', h => by
    rw [each] at h
    split at h
    · exact absurd h (by simp)
    · next w hw =>
      split at h
      · exact absurd h (by simp)
      · next ws hws =>
        cases h
        obtain ⟨h1, h2⟩ := each_ok f vs (i + 1) ws hws
        refine ⟨by simp [h1], fun j x hx => ?_⟩
        cases j with
        | zero =>
          simp only [List.getElem?_cons_zero, Option.some.injEq] at hx
          subst hx
          exact ⟨w, by simp, hw⟩
        | succ j =>
          simp only [List.getElem?_cons_succ] at hx
          obtain ⟨y, h3, h4⟩ := h2 j x hx
          exact ⟨y, by simpa using h3, by rw [← h4, Nat.add_assoc, Nat.add_comm 1 j]⟩

theorem each_total {β : Type} (f : Nat → Val → Res β) : (l : List Val) → (i : Nat) →
    (∀ j x, l[j]? = some x → ∃ y, f (i + j) x = .ok y) → ∃ l', each f i l = .ok l'
  | [], i, _ => ⟨[], rfl⟩
  | v :: vs, i, h => by
    obtain ⟨w, hw⟩ := h 0 v rfl
    obtain ⟨ws, hws⟩ := each_total f vs (i + 1) fun j x hx => by
      obtain ⟨y, hy⟩ := h (j + 1) x (by simpa using hx)
      exact ⟨y, by rw [← hy, Nat.add_assoc, Nat.add_comm 1 j]⟩
    refine ⟨w :: ws, ?_⟩
    rw [Nat.add_zero] at hw
    rw [each, hw]
    simp only
    rw [hws]

theorem each_self (f : Nat → Val → Res Val) : (l : List Val) → (i : Nat) →
    (∀ j x, l[j]? = some x → f (i + j) x = .ok x) → each f i l = .ok l
  | [], i, _ => rfl
  | v :: vs, i, h => by
    have h1 := h 0 v rfl
    have h2 := each_self f vs (i + 1) fun j x hx => by
      rw [Nat.add_assoc, Nat.add_comm 1 j]; exact h (j + 1) x (by simpa using hx)
    rw [Nat.add_zero] at h1
    rw [each, h1]
    simp only
    rw [h2]

theorem eachKey_ok {β : Type} (f : Str → Val → Res β) : (d : List (Str × Val)) → (d' : List (Str × β)) →
    eachKey f d = .ok d' → AList.keys d' = AList.keys d
      ∧ ∀ k x, AList.get? d k = some x → ∃ y, AList.get? d' k = some y ∧ f k x = .ok y
  | [], d', h => by
    rw [eachKey] at h; cases h
    exact ⟨rfl, fun k x hx => by simp [AList.get?] at hx⟩
  | (k, v) :: d, d', h => by
    rw [eachKey] at h
    split at h
    · exact absurd h (by simp)
    · next w hw =>
      split at h
      · exact absurd h (by simp)
      · next ws hws =>
        cases h
        obtain ⟨h1, h2⟩ := eachKey_ok f d ws hws
        refine ⟨by simp [AList.keys_cons, h1], fun k' x hx => ?_⟩
        rw [AList.get?] at hx
        rw [AList.get?]
        by_cases hk : k = k'
        · subst hk
          simp only [if_true, Option.some.injEq] at hx
          subst hx
          exact ⟨w, by simp, hw⟩
        · rw [if_neg hk] at hx
          rw [if_neg hk]
          exact h2 k' x hx

theorem eachKey_total {β : Type} (f : Str → Val → Res β) : (d : List (Str × Val)) →
    (∀ k x, (k, x) ∈ d → ∃ y, f k x = .ok y) → ∃ d', eachKey f d = .ok d'
  | [], _ => ⟨[], rfl⟩
  | (k, v) :: d, h => by
    obtain ⟨w, hw⟩ := h k v (by simp)
    obtain ⟨ws, hws⟩ := eachKey_total f d fun k x hx => h k x (by simp [hx])
    exact ⟨(k, w) :: ws, by rw [eachKey, hw]; simp only; rw [hws]⟩

theorem eachKey_self (f : Str → Val → Res Val) : (d : List (Str × Val)) →
    (∀ k x, (k, x) ∈ d → f k x = .ok x) → eachKey f d = .ok d
  | [], _ => rfl
  | (k, v) :: d, h => by
    rw [eachKey, h k v (by simp)]
    simp only
    rw [eachKey_self f d fun k x hx => h k x (by simp [hx])]

theorem order_eq {ord : List Str → List Str} (ho : SetOrder ord) (required keys : List Str) :
    order ord required keys = required ++ ord (keys.filter fun k => k ∉ required) := by
  have ht : Topo.topologicalSort ([] : AList Str (List Str)) = ([], none) := by rfl
  have h0 : ord [] = [] := List.Perm.eq_nil (ho.1 [])
  simp only [order, Topo.callOrder, ht, Topo.levels]
  split
  · next h =>
    have : keys.filter (fun k => k ∉ required) = [] := by simpa using h
    rw [this, h0, List.append_nil]
  · simp

theorem mem_order {ord : List Str → List Str} (ho : SetOrder ord) (required keys : List Str) (k : Str) :
    k ∈ order ord required keys ↔ k ∈ required ∨ k ∈ keys := by
  rw [order_eq ho, List.mem_append, (ho.1 _).mem_iff, List.mem_filter]
  by_cases h : k ∈ required <;> simp [h]

/-- Ordering the keys of an ordered mapping again changes nothing. -/
theorem order_again {ord : List Str → List Str} (ho : SetOrder ord) (required keys : List Str) :
    order ord required (order ord required keys) = order ord required keys := by
  rw [order_eq ho, order_eq ho, List.filter_append]
  have h1 : required.filter (fun k => k ∉ required) = [] := by
    rw [List.filter_eq_nil_iff]; intro a ha; simp [ha]
  have h2 : (ord (keys.filter fun k => k ∉ required)).filter (fun k => k ∉ required)
      = ord (keys.filter fun k => k ∉ required) := by
    rw [List.filter_eq_self]
    intro a ha
    rw [(ho.1 _).mem_iff, List.mem_filter] at ha
    exact ha.2
  rw [h1, h2, List.nil_append]
  congr 1
  exact ho.2 _ _ (ho.1 _)

theorem get?_tabulate (g : Str → Val) : (ks : List Str) → (k : Str) →
    AList.get? (ks.map fun k => (k, g k)) k = if k ∈ ks then some (g k) else none
  | [], k => by simp [AList.get?]
  | a :: ks, k => by
    rw [List.map_cons, AList.get?, get?_tabulate g ks k]
    by_cases h : a = k
    · subst h; simp
    · rw [if_neg h]
      have : k ≠ a := fun e => h e.symm
      simp [this]

theorem keys_tabulate (g : Str → Val) (ks : List Str) : AList.keys (ks.map fun k => (k, g k)) = ks := by
  rw [AList.keys, List.map_map]
  simp [Function.comp_def]

theorem beyond_iff (n : Option Nat) (i : Nat) : beyond n i = true ↔ ¬ Typed n i := by
  cases n with
  | none => simp [beyond, Typed]
  | some n => simp [beyond, Typed]

theorem assign_ok (f : Str → Val → Res Val) : (ks : List Str) → (d d' : List (Str × Val)) →
    assign f ks d = .ok d' → (∀ k, k ∈ AList.keys d' ↔ k ∈ AList.keys d)
      ∧ ∀ k y, AList.get? d' k = some y → (∃ x, f k x = .ok y) ∨ (k ∉ ks ∧ AList.get? d k = some y)
  | [], d, d', h => by
    rw [assign] at h; cases h
    exact ⟨fun _ => .rfl, fun k y hy => .inr ⟨by simp, hy⟩⟩
  | a :: ks, d, d', h => by
    rw [assign] at h
    cases hg : AList.get? d a with
    | none =>
      rw [hg] at h
      obtain ⟨h1, h2⟩ := assign_ok f ks d d' h
      refine ⟨h1, fun k y hy => ?_⟩
      rcases h2 k y hy with h3 | ⟨h3, h4⟩
      · exact .inl h3
      · have hne : k ≠ a := by rintro rfl; rw [hg] at h4; exact absurd h4 (by simp)
        exact .inr ⟨by simp [hne, h3], h4⟩
    | some v =>
      rw [hg] at h
      simp only at h
      split at h
      · exact absurd h (by simp)
      · next w hw =>
        obtain ⟨h1, h2⟩ := assign_ok f ks _ d' h
        refine ⟨fun k => ?_, fun k y hy => ?_⟩
        · rw [h1 k, AList.mem_keys_set]
          have ha : a ∈ AList.keys d := AList.get?_isSome.mp (by rw [hg]; rfl)
          constructor
          · rintro (rfl | hk)
            · exact ha
            · exact hk
          · exact fun hk => .inr hk
        · rcases h2 k y hy with h3 | ⟨h3, h4⟩
          · exact .inl h3
          · by_cases hka : k = a
            · subst hka
              rw [AList.get?_set_self] at h4
              cases h4
              exact .inl ⟨v, hw⟩
            · rw [AList.get?_set_ne _ _ (fun e => hka e.symm)] at h4
              exact .inr ⟨by simp [hka, h3], h4⟩

end Verif.Nested

namespace Verif.Nested
open Spec

/-! An order of sets: sorted by code points. For the examples. -/

/-- Lexicographic order. -/
def le : Str → Str → Bool
  | [], _ => true
  | _ :: _, [] => false
  | a :: as, b :: bs => if a.toNat < b.toNat then true else if b.toNat < a.toNat then false else le as bs

theorem le_total : (x y : Str) → le x y = true ∨ le y x = true
  | [], _ => .inl rfl
  | _ :: _, [] => .inr rfl
  | a :: as, b :: bs => by
    have := le_total as bs
    simp only [le]
    by_cases h1 : a.toNat < b.toNat
    · left; simp [h1]
    · by_cases h2 : b.toNat < a.toNat
      · right; simp [h2]
      · simpa [h1, h2] using this

theorem le_antisymm : (x y : Str) → le x y = true → le y x = true → x = y
  | [], [], _, _ => rfl
  | [], _ :: _, _, h => by simp [le] at h
  | _ :: _, [], h, _ => by simp [le] at h
  | a :: as, b :: bs, h, h' => by
    simp only [le] at h h'
    by_cases h1 : a.toNat < b.toNat
    · have : ¬ b.toNat < a.toNat := by omega
      simp [h1, this] at h'
    · by_cases h2 : b.toNat < a.toNat
      · simp [h1, h2] at h
      · simp only [h1, h2, if_false] at h h'
        have hab : a = b := Char.toNat_inj.mp (by omega)
        rw [hab, le_antisymm as bs h h']

theorem le_trans : (x y z : Str) → le x y = true → le y z = true → le x z = true
  | [], _, _, _, _ => rfl
  | _ :: _, [], _, h, _ => by simp [le] at h
  | _ :: _, _ :: _, [], _, h => by simp [le] at h
  | a :: as, b :: bs, c :: cs, h, h' => by
    simp only [le] at h h' ⊢
    by_cases h1 : a.toNat < b.toNat
    · by_cases h2 : b.toNat < c.toNat
      · rw [if_pos (by omega)]
      · by_cases h3 : c.toNat < b.toNat
        · simp [h2, h3] at h'
        · rw [if_pos (by omega)]
    · by_cases h4 : b.toNat < a.toNat
      · simp [h1, h4] at h
      · simp only [h1, h4, if_false] at h
        by_cases h2 : b.toNat < c.toNat
        · rw [if_pos (by omega)]
        · by_cases h3 : c.toNat < b.toNat
          · simp [h2, h3] at h'
          · simp only [h2, h3, if_false] at h'
            rw [if_neg (by omega), if_neg (by omega)]
            exact le_trans as bs cs h h'

/-- Insertion. -/
def ins (x : Str) : List Str → List Str
  | [] => [x]
  | y :: ys => if le x y then x :: y :: ys else y :: ins x ys

/-- Insertion sort. -/
def sort (l : List Str) : List Str := l.foldr ins []

theorem ins_perm (x : Str) : (l : List Str) → (ins x l).Perm (x :: l)
  | [] => .refl _
  | y :: ys => by
    rw [ins]
    split
    · exact .refl _
    · exact ((ins_perm x ys).cons y).trans (.swap x y ys)

theorem ins_comm (x y : Str) : (l : List Str) → ins x (ins y l) = ins y (ins x l)
  | [] => by
    simp only [ins]
    by_cases h : le x y = true
    · by_cases h' : le y x = true
      · rw [le_antisymm x y h h']
      · simp [h, h']
    · have h' := (le_total x y).resolve_left h
      simp [h, h']
  | z :: l => by
    have ih := ins_comm x y l
    by_cases hxz : le x z = true <;> by_cases hyz : le y z = true
    · by_cases h : le x y = true
      · by_cases h' : le y x = true
        · rw [le_antisymm x y h h']
        · simp [ins, hxz, hyz, h, h']
      · have h' := (le_total x y).resolve_left h
        simp [ins, hxz, hyz, h, h']
    · have h : le y x ≠ true := fun h => hyz (le_trans y x z h hxz)
      simp [ins, hxz, hyz, h]
    · have h : le x y ≠ true := fun h => hxz (le_trans x y z h hyz)
      simp [ins, hxz, hyz, h]
    · simp [ins, hxz, hyz, ih]

theorem sort_order : SetOrder sort := by
  refine ⟨fun l => ?_, fun l l' h => ?_⟩
  · induction l with
    | nil => exact .refl _
    | cons a l ih => exact (ins_perm a (sort l)).trans (ih.cons a)
  · induction h with
    | nil => rfl
    | cons x _ ih => simp only [sort, List.foldr_cons] at ih ⊢; rw [ih]
    | swap x y l => simp only [sort, List.foldr_cons]; exact ins_comm y x _
    | trans _ _ ih ih' => exact ih.trans ih'

theorem get?_filter_key (p : Str → Bool) (d : List (Str × Val)) (k : Str) :
    AList.get? (d.filter fun q => p q.1) k = if p k then AList.get? d k else none := by
  induction d with
  | nil => simp [AList.get?]
  | cons q d ih =>
    rw [List.filter_cons]
    by_cases hq : p q.1 = true
    · rw [if_pos hq, AList.get?, AList.get?, ih]
      by_cases hk : q.1 = k
      · simp [hk, hk ▸ hq]
      · simp [hk]
    · rw [if_neg hq, ih, AList.get?]
      by_cases hk : q.1 = k
      · simp [hk, hk ▸ hq]
      · simp [hk]

theorem get?_filled {o : Obj} (hD : AList.WF o.defaults) (hP : o.props.Nodup) (d : List (Str × Val)) (k : Str) :
    AList.get? (filled o d) k = ((AList.get? d k).or (AList.get? o.defaults k)).or
      (if k ∈ o.props then some .none else none) := by
  have h1 : AList.get? (AList.update d (o.defaults.filter fun p => !AList.contains d p.1)) k
      = (AList.get? d k).or (AList.get? o.defaults k) := by
    rw [AList.get?_update _ (by
      unfold AList.WF AList.keys at *; exact hD.sublist (List.filter_sublist.map _)),
      get?_filter_key (fun k => !AList.contains d k)]
    cases h : AList.get? d k <;> simp [AList.contains, h]
  simp only [filled]
  generalize hd : AList.update d (o.defaults.filter fun p => !AList.contains d p.1) = d1 at h1 ⊢
  rw [AList.get?_update _ (by
    unfold AList.WF
    rw [keys_tabulate (fun _ => Val.none)]
    exact hP.sublist List.filter_sublist), get?_tabulate (fun _ => Val.none), ← h1]
  cases h : AList.get? d1 k <;> simp [AList.contains, h]

end Verif.Nested
