import Verif.Spec.Compare
import Verif.Spec.Query
/-
C296-C297: equality and order of documents, as the criteria of a query see them.
-/
namespace Verif.Query
open AList (get? get?_isSome get?_eq_none mem_of_get? get?_of_mem)

/-! ### C296: equality -/

private theorem numOf_det {v : Val} {n m : Int} (h : NumOf v n) (h' : NumOf v m) : n = m := by
  cases h <;> cases h' <;> rfl

private theorem num_iff {v : Val} {n : Int} : num v = some n ↔ NumOf v n := by
  constructor
  · intro h
    cases v with
    | bool b => cases b <;> simp [num] at h <;> subst h <;> constructor
    | int i => simp [num] at h; subst h; constructor
    | _ => simp [num] at h
  · intro h; cases h <;> rfl

private theorem Equal.refl : ∀ v, Equal v v := by
  apply Val.induct
  · exact .none
  · intro b; cases b
    · exact .num .false .false
    · exact .num .true .true
  · intro i; exact .num .int .int
  · intro s; exact .str
  · intro l ih
    refine .list rfl (fun k x y hx hy => ?_)
    rw [hx] at hy; cases hy
    exact ih _ (List.mem_of_getElem? hx)
  · intro d ih
    refine .dict (fun k => Iff.rfl) (fun k x y hx hy => ?_)
    rw [hx] at hy; cases hy
    exact ih _ (mem_of_get? hx)

private theorem Equal.symm {v w : Val} (h : Equal v w) : Equal w v := by
  induction h with
  | none => exact .none
  | num a b => exact .num b a
  | str => exact .str
  | list hl _ ih => exact .list hl.symm (fun k x y hx hy => ih k y x hy hx)
  | dict hk _ ih => exact .dict (fun k => (hk k).symm) (fun k x y hx hy => ih k y x hy hx)

private theorem Equal.trans {u v w : Val} (h : Equal u v) (h' : Equal v w) : Equal u w := by
  induction h generalizing w with
  | none => exact h'
  | num a b =>
    cases h' with
    | num c d => have := numOf_det b c; subst this; exact .num a d
    | none => cases b
    | str => cases b
    | list _ _ => cases b
    | dict _ _ => cases b
  | str => exact h'
  | @list l m hl _ ih =>
    cases h' with
    | num c d => cases c
    | @list _ n hm hs =>
      refine .list (hl.trans hm) (fun k x z hx hz => ?_)
      have hk : k < m.length := by rw [← hl]; exact (List.getElem?_eq_some_iff.1 hx).1
      exact ih k x m[k] hx (List.getElem?_eq_getElem hk) (hs k _ z (List.getElem?_eq_getElem hk) hz)
  | @dict d e hk _ ih =>
    cases h' with
    | num c d => cases c
    | @dict _ f hk' hs =>
      refine .dict (fun k => (hk k).trans (hk' k)) (fun k x z hx hz => ?_)
      have : (get? e k).isSome := by
        rw [get?_isSome]; exact (hk k).1 (get?_isSome.1 (by rw [hx]; rfl))
      obtain ⟨y, hy⟩ := Option.isSome_iff_exists.1 this
      exact ih k x y hx hy (hs k y z hy hz)

private theorem pyEqList_iff : ∀ (l m : List Val), pyEqList l m = true ↔
    l.length = m.length ∧ ∀ (k : Nat) (x y : Val), l[k]? = some x → m[k]? = some y → pyEq x y = true
  | [], [] => by simp [pyEqList]
  | [], _ :: _ => by simp [pyEqList]
  | _ :: _, [] => by simp [pyEqList]
  | a :: l, b :: m => by
    rw [pyEqList, Bool.and_eq_true, pyEqList_iff l m]
    constructor
    · rintro ⟨h, hl, hs⟩
      refine ⟨by simp [hl], fun k x y hx hy => ?_⟩
      cases k with
      | zero => simp at hx hy; subst hx; subst hy; exact h
      | succ k => exact hs k x y (by simpa using hx) (by simpa using hy)
    · rintro ⟨hl, hs⟩
      exact ⟨hs 0 a b rfl rfl, by simpa using hl, fun k x y hx hy => hs (k + 1) x y (by simpa using hx) (by simpa using hy)⟩

private theorem pyEqDict_iff : ∀ (d e : List (Str × Val)), pyEqDict d e = true ↔
    ∀ kv ∈ d, ∃ w, get? e kv.1 = some w ∧ pyEq kv.2 w = true
  | [], e => by simp [pyEqDict]
  | (k, v) :: d, e => by
    rw [pyEqDict, Bool.and_eq_true, pyEqDict_iff d e]
    simp only [List.mem_cons, forall_eq_or_imp]
    apply and_congr_left; intro _
    cases h : get? e k with
    | none => simp
    | some w => simp

private theorem nodup_length_le {α : Type} [DecidableEq α] : ∀ {l m : List α}, l.Nodup → (∀ x ∈ l, x ∈ m) → l.length ≤ m.length
  | [], m, _, _ => by simp
  | a :: l, m, h, hs => by
    have h' := List.nodup_cons.1 h
    have ha := hs a (by simp)
    have := nodup_length_le (l := l) (m := m.erase a) h'.2 (by
      intro x hx
      have : x ≠ a := fun e => h'.1 (e ▸ hx)
      exact (List.mem_erase_of_ne this).2 (hs x (by simp [hx])))
    rw [List.length_erase_of_mem ha] at this
    have := List.length_pos_of_mem ha
    simp only [List.length_cons]; omega

private theorem nodup_onto {α : Type} [DecidableEq α] {l m : List α} (h : l.Nodup) (hs : ∀ x ∈ l, x ∈ m) (hl : l.length = m.length)
    {x : α} (hx : x ∈ m) : x ∈ l := by
  refine Classical.byContradiction (fun hn => ?_)
  have := nodup_length_le (l := l) (m := m.erase x) h (fun y hy =>
    (List.mem_erase_of_ne (fun e : y = x => hn (e ▸ hy))).2 (hs y hy))
  rw [List.length_erase_of_mem hx] at this
  have := List.length_pos_of_mem hx
  omega

private theorem keys_eq (d : List (Str × Val)) : AList.keys d = d.map Prod.fst := rfl

/-- C296: two documents are equal exactly if they are the same number or text, lists with equal items in the same order, or
dictionaries with the same keys and equal values, in any order. -/
theorem C296_equal (v : Val) : ∀ (w : Val), WellFormed v → WellFormed w → (pyEq v w = true ↔ Equal v w) := by
  refine Val.induct (P := fun v => ∀ (w : Val), WellFormed v → WellFormed w → (pyEq v w = true ↔ Equal v w))
    ?_ ?_ ?_ ?_ ?_ ?_ v
  · intro w _ _
    constructor
    · intro h; cases w <;> simp [pyEq] at h; exact .none
    · intro h
      cases h with
      | none => simp [pyEq]
      | num a _ => cases a
  · intro b w _ _
    have hb : NumOf (.bool b) (if b then 1 else 0) := by cases b <;> constructor
    simp only [pyEq, beq_iff_eq]
    rw [num_iff]
    constructor
    · exact fun h => .num hb h
    · intro h
      cases h with
      | num a c => rw [numOf_det hb a]; exact c
  · intro i w _ _
    simp only [pyEq, beq_iff_eq]
    rw [num_iff]
    constructor
    · exact fun h => .num .int h
    · intro h
      cases h with
      | num a c => rw [numOf_det (v := .int i) .int a]; exact c
  · intro s w _ _
    constructor
    · intro h; cases w <;> simp [pyEq] at h; subst h; exact .str
    · intro h
      cases h with
      | str => simp [pyEq]
      | num a _ => cases a
  · intro l ih w hv hw
    cases hv with
    | list hl =>
    constructor
    · intro h
      cases hw with
      | @list m hm =>
        rw [pyEq, pyEqList_iff] at h
        exact .list h.1 (fun k x y hx hy => (ih x (List.mem_of_getElem? hx) y (hl _ (List.mem_of_getElem? hx))
          (hm _ (List.mem_of_getElem? hy))).1 (h.2 k x y hx hy))
      | _ => simp [pyEq] at h
    · intro h
      cases h with
      | num a _ => cases a
      | @list _ m hn hs =>
        cases hw with
        | list hm =>
        rw [pyEq, pyEqList_iff]
        exact ⟨hn, fun k x y hx hy => (ih x (List.mem_of_getElem? hx) y (hl _ (List.mem_of_getElem? hx))
          (hm _ (List.mem_of_getElem? hy))).2 (hs k x y hx hy)⟩
  · intro d ih w hv hw
    cases hv with
    | dict hd hl =>
    constructor
    · intro h
      cases hw with
      | @dict e he hm =>
        rw [pyEq, Bool.and_eq_true, pyEqDict_iff, beq_iff_eq] at h
        have hsub : ∀ k ∈ d.map Prod.fst, k ∈ e.map Prod.fst := by
          intro k hk
          obtain ⟨kv, hkv, rfl⟩ := List.mem_map.1 hk
          obtain ⟨w, hw, _⟩ := h.2 kv hkv
          exact get?_isSome.1 (by rw [hw]; rfl)
        refine .dict (fun k => ⟨hsub k, fun hk => nodup_onto hd hsub (by simpa using h.1) hk⟩) (fun k x y hx hy => ?_)
        obtain ⟨w, hw, hp⟩ := h.2 (k, x) (mem_of_get? hx)
        rw [hy] at hw; cases hw
        exact (ih (k, x) (mem_of_get? hx) y (hl _ (mem_of_get? hx)) (hm _ (mem_of_get? hy))).1 hp
      | _ => simp [pyEq] at h
    · intro h
      cases h with
      | num a _ => cases a
      | @dict _ e hk hs =>
        cases hw with
        | dict he hm =>
        rw [pyEq, Bool.and_eq_true, pyEqDict_iff, beq_iff_eq]
        constructor
        · have h1 := nodup_length_le hd (fun x hx => (hk x).1 hx)
          have h2 := nodup_length_le he (fun x hx => (hk x).2 hx)
          simp only [List.length_map] at h1 h2
          omega
        · intro kv hkv
          have : (get? e kv.1).isSome := by
            rw [get?_isSome]; exact (hk kv.1).1 (List.mem_map_of_mem hkv)
          obtain ⟨y, hy⟩ := Option.isSome_iff_exists.1 this
          exact ⟨y, hy, (ih kv hkv y (hl _ hkv) (hm _ (mem_of_get? hy))).2
            (hs kv.1 kv.2 y (get?_of_mem hd hkv) hy)⟩

/-- C296: equality of documents is reflexive, symmetric and transitive. -/
theorem C296_equivalence (u v w : Val) (hu : WellFormed u) (hv : WellFormed v) (hw : WellFormed w) :
    pyEq u u = true ∧ pyEq u v = pyEq v u ∧ (pyEq u v = true → pyEq v w = true → pyEq u w = true) := by
  refine ⟨(C296_equal u u hu hu).2 (.refl u), ?_, ?_⟩
  · rw [Bool.eq_iff_iff, C296_equal u v hu hv, C296_equal v u hv hu]
    exact ⟨.symm, .symm⟩
  · rw [C296_equal u v hu hv, C296_equal v w hv hw, C296_equal u w hu hw]
    exact .trans

private def docA : Val := .dict [("a".toList, .int 1), ("b".toList, .list [.str "x".toList, .bool false])]
private def docB : Val := .dict [("b".toList, .list [.str "x".toList, .int 0]), ("a".toList, .bool true)]
private theorem docA_wf : WellFormed docA := .dict (by decide) (by
  intro x hx; simp at hx; rcases hx with rfl | rfl
  · exact .int
  · exact .list (by intro x hx; simp at hx; rcases hx with rfl | rfl <;> constructor))
private theorem docB_wf : WellFormed docB := .dict (by decide) (by
  intro x hx; simp at hx; rcases hx with rfl | rfl
  · exact .list (by intro x hx; simp at hx; rcases hx with rfl | rfl <;> constructor)
  · exact .bool)

example : WellFormed docA ∧ WellFormed docB ∧ pyEq docA docB = true ∧
    pyEq (.list [.int 1, .int 2]) (.list [.int 2, .int 1]) = false ∧ pyEq (.dict [("a".toList, .int 1)]) docA = false ∧
    pyEq docA (.dict [("a".toList, .int 1)]) = false := by
  refine ⟨docA_wf, docB_wf, by decide +kernel⟩

/-- C296: a criterion without operator asks that the attribute exists and is equal to the value; with `not`, that it
exists and is different. -/
theorem C296_criterion (rx : Rx) (obj value : Val) (path : List Str) (neg : Bool) (hw : WellFormed value)
    (ho : ∀ v, Has obj path v → WellFormed v) :
    (Satisfies rx obj ⟨path, [], false, value⟩ ↔ ∃ v, Has obj path v ∧ Equal v value) ∧
    (Satisfies rx obj ⟨path, [], true, value⟩ ↔ ∃ v, Has obj path v ∧ ¬ Equal v value) := by
  have hop : ∀ v, foldOps rx ["eq".toList] v value = .ok (.bool (pyEq v value)) := fun v => rfl
  constructor
  all_goals
    unfold Satisfies
    constructor
  · rintro ⟨v, hv, r, hr, ht⟩
    refine ⟨v, hv, (C296_equal v value (ho v hv) hw).1 ?_⟩
    rw [if_pos rfl, hop] at hr; cases hr
    exact ht
  · rintro ⟨v, hv, he⟩
    exact ⟨v, hv, _, hop v, (C296_equal v value (ho v hv) hw).2 he⟩
  · rintro ⟨v, hv, r, hr, ht⟩
    refine ⟨v, hv, fun he => ?_⟩
    rw [if_pos rfl, hop] at hr; cases hr
    rw [(C296_equal v value (ho v hv) hw).2 he] at ht
    cases ht
  · rintro ⟨v, hv, he⟩
    refine ⟨v, hv, _, hop v, ?_⟩
    cases h : pyEq v value with
    | false => rfl
    | true => exact absurd ((C296_equal v value (ho v hv) hw).1 h) he

/-! ### C297: order -/

private theorem before_str_inv {v w : Val} (h : Before v w) {s t : Str} (hv : v = .str s) (hw : w = .str t) :
    (∃ p s' t', ∃ c d : Char, c.toNat < d.toNat ∧ s = p ++ c :: s' ∧ t = p ++ d :: t') ∨ ∃ c s', t = s ++ c :: s' := by
  cases h with
  | num a => subst hv; cases a
  | char h => cases hv; cases hw; exact .inl ⟨_, _, _, _, _, h, rfl, rfl⟩
  | text => cases hv; cases hw; exact .inr ⟨_, _, rfl⟩
  | item _ _ => cases hv
  | list _ => cases hv

private theorem before_str_cons {c d : Char} {s t : Str} :
    Before (.str (c :: s)) (.str (d :: t)) ↔ c.toNat < d.toNat ∨ (c = d ∧ Before (.str s) (.str t)) := by
  constructor
  · intro h
    rcases before_str_inv h rfl rfl with ⟨p, s', t', x, y, hlt, he, he'⟩ | ⟨x, s', he⟩
    · cases p with
      | nil => simp at he he'; rw [he.1, he'.1]; exact .inl hlt
      | cons z p => simp at he he'; rw [he.2, he'.2]; exact .inr ⟨he.1.trans he'.1.symm, .char hlt⟩
    · simp at he; rw [he.2]; exact .inr ⟨he.1.symm, .text⟩
  · rintro (h | ⟨rfl, h⟩)
    · exact .char (p := []) h
    · rcases before_str_inv h rfl rfl with ⟨p, s', t', x, y, hlt, rfl, rfl⟩ | ⟨x, s', rfl⟩
      · exact .char (p := c :: p) hlt
      · exact .text (p := c :: s)

private theorem not_before_nil {s : Str} : ¬ Before (.str s) (.str []) := by
  intro h
  rcases before_str_inv h rfl rfl with ⟨p, s', t', x, y, hlt, he, he'⟩ | ⟨x, s', he⟩
  · simp at he'
  · simp at he

private theorem before_str : ∀ (s t : Str), Before (.str s) (.str t) ↔ strCmp s t = .lt
  | [], [] => by simp [strCmp, not_before_nil]
  | _ :: _, [] => by simp [strCmp, not_before_nil]
  | [], d :: t => by simp only [strCmp, iff_true]; exact .text (p := [])
  | c :: s, d :: t => by
    rw [before_str_cons, before_str s t, strCmp]
    by_cases hcd : c = d
    · subst hcd; simp
    · rw [if_neg hcd]
      by_cases hlt : c.toNat < d.toNat
      · simp [hlt]
      · simp [hlt, hcd]

private theorem strCmp_swap : ∀ (s t : Str), strCmp s t = (strCmp t s).swap
  | [], [] => rfl
  | [], _ :: _ => rfl
  | _ :: _, [] => rfl
  | c :: s, d :: t => by
    rw [strCmp, strCmp]
    by_cases h : c = d
    · subst h; simp [strCmp_swap s t]
    · rw [if_neg h, if_neg (Ne.symm h)]
      have hne : c.toNat ≠ d.toNat := fun e => h (Char.toNat_inj.1 e)
      by_cases hlt : c.toNat < d.toNat
      · rw [if_pos hlt, if_neg (by omega)]; rfl
      · rw [if_neg hlt, if_pos (by omega)]; rfl

private theorem strCmp_eq : ∀ (s t : Str), strCmp s t = .eq ↔ s = t
  | [], [] => by simp [strCmp]
  | [], _ :: _ => by simp [strCmp]
  | _ :: _, [] => by simp [strCmp]
  | c :: s, d :: t => by
    rw [strCmp]
    by_cases h : c = d
    · subst h; simp [strCmp_eq s t]
    · rw [if_neg h]; split <;> simp [h]

private theorem strCmp_trans : ∀ (s t u : Str), strCmp s t = .lt → strCmp t u = .lt → strCmp s u = .lt
  | _, t, [], _, h => by cases t <;> simp [strCmp] at h
  | s, [], _ :: _, h, _ => by cases s <;> simp [strCmp] at h
  | [], _ :: _, _ :: _, _, _ => by simp [strCmp]
  | c :: s, d :: t, e :: u, h, h' => by
    rw [strCmp] at h h' ⊢
    by_cases h1 : c = d
    · subst h1
      rw [if_pos rfl] at h
      by_cases h2 : c = e
      · subst h2; rw [if_pos rfl] at h' ⊢; exact strCmp_trans s t u h h'
      · rw [if_neg h2] at h' ⊢; exact h'
    · rw [if_neg h1] at h
      have hcd : c.toNat < d.toNat := by
        refine Classical.byContradiction (fun hn => ?_); rw [if_neg hn] at h; cases h
      by_cases h2 : d = e
      · subst h2; rw [if_neg h1, if_pos hcd]
      · rw [if_neg h2] at h'
        have hde : d.toNat < e.toNat := by
          refine Classical.byContradiction (fun hn => ?_); rw [if_neg hn] at h'; cases h'
        have : c ≠ e := fun h => by subst h; omega
        rw [if_neg this, if_pos (by omega)]

/-! Lists, one item at a time. -/

private theorem equal_nil {m : List Val} : Equal (.list []) (.list m) ↔ m = [] := by
  constructor
  · intro h
    cases h with
    | num a _ => cases a
    | list hl _ => exact List.eq_nil_of_length_eq_zero (by simpa using hl.symm)
  · rintro rfl; exact .refl _

private theorem equal_nil' {m : List Val} : Equal (.list m) (.list []) ↔ m = [] :=
  ⟨fun h => equal_nil.1 h.symm, fun h => (equal_nil.2 h).symm⟩

private theorem equal_cons {x y : Val} {l m : List Val} :
    Equal (.list (x :: l)) (.list (y :: m)) ↔ Equal x y ∧ Equal (.list l) (.list m) := by
  constructor
  · intro h
    cases h with
    | num a _ => cases a
    | list hl hs =>
      exact ⟨hs 0 x y rfl rfl, .list (by simpa using hl) (fun k a b ha hb => hs (k + 1) a b (by simpa using ha) (by simpa using hb))⟩
  · rintro ⟨h, h'⟩
    cases h' with
    | num a _ => cases a
    | list hl hs =>
      refine .list (by simp [hl]) (fun k a b ha hb => ?_)
      cases k with
      | zero => simp at ha hb; subst ha; subst hb; exact h
      | succ k => exact hs k a b (by simpa using ha) (by simpa using hb)

private theorem before_list_inv {v w : Val} (h : Before v w) {l m : List Val} (hv : v = .list l) (hw : w = .list m) :
    (∃ p q l' m' x y, Equal (.list p) (.list q) ∧ Before x y ∧ l = p ++ x :: l' ∧ m = q ++ y :: m') ∨
    (∃ q x m', Equal (.list l) (.list q) ∧ m = q ++ x :: m') := by
  cases h with
  | num a => subst hv; cases a
  | char _ => cases hv
  | text => cases hv
  | item he hb => cases hv; cases hw; exact .inl ⟨_, _, _, _, _, _, he, hb, rfl, rfl⟩
  | list he => cases hv; cases hw; exact .inr ⟨_, _, _, he, rfl⟩

private theorem not_before_list_nil {l : List Val} : ¬ Before (.list l) (.list []) := by
  intro h
  rcases before_list_inv h rfl rfl with ⟨p, q, _, _, _, _, _, _, _, he⟩ | ⟨q, _, _, _, he⟩ <;> simp at he

private theorem before_nil_cons {y : Val} {m : List Val} : Before (.list []) (.list (y :: m)) :=
  .list (p := []) (q := []) (.refl _)

private theorem before_cons {x y : Val} {l m : List Val} :
    Before (.list (x :: l)) (.list (y :: m)) ↔ Before x y ∨ (Equal x y ∧ Before (.list l) (.list m)) := by
  constructor
  · intro h
    rcases before_list_inv h rfl rfl with ⟨p, q, l', m', a, b, he, hb, h1, h2⟩ | ⟨q, a, m', he, h2⟩
    · cases p with
      | nil =>
        rw [equal_nil.1 he] at h2
        simp at h1 h2; rw [h1.1, h2.1]; exact .inl hb
      | cons c p =>
        cases q with
        | nil => cases equal_nil'.1 he
        | cons d q =>
          rw [equal_cons] at he
          simp at h1 h2; rw [h1.1, h1.2, h2.1, h2.2]
          exact .inr ⟨he.1, .item he.2 hb⟩
    · cases q with
      | nil => cases equal_nil'.1 he
      | cons d q =>
        rw [equal_cons] at he
        simp at h2; rw [h2.1, h2.2]
        exact .inr ⟨he.1, .list he.2⟩
  · rintro (h | ⟨h, h'⟩)
    · exact .item (p := []) (q := []) (.refl _) h
    · rcases before_list_inv h' rfl rfl with ⟨p, q, l', m', a, b, he, hb, rfl, rfl⟩ | ⟨q, a, m', he, rfl⟩
      · exact .item (p := x :: p) (q := y :: q) (equal_cons.2 ⟨h, he⟩) hb
      · exact .list (p := x :: l) (q := y :: q) (equal_cons.2 ⟨h, he⟩)

private theorem comparable_list_inv {v w : Val} (h : Comparable v w) {l m : List Val} (hv : v = .list l) (hw : w = .list m) :
    (∃ p q l' m' x y, Equal (.list p) (.list q) ∧ ¬ Equal x y ∧ Comparable x y ∧ l = p ++ x :: l' ∧ m = q ++ y :: m') ∨
    (∃ q m', Equal (.list l) (.list q) ∧ m = q ++ m') ∨ (∃ p l', Equal (.list p) (.list m) ∧ l = p ++ l') := by
  cases h with
  | num a => subst hv; cases a
  | str => cases hv
  | item he hn hc => cases hv; cases hw; exact .inl ⟨_, _, _, _, _, _, he, hn, hc, rfl, rfl⟩
  | left he => cases hv; cases hw; exact .inr (.inl ⟨_, _, he, rfl⟩)
  | right he => cases hv; cases hw; exact .inr (.inr ⟨_, _, he, rfl⟩)

private theorem comparable_cons {x y : Val} {l m : List Val} : Comparable (.list (x :: l)) (.list (y :: m)) ↔
    (¬ Equal x y ∧ Comparable x y) ∨ (Equal x y ∧ Comparable (.list l) (.list m)) := by
  constructor
  · intro h
    rcases comparable_list_inv h rfl rfl with ⟨p, q, l', m', a, b, he, hn, hc, h1, h2⟩ | ⟨q, m', he, h2⟩ | ⟨p, l', he, h1⟩
    · cases p with
      | nil =>
        rw [equal_nil.1 he] at h2
        simp at h1 h2; rw [h1.1, h2.1]; exact .inl ⟨hn, hc⟩
      | cons c p =>
        cases q with
        | nil => cases equal_nil'.1 he
        | cons d q =>
          rw [equal_cons] at he
          simp at h1 h2; rw [h1.1, h1.2, h2.1, h2.2]
          exact .inr ⟨he.1, .item he.2 hn hc⟩
    · cases q with
      | nil => cases equal_nil'.1 he
      | cons d q =>
        rw [equal_cons] at he
        simp at h2; rw [h2.1, h2.2]
        exact .inr ⟨he.1, .left he.2⟩
    · cases p with
      | nil => cases equal_nil.1 he
      | cons d p =>
        rw [equal_cons] at he
        simp at h1; rw [h1.1, h1.2]
        exact .inr ⟨he.1, .right he.2⟩
  · rintro (⟨h, h'⟩ | ⟨h, h'⟩)
    · exact .item (p := []) (q := []) (.refl _) h h'
    · rcases comparable_list_inv h' rfl rfl with ⟨p, q, l', m', a, b, he, hn, hc, rfl, rfl⟩ | ⟨q, m', he, rfl⟩ | ⟨p, l', he, rfl⟩
      · exact .item (p := x :: p) (q := y :: q) (equal_cons.2 ⟨h, he⟩) hn hc
      · exact .left (p := x :: l) (q := y :: q) (equal_cons.2 ⟨h, he⟩)
      · exact .right (p := x :: p) (q := y :: m) (equal_cons.2 ⟨h, he⟩)

/-! The comparison as one of three outcomes. -/

private def ordInt (x y : Int) : Ordering := if x < y then .lt else if x = y then .eq else .gt

mutual
private def cmpO : Val → Val → Option Ordering
  | .str a, .str b => some (strCmp a b)
  | .list a, .list b => cmpL a b
  | .bool a, b => match num b with
    | some y => some (ordInt (if a then 1 else 0) y)
    | none => none
  | .int a, b => match num b with
    | some y => some (ordInt a y)
    | none => none
  | _, _ => none
private def cmpL : List Val → List Val → Option Ordering
  | [], [] => some .eq
  | [], _ :: _ => some .lt
  | _ :: _, [] => some .gt
  | a :: as, b :: bs => if pyEq a b then cmpL as bs else cmpO a b
end

private def out (c : Cmp) : Option Ordering → Res Bool
  | some o => .ok (c.onOrd o)
  | none => .error .typeError

private theorem onInt_eq (c : Cmp) (x y : Int) : c.onInt x y = c.onOrd (ordInt x y) := by
  unfold ordInt
  by_cases h : x < y
  · rw [if_pos h]
    cases c <;> simp only [Cmp.onInt] <;>
      first | (rw [decide_eq_true (by omega)]; rfl) | (rw [decide_eq_false (by omega)]; rfl)
  · rw [if_neg h]
    by_cases h' : x = y
    · subst h'; cases c <;> simp [Cmp.onInt, Cmp.onOrd]
    · rw [if_neg h']
      cases c <;> simp only [Cmp.onInt] <;>
        first | (rw [decide_eq_true (by omega)]; rfl) | (rw [decide_eq_false (by omega)]; rfl)

private theorem pyCmpList_eq (c : Cmp) : ∀ (l m : List Val), (∀ x ∈ l, ∀ y, pyCmp c x y = out c (cmpO x y)) →
    pyCmpList c l m = out c (cmpL l m)
  | [], [], _ => by simp [pyCmpList, cmpL, out]
  | [], _ :: _, _ => by simp [pyCmpList, cmpL, out]
  | _ :: _, [], _ => by simp [pyCmpList, cmpL, out]
  | a :: l, b :: m, h => by
    rw [pyCmpList, cmpL]
    split
    · exact pyCmpList_eq c l m (fun x hx => h x (by simp [hx]))
    · exact h a (by simp) b

private theorem pyCmp_eq (c : Cmp) (v : Val) : ∀ w, pyCmp c v w = out c (cmpO v w) := by
  refine Val.induct (P := fun v => ∀ w, pyCmp c v w = out c (cmpO v w)) ?_ ?_ ?_ ?_ ?_ ?_ v
  · intro w; cases w <;> simp [pyCmp, cmpO, out]
  · intro b w; rw [pyCmp, cmpO]; cases num w <;> simp [out, onInt_eq]
  · intro i w; rw [pyCmp, cmpO]; cases num w <;> simp [out, onInt_eq]
  · intro s w; cases w <;> simp [pyCmp, cmpO, out]
  · intro l ih w
    cases w with
    | list m => rw [pyCmp, cmpO]; exact pyCmpList_eq c l m ih
    | _ => simp [pyCmp, cmpO, out]
  · intro d _ w; cases w <;> simp [pyCmp, cmpO, out]

private theorem ordInt_lt {x y : Int} : ordInt x y = .lt ↔ x < y := by
  unfold ordInt; split
  · simp [*]
  · split <;> simp [*]

private theorem ordInt_gt {x y : Int} : ordInt x y = .gt ↔ y < x := by
  unfold ordInt; split
  · simp; omega
  · split
    · simp; omega
    · simp; omega

private theorem ordInt_eq {x y : Int} : ordInt x y = .eq ↔ x = y := by
  unfold ordInt; split
  · simp; omega
  · split <;> simp [*]

/-- What the outcome says. -/
private structure Says (v w : Val) (o : Option Ordering) : Prop where
  lt : o = some .lt ↔ Before v w
  gt : o = some .gt ↔ Before w v
  eq : o = some .eq ↔ Comparable v w ∧ Equal v w
  any : o.isSome = true ↔ Comparable v w

private theorem says_none {v w : Val} (hc : ¬ Comparable v w) (h1 : ¬ Before v w) (h2 : ¬ Before w v) : Says v w none :=
  ⟨by simp [h1], by simp [h2], by simp [hc], by simp [hc]⟩

private theorem says_num {v w : Val} {x y : Int} (hv : NumOf v x) (hw : NumOf w y) : Says v w (some (ordInt x y)) := by
  refine ⟨?_, ?_, ?_, ?_⟩
  · simp only [Option.some.injEq, ordInt_lt]
    constructor
    · exact fun h => .num hv hw h
    · intro h
      cases h with
      | num a b h => rw [numOf_det hv a, numOf_det hw b]; exact h
      | char _ => cases hv
      | text => cases hv
      | item _ _ => cases hv
      | list _ => cases hv
  · simp only [Option.some.injEq, ordInt_gt]
    constructor
    · exact fun h => .num hw hv h
    · intro h
      cases h with
      | num a b h => rw [numOf_det hw a, numOf_det hv b]; exact h
      | char _ => cases hv
      | text => cases hv
      | item _ _ => cases hv
      | list _ => cases hv
  · simp only [Option.some.injEq, ordInt_eq]
    constructor
    · rintro rfl; exact ⟨.num hv hw, .num hv hw⟩
    · rintro ⟨_, h⟩
      cases h with
      | none => cases hv
      | num a b => rw [numOf_det hv a, numOf_det hw b]
      | str => cases hv
      | list _ _ => cases hv
      | dict _ _ => cases hv
  · simp only [Option.isSome_some, true_iff]; exact .num hv hw

private theorem says_cmpL : ∀ (l m : List Val), (∀ x ∈ l, ∀ y ∈ m, (pyEq x y = true ↔ Equal x y) ∧ Says x y (cmpO x y)) →
    Says (.list l) (.list m) (cmpL l m)
  | [], [], _ => by
    rw [cmpL]
    exact ⟨by simp [not_before_list_nil], by simp [not_before_list_nil], by
      simp only [true_iff]; exact ⟨.left (p := []) (q := []) (.refl _), .refl _⟩, by
      simp only [Option.isSome_some, true_iff]; exact .left (p := []) (q := []) (.refl _)⟩
  | [], y :: m, _ => by
    rw [cmpL]
    exact ⟨by simp [before_nil_cons], by simp [not_before_list_nil], by simp [equal_nil], by
      simp only [Option.isSome_some, true_iff]; exact .left (p := []) (q := []) (.refl _)⟩
  | x :: l, [], _ => by
    rw [cmpL]
    exact ⟨by simp [not_before_list_nil], by simp [before_nil_cons], by simp [equal_nil'], by
      simp only [Option.isSome_some, true_iff]; exact .right (p := []) (q := []) (.refl _)⟩
  | x :: l, y :: m, h => by
    obtain ⟨he, hs⟩ := h x (by simp) y (by simp)
    have ih := says_cmpL l m (fun a ha b hb => h a (by simp [ha]) b (by simp [hb]))
    rw [cmpL]
    by_cases hxy : Equal x y
    · rw [if_pos (he.2 hxy)]
      have hn : ¬ Before x y := fun hb => by
        have h1 := hs.lt.2 hb
        have h2 := hs.eq.2 ⟨hs.any.1 (by rw [h1]; rfl), hxy⟩
        rw [h1] at h2; cases h2
      have hn' : ¬ Before y x := fun hb => by
        have h1 := hs.gt.2 hb
        have h2 := hs.eq.2 ⟨hs.any.1 (by rw [h1]; rfl), hxy⟩
        rw [h1] at h2; cases h2
      refine ⟨?_, ?_, ?_, ?_⟩
      · rw [ih.lt, before_cons]; simp [hn, hxy]
      · rw [ih.gt, before_cons]; simp [hn', hxy.symm]
      · rw [ih.eq, comparable_cons, equal_cons]; simp [hxy]
      · rw [ih.any, comparable_cons]; simp [hxy]
    · rw [if_neg (fun e => hxy (he.1 e))]
      have hyx : ¬ Equal y x := fun e => hxy e.symm
      refine ⟨?_, ?_, ?_, ?_⟩
      · rw [hs.lt, before_cons]; simp [hxy]
      · rw [hs.gt, before_cons]; simp [hyx]
      · rw [hs.eq, comparable_cons, equal_cons]; simp [hxy]
      · rw [hs.any, comparable_cons]; simp [hxy]

/-- Two numbers, two texts or two lists. -/
private def Kin (v w : Val) : Prop :=
  (∃ n m, NumOf v n ∧ NumOf w m) ∨ (∃ s t, v = .str s ∧ w = .str t) ∨ ∃ l m, v = .list l ∧ w = .list m

private theorem Kin.symm {v w : Val} : Kin v w → Kin w v
  | .inl ⟨n, m, h, h'⟩ => .inl ⟨m, n, h', h⟩
  | .inr (.inl ⟨s, t, h, h'⟩) => .inr (.inl ⟨t, s, h', h⟩)
  | .inr (.inr ⟨s, t, h, h'⟩) => .inr (.inr ⟨t, s, h', h⟩)

private theorem Comparable.kin {v w : Val} (h : Comparable v w) : Kin v w := by
  cases h with
  | num a b => exact .inl ⟨_, _, a, b⟩
  | str => exact .inr (.inl ⟨_, _, rfl, rfl⟩)
  | item _ _ _ => exact .inr (.inr ⟨_, _, rfl, rfl⟩)
  | left _ => exact .inr (.inr ⟨_, _, rfl, rfl⟩)
  | right _ => exact .inr (.inr ⟨_, _, rfl, rfl⟩)

private theorem Before.kin {v w : Val} (h : Before v w) : Kin v w := by
  cases h with
  | num a b _ => exact .inl ⟨_, _, a, b⟩
  | char _ => exact .inr (.inl ⟨_, _, rfl, rfl⟩)
  | text => exact .inr (.inl ⟨_, _, rfl, rfl⟩)
  | item _ _ => exact .inr (.inr ⟨_, _, rfl, rfl⟩)
  | list _ => exact .inr (.inr ⟨_, _, rfl, rfl⟩)

private theorem says_of_not_kin {v w : Val} (h : ¬ Kin v w) : Says v w none :=
  says_none (fun c => h c.kin) (fun c => h c.kin) (fun c => h c.kin.symm)

private theorem says_cmpO (v : Val) : ∀ w, WellFormed v → WellFormed w → Says v w (cmpO v w) := by
  have number : ∀ (v w : Val) (x : Int), NumOf v x → Says v w (match num w with
      | some y => some (ordInt x y)
      | none => none) := by
    intro v w x hv
    cases h : num w with
    | some y => exact says_num hv (num_iff.1 h)
    | none =>
      refine says_of_not_kin ?_
      rintro (⟨n, m, _, h'⟩ | ⟨s, t, rfl, _⟩ | ⟨s, t, rfl, _⟩)
      · rw [num_iff.2 h'] at h; cases h
      · cases hv
      · cases hv
  refine Val.induct (P := fun v => ∀ w, WellFormed v → WellFormed w → Says v w (cmpO v w)) ?_ ?_ ?_ ?_ ?_ ?_ v
  · intro w _ _
    have : cmpO .none w = none := by cases w <;> simp [cmpO]
    rw [this]
    refine says_of_not_kin ?_
    rintro (⟨n, m, h', _⟩ | ⟨s, t, h, _⟩ | ⟨s, t, h, _⟩)
    · cases h'
    · cases h
    · cases h
  · intro b w _ _
    rw [cmpO]
    exact number (.bool b) w _ (by cases b <;> constructor)
  · intro i w _ _
    rw [cmpO]
    exact number (.int i) w _ .int
  · intro s w _ _
    cases w with
    | str t =>
      rw [cmpO]
      refine ⟨?_, ?_, ?_, ?_⟩
      · rw [before_str]; simp
      · rw [before_str, strCmp_swap s t]; cases strCmp t s <;> simp [Ordering.swap]
      · rw [Option.some.injEq, strCmp_eq]
        constructor
        · rintro rfl; exact ⟨.str, .str⟩
        · rintro ⟨_, h⟩
          cases h with
          | num a _ => cases a
          | str => rfl
      · simp only [Option.isSome_some, true_iff]; exact .str
    | _ =>
      simp only [cmpO]
      refine says_of_not_kin ?_
      rintro (⟨n, m, h', _⟩ | ⟨s, t, _, h⟩ | ⟨s, t, h, _⟩)
      · cases h'
      · cases h
      · cases h
  · intro l ih w hl hw
    cases w with
    | list m =>
      rw [cmpO]
      cases hl with
      | list hl =>
      cases hw with
      | list hm =>
      exact says_cmpL l m (fun x hx y hy => ⟨C296_equal x y (hl x hx) (hm y hy), ih x hx y (hl x hx) (hm y hy)⟩)
    | _ =>
      simp only [cmpO]
      refine says_of_not_kin ?_
      rintro (⟨n, m, h', _⟩ | ⟨s, t, h, _⟩ | ⟨s, t, _, h⟩)
      · cases h'
      · cases h
      · cases h
  · intro d _ w _ _
    have : cmpO (.dict d) w = none := by cases w <;> simp [cmpO]
    rw [this]
    refine says_of_not_kin ?_
    rintro (⟨n, m, h', _⟩ | ⟨s, t, h, _⟩ | ⟨s, t, h, _⟩)
    · cases h'
    · cases h
    · cases h

/-- C297: `lt` and `gt` say that a document comes before or after the other, `le` and `ge` that it does so or is equal,
and values of different kinds, None and dictionaries raise TypeError. -/
theorem C297_order (v w : Val) (hv : WellFormed v) (hw : WellFormed w) :
    (pyCmp .lt v w = .ok true ↔ Before v w) ∧ (pyCmp .gt v w = .ok true ↔ Before w v) ∧
    (pyCmp .le v w = .ok true ↔ Comparable v w ∧ (Before v w ∨ Equal v w)) ∧
    (pyCmp .ge v w = .ok true ↔ Comparable v w ∧ (Before w v ∨ Equal v w)) ∧
    ∀ c, (pyCmp c v w = .error .typeError ↔ ¬ Comparable v w) ∧ ∀ e, pyCmp c v w = .error e → e = .typeError := by
  have hs := says_cmpO v w hv hw
  simp only [pyCmp_eq]
  rw [← hs.lt, ← hs.gt, ← hs.any]
  have he := hs.eq
  rw [← hs.any] at he
  cases h : cmpO v w with
  | none => simp [out]
  | some o =>
    rw [h] at he
    cases o <;> simp [out, Cmp.onOrd] at he ⊢ <;> simp [he]

/-- C297: of two documents that can be compared, exactly one of `lt`, `eq` and `gt` holds; `le` is the opposite of `gt`
and `ge` of `lt`. -/
theorem C297_total (v w : Val) (hv : WellFormed v) (hw : WellFormed w) (hc : Comparable v w) :
    ((pyCmp .lt v w = .ok true ∧ pyEq v w = false ∧ pyCmp .gt v w = .ok false) ∨
     (pyCmp .lt v w = .ok false ∧ pyEq v w = true ∧ pyCmp .gt v w = .ok false) ∨
     (pyCmp .lt v w = .ok false ∧ pyEq v w = false ∧ pyCmp .gt v w = .ok true)) ∧
    pyCmp .le v w = (pyCmp .gt v w).map (!·) ∧ pyCmp .ge v w = (pyCmp .lt v w).map (!·) ∧
    pyCmp .gt v w = pyCmp .lt w v := by
  have hs := says_cmpO v w hv hw
  have hs' := says_cmpO w v hw hv
  simp only [pyCmp_eq]
  have he := hs.eq
  have heq := C296_equal v w hv hw
  simp only [hc, true_and] at he
  obtain ⟨o, ho⟩ := Option.isSome_iff_exists.1 (hs.any.2 hc)
  have hsw : cmpO w v = some o.swap := by
    cases o with
    | lt => exact hs'.gt.2 (hs.lt.1 ho)
    | gt => exact hs'.lt.2 (hs.gt.1 ho)
    | eq =>
      have hcw : Comparable w v := by
        have := says_cmpO w v hw hv
        refine Classical.byContradiction (fun hn => ?_)
        rcases hc.kin with ⟨n, m, h, h'⟩ | ⟨s, t, rfl, rfl⟩ | ⟨l, m, rfl, rfl⟩
        · exact hn (.num h' h)
        · exact hn .str
        · exact hn (by
            have := (he.1 ho).symm
            rw [← List.append_nil l]
            exact .left this)
      exact hs'.eq.2 ⟨hcw, (he.1 ho).symm⟩
  rw [ho, hsw]
  rw [ho] at he
  cases o with
  | lt =>
    have : pyEq v w = false := by
      cases h : pyEq v w with
      | false => rfl
      | true => exact absurd (he.2 (heq.1 h)) (by simp)
    simp [out, Cmp.onOrd, this, Except.map]
  | eq => simp [out, Cmp.onOrd, heq.2 (he.1 rfl), Except.map]
  | gt =>
    have : pyEq v w = false := by
      cases h : pyEq v w with
      | false => rfl
      | true => exact absurd (he.2 (heq.1 h)) (by simp)
    simp [out, Cmp.onOrd, this, Except.map]

private theorem before_trans (u : Val) : ∀ v w,
    (Before u v → Before v w → Before u w) ∧ (Before u v → Equal v w → Before u w) ∧ (Equal u v → Before v w → Before u w) := by
  have number : ∀ u v w n, NumOf u n →
      (Before u v → Before v w → Before u w) ∧ (Before u v → Equal v w → Before u w) ∧ (Equal u v → Before v w → Before u w) := by
    intro u v w n hu
    have inv : ∀ {v w : Val} {n : Int}, NumOf v n → Before v w → ∃ m, NumOf w m ∧ n < m := by
      intro v w n hv h
      cases h with
      | num a b h => exact ⟨_, b, by rw [numOf_det hv a]; exact h⟩
      | char _ => cases hv
      | text => cases hv
      | item _ _ => cases hv
      | list _ => cases hv
    have einv : ∀ {v w : Val} {n : Int}, NumOf v n → Equal v w → NumOf w n := by
      intro v w n hv h
      cases h with
      | none => cases hv
      | num a b => rw [numOf_det hv a]; exact b
      | str => cases hv
      | list _ _ => cases hv
      | dict _ _ => cases hv
    refine ⟨fun h h' => ?_, fun h h' => ?_, fun h h' => ?_⟩
    · obtain ⟨m, hm, hlt⟩ := inv hu h
      obtain ⟨k, hk, hlt'⟩ := inv hm h'
      exact .num hu hk (by omega)
    · obtain ⟨m, hm, hlt⟩ := inv hu h
      exact .num hu (einv hm h') hlt
    · obtain ⟨k, hk, hlt⟩ := inv (einv hu h) h'
      exact .num hu hk hlt
  refine Val.induct (P := fun u => ∀ v w,
    (Before u v → Before v w → Before u w) ∧ (Before u v → Equal v w → Before u w) ∧ (Equal u v → Before v w → Before u w))
    ?_ ?_ ?_ ?_ ?_ ?_ u
  · intro v w
    have no : ∀ w, ¬ Before .none w := fun w h => by
      rcases h.kin with ⟨n, m, h', _⟩ | ⟨s, t, h, _⟩ | ⟨s, t, h, _⟩
      · cases h'
      · cases h
      · cases h
    refine ⟨fun h => absurd h (no _), fun h => absurd h (no _), fun h h' => ?_⟩
    cases h with
    | none => exact h'
    | num a _ => cases a
  · intro b v w; exact number (.bool b) v w (if b then 1 else 0) (by cases b <;> constructor)
  · intro i v w; exact number (.int i) v w i .int
  · intro s v w
    have eqs : ∀ {s : Str} {v : Val}, Equal (.str s) v → v = .str s := by
      intro s v h
      cases h with
      | num a _ => cases a
      | str => rfl
    have str : ∀ {s : Str} {v : Val}, Before (.str s) v → ∃ t, v = .str t := by
      intro s v h
      rcases h.kin with ⟨n, m, h', _⟩ | ⟨s, t, _, h⟩ | ⟨s, t, h, _⟩
      · cases h'
      · exact ⟨t, h⟩
      · cases h
    refine ⟨fun h h' => ?_, fun h h' => ?_, fun h h' => ?_⟩
    · obtain ⟨t, rfl⟩ := str h
      obtain ⟨r, rfl⟩ := str h'
      rw [before_str] at h h' ⊢
      exact strCmp_trans s t r h h'
    · obtain ⟨t, rfl⟩ := str h
      rw [eqs h']; exact h
    · rw [eqs h] at h'; exact h'
  · intro l ih v w
    have lst : ∀ {l : List Val} {v : Val}, Before (.list l) v → ∃ m, v = .list m := by
      intro l v h
      rcases h.kin with ⟨n, m, h', _⟩ | ⟨s, t, h, _⟩ | ⟨s, t, _, h⟩
      · cases h'
      · cases h
      · exact ⟨t, h⟩
    have elst : ∀ {l : List Val} {v : Val}, Equal (.list l) v → ∃ m, v = .list m := by
      intro l v h
      cases h with
      | num a _ => cases a
      | list _ _ => exact ⟨_, rfl⟩
    have key : ∀ (l : List Val), (∀ x ∈ l, ∀ v w, (Before x v → Before v w → Before x w) ∧ (Before x v → Equal v w → Before x w) ∧
        (Equal x v → Before v w → Before x w)) → ∀ m n : List Val,
        (Before (.list l) (.list m) → Before (.list m) (.list n) → Before (.list l) (.list n)) ∧
        (Before (.list l) (.list m) → Equal (.list m) (.list n) → Before (.list l) (.list n)) ∧
        (Equal (.list l) (.list m) → Before (.list m) (.list n) → Before (.list l) (.list n)) := by
      intro l
      induction l with
      | nil =>
        intro _ m n
        cases n with
        | nil =>
          refine ⟨fun _ h => absurd h not_before_list_nil, fun h h' => ?_, fun _ h => absurd h not_before_list_nil⟩
          rw [equal_nil'.1 h'] at h; exact h
        | cons z n => exact ⟨fun _ _ => before_nil_cons, fun _ _ => before_nil_cons, fun _ _ => before_nil_cons⟩
      | cons x l ihl =>
        intro hx m n
        have hl := ihl (fun a ha => hx a (by simp [ha]))
        cases m with
        | nil =>
          exact ⟨fun h => absurd h not_before_list_nil, fun h => absurd h not_before_list_nil, fun h => by cases equal_nil'.1 h⟩
        | cons y m =>
          cases n with
          | nil =>
            exact ⟨fun _ h => absurd h not_before_list_nil, fun _ h => (by cases equal_nil'.1 h), fun _ h => absurd h not_before_list_nil⟩
          | cons z n =>
            obtain ⟨t1, t2, t3⟩ := hx x (by simp) y z
            obtain ⟨l1, l2, l3⟩ := hl m n
            simp only [before_cons, equal_cons]
            refine ⟨?_, ?_, ?_⟩
            · rintro (h | ⟨h, hs⟩) (h' | ⟨h', hs'⟩)
              · exact .inl (t1 h h')
              · exact .inl (t2 h h')
              · exact .inl (t3 h h')
              · exact .inr ⟨h.trans h', l1 hs hs'⟩
            · rintro (h | ⟨h, hs⟩) ⟨h', hs'⟩
              · exact .inl (t2 h h')
              · exact .inr ⟨h.trans h', l2 hs hs'⟩
            · rintro ⟨h, hs⟩ (h' | ⟨h', hs'⟩)
              · exact .inl (t3 h h')
              · exact .inr ⟨h.trans h', l3 hs hs'⟩
    refine ⟨fun h h' => ?_, fun h h' => ?_, fun h h' => ?_⟩
    · obtain ⟨m, rfl⟩ := lst h
      obtain ⟨n, rfl⟩ := lst h'
      exact (key l ih m n).1 h h'
    · obtain ⟨m, rfl⟩ := lst h
      obtain ⟨n, rfl⟩ := elst h'
      exact (key l ih m n).2.1 h h'
    · obtain ⟨m, rfl⟩ := elst h
      obtain ⟨n, rfl⟩ := lst h'
      exact (key l ih m n).2.2 h h'
  · intro d _ v w
    have no : ∀ d w, ¬ Before (.dict d) w := fun d w h => by
      rcases h.kin with ⟨n, m, h', _⟩ | ⟨s, t, h, _⟩ | ⟨s, t, h, _⟩
      · cases h'
      · cases h
      · cases h
    refine ⟨fun h => absurd h (no _ _), fun h => absurd h (no _ _), fun h h' => ?_⟩
    cases h with
    | num a _ => cases a
    | dict _ _ => exact absurd h' (no _ _)

/-- C297: the order is transitive, and equal documents are in the same place. -/
theorem C297_transitive (u v w : Val) (hu : WellFormed u) (hv : WellFormed v) (hw : WellFormed w) :
    (pyCmp .lt u v = .ok true → pyCmp .lt v w = .ok true → pyCmp .lt u w = .ok true) ∧
    (pyCmp .lt u v = .ok true → pyEq v w = true → pyCmp .lt u w = .ok true) ∧
    (pyEq u v = true → pyCmp .lt v w = .ok true → pyCmp .lt u w = .ok true) := by
  rw [(C297_order u v hu hv).1, (C297_order v w hv hw).1, (C297_order u w hu hw).1, C296_equal u v hu hv, C296_equal v w hv hw]
  exact before_trans u v w

private def rowA : Val := .list [.int 1, .str "ab".toList, .int 3]
private def rowB : Val := .list [.bool true, .str "b".toList]
private theorem rowA_wf : WellFormed rowA := .list (by intro x hx; simp at hx; rcases hx with rfl | rfl | rfl <;> constructor)
private theorem rowB_wf : WellFormed rowB := .list (by intro x hx; simp at hx; rcases hx with rfl | rfl <;> constructor)

example : WellFormed rowA ∧ WellFormed rowB ∧ Comparable rowA rowB ∧ pyCmp .lt rowA rowB = .ok true ∧
    pyCmp .ge rowA rowB = .ok false ∧ pyCmp .lt (.list [.int 1]) rowA = .ok true ∧
    pyCmp .lt (.str "Zoe".toList) (.str "ann".toList) = .ok true ∧ pyCmp .le (.int 1) (.str "a".toList) = .error .typeError ∧
    pyCmp .lt .none (.int 1) = .error .typeError := by
  refine ⟨rowA_wf, rowB_wf, ?_, by decide +kernel⟩
  refine comparable_cons.2 (.inr ⟨.num .int .true, comparable_cons.2 (.inl ⟨?_, .str⟩)⟩)
  intro h
  cases h with
  | num a _ => cases a

end Verif.Query
