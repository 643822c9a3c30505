import Verif.Spec.Getting
import Verif.Lemmas.Query
/-
C328: asking an array for an item by its keys.
-/
namespace Verif.Getting
open Spec Query

theorem splitDunder_flat (k : Str) (h : ∀ a b, k ≠ a ++ '_' :: '_' :: b) : splitDunder k = [k] := by
  fun_induction splitDunder k with
  | case1 => rfl
  | case2 => rfl
  | case3 a b s hab => exact absurd (by rw [hab.1, hab.2]; rfl) (h [] s)
  | case4 a b s hab hs ih => exact absurd hs (splitDunder_ne_nil _)
  | case5 a b s hab w ws hs ih =>
    have := ih fun x y e => h (a :: x) y (by rw [e]; rfl)
    rw [hs] at this
    injection this with h1 h2
    rw [h1, h2]

theorem mkCrit_flat (k : Str) (v : Val) (h : Flat k) : mkCrit (k, v) = ⟨[k], [], false, v⟩ := by
  have hop : isOp k = false := by
    have h1 : ∀ e ∈ operators, e ∈ operatorNames := by decide +kernel
    have h2 : operators.contains k = false := by
      cases hc : operators.contains k with
      | false => rfl
      | true => exact absurd (h1 _ (List.contains_iff_mem.1 hc)) h.notOp
    have h3 : ['@'].isPrefixOf k = false := by
      cases hc : ['@'].isPrefixOf k with
      | false => rfl
      | true =>
        obtain ⟨t, ht⟩ := List.isPrefixOf_iff_prefix.1 hc
        exact absurd ht.symm (h.notAt t)
    rw [isOp, h2, h3]
    rfl
  have : sortCriteria k = ([k], []) := by
    simp [sortCriteria, splitDunder_flat k h.single, hop]
  simp [mkCrit, this]

theorem critLoop_flat (rx : Rx) (d : List (Str × Val)) (kw : List (Str × Val)) :
    critLoop rx false (.dict d) true (kw.map fun e => ⟨[e.1], [], false, e.2⟩)
      = (.ok (kw.all fun e => hasKey d e.1 e.2), kw.map fun e => ⟨[e.1], [], false, e.2⟩) := by
  induction kw with
  | nil => rfl
  | cons e kw ih =>
    simp only [List.map_cons, critLoop, List.map_nil, Doc.getDescendant, Doc.getItem, List.all_cons, hasKey]
    cases hg : AList.get? d e.1 with
    | none => simp
    | some w =>
      simp only [Option.getD_some]
      by_cases hw : w = .none
      · simp [hw]
      · rw [if_neg hw]
        simp only [enter, List.isEmpty_nil, Bool.not_true, Bool.false_and, Bool.false_eq_true, if_false, if_true]
        have : applyOpsTest rx ["eq".toList] false w e.2 = .ok (pyEq w e.2) := by
          have h1 : applyOp rx "eq".toList w e.2 = .ok (.bool (pyEq w e.2)) := rfl
          rw [applyOpsTest, foldOps, h1]
          rfl
        rw [this]
        cases hp : pyEq w e.2 with
        | false => simp
        | true =>
          simp [ih, hw, hasKey]

theorem call_flat (rx : Rx) (d : List (Str × Val)) (kw : List (Str × Val)) (h : ∀ e ∈ kw, Flat e.1) :
    (Filter.mk' [] kw false false).call rx (.dict d)
      = (.ok (kw.all fun e => hasKey d e.1 e.2), Filter.mk' [] kw false false) := by
  have : kw.map mkCrit = kw.map fun e => (⟨[e.1], [], false, e.2⟩ : Crit) :=
    List.map_congr_left fun e he => mkCrit_flat e.1 e.2 (h e he)
  simp only [Filter.mk', this, Filter.call, Bool.not_false, critLoop_flat, List.map_nil, attrLoop]
  simp

theorem select_flat (rx : Rx) (items : List Val) (ho : ∀ v ∈ items, IsObject v) (kw : List (Str × Val))
    (h : ∀ e ∈ kw, Flat e.1) :
    select rx false (Filter.mk' [] kw false false) [] items = (items.filter (matchesKeys kw), none) := by
  induction items with
  | nil => rfl
  | cons x items ih =>
    have ih := ih fun v hv => ho v (by simp [hv])
    obtain ⟨d, rfl⟩ := ho x (by simp)
    rw [select, call_flat rx d kw h, List.filter_cons]
    cases d with
    | nil => simp [Val.truthy, ih, matchesKeys]
    | cons e d =>
      simp only [Val.truthy, List.isEmpty_cons, Bool.not_false, Bool.not_true, Bool.false_eq_true, if_false, matchesKeys,
        Bool.true_and]
      cases kw.all fun e' => hasKey (e :: d) e'.1 e'.2 with
      | false => simp [ih]
      | true => simp [ih]

theorem next_flat (rx : Rx) (items : List Val) (ho : ∀ v ∈ items, IsObject v) (kw : List (Str × Val))
    (h : ∀ e ∈ kw, Flat e.1) :
    next rx false (Filter.mk' [] kw false false) items
      = match items.find? (matchesKeys kw) with
        | some x => .ok x
        | none => .error .stopIteration := by
  rw [next, filterOrExclude, select_flat rx items ho kw h]
  rw [← List.head?_filter]
  cases items.filter (matchesKeys kw) <;> rfl

theorem set_new (d : List (Str × Val)) (e : Str × Val) (h : e.1 ∉ d.map (·.1)) : AList.set d e.1 e.2 = d ++ [e] := by
  induction d with
  | nil => rfl
  | cons x d ih =>
    simp only [List.map_cons, List.mem_cons, not_or] at h
    rw [AList.set, if_neg fun hx => h.1 hx.symm, ih h.2]
    rfl

theorem zip_keys (ks : List Str) (vs : List Val) : ((ks.zip vs).map (·.1)).Sublist ks := by
  induction ks generalizing vs with
  | nil => simp
  | cons k ks ih =>
    cases vs with
    | nil => simp
    | cons v vs => exact (ih vs).cons_cons k

theorem update_zip (kw : List (Str × Val)) (ks : List Str) (vs : List Val) (hn : (kw.map (·.1) ++ ks).Nodup) :
    AList.update kw (ks.zip vs) = kw ++ ks.zip vs := by
  have key : ∀ (l acc : List (Str × Val)), ((acc ++ l).map (·.1)).Nodup → AList.update acc l = acc ++ l := by
    intro l
    induction l with
    | nil => intro acc _; simp [AList.update]
    | cons e l ih =>
      intro acc hnd
      have hs : AList.set acc e.1 e.2 = acc ++ [e] := by
        refine set_new acc e fun hm => ?_
        rw [List.map_append, List.nodup_append] at hnd
        exact hnd.2.2 _ hm e.1 (by simp) rfl
      have : AList.update acc (e :: l) = AList.update (AList.set acc e.1 e.2) l := rfl
      rw [this, hs, ih _ (by simpa using hnd)]
      simp
  refine key (ks.zip vs) kw (hn.sublist ?_)
  rw [List.map_append]
  exact (List.Sublist.refl _).append (zip_keys ks vs)

theorem get_flat (rx : Rx) (primary : Option (List Str)) (items : List Val) (ho : ∀ v ∈ items, IsObject v) (pks : List Val)
    (kwargs kw : List (Str × Val)) (default : Val) (hc : criteria primary pks kwargs = .ok kw) (h : ∀ e ∈ kw, Flat e.1) :
    get rx primary items pks kwargs default = .ok ((items.find? (matchesKeys kw)).getD default) := by
  rw [get, hc]
  simp only [next_flat rx items ho kw h]
  cases items.find? (matchesKeys kw) <;> rfl

/-! ### C328 -/

/-- With the values of the primary keys, and of other attributes by name, the first item that has them all is given, the
default if there is none. -/
theorem C328_keys_partial (rx : Rx) (ks : List Str) (items : List Val) (ho : ∀ v ∈ items, IsObject v) (pks : List Val)
    (hl : pks.length = ks.length) (hne : ks ≠ []) (kw : List (Str × Val)) (hn : (kw.map (·.1) ++ ks).Nodup)
    (hf : ∀ k ∈ kw.map (·.1) ++ ks, Flat k) (default : Val) :
    get rx (some ks) items pks kw default = .ok ((items.find? (matchesKeys (kw ++ ks.zip pks))).getD default) := by
  refine get_flat rx _ items ho pks kw _ default ?_ fun e he => hf e.1 ?_
  rotate_left
  · rcases List.mem_append.1 he with he | he
    · exact List.mem_append_left _ (List.mem_map_of_mem he)
    · exact List.mem_append_right _ (List.of_mem_zip he).1
  have : pks.isEmpty = false := by
    cases pks with
    | nil => exact absurd (List.length_eq_zero_iff.1 hl.symm) hne
    | cons _ _ => rfl
  simp only [criteria, this, Bool.false_eq_true, if_false, update_zip kw ks pks hn]

/-- With values given by name, the first item that has them is given, whatever the types of items. -/
theorem C328_names_partial (rx : Rx) (primary : Option (List Str)) (items : List Val) (ho : ∀ v ∈ items, IsObject v)
    (kw : List (Str × Val)) (hf : ∀ e ∈ kw, Flat e.1) (default : Val) :
    get rx primary items [] kw default = .ok ((items.find? (matchesKeys kw)).getD default) :=
  get_flat rx primary items ho [] kw kw default rfl hf

/-- More values than there are keys: those in excess are ignored. -/
theorem C328_more_violated (rx : Rx) (ks : List Str) (hne : ks ≠ []) (items : List Val) (pks more : List Val)
    (hl : pks.length = ks.length) (kw : List (Str × Val)) (default : Val) :
    get rx (some ks) items (pks ++ more) kw default = get rx (some ks) items pks kw default := by
  have h1 : pks.isEmpty = false := by
    cases pks with
    | nil => exact absurd (List.length_eq_zero_iff.1 hl.symm) hne
    | cons _ _ => rfl
  have h2 : (pks ++ more).isEmpty = false := by
    cases pks with
    | nil => cases h1
    | cons _ _ => rfl
  have h3 : ks.zip (pks ++ more) = ks.zip pks := by
    clear h1 h2 hne
    induction ks generalizing pks with
    | nil => simp
    | cons k ks ih =>
      cases pks with
      | nil => simp at hl
      | cons v vs => simp only [List.cons_append, List.zip_cons_cons, ih vs (by simpa using hl)]
  simp only [get, criteria, h1, h2, h3]

/-- An item that has None for a key is never found. -/
theorem C328_none_violated (rx : Rx) (ks : List Str) (items : List Val) (ho : ∀ v ∈ items, IsObject v) (pks : List Val)
    (hl : pks.length = ks.length) (hne : ks ≠ []) (hn : ks.Nodup) (hf : ∀ k ∈ ks, Flat k) (hv : Val.none ∈ pks)
    (default : Val) : get rx (some ks) items pks [] default = .ok default := by
  rw [C328_keys_partial rx ks items ho pks hl hne [] hn hf default]
  have : items.find? (matchesKeys ([] ++ ks.zip pks)) = none := by
    rw [List.nil_append]
    rw [List.find?_eq_none]
    intro x hx hm
    obtain ⟨d, rfl⟩ := ho x hx
    have hk : ∃ k, (k, Val.none) ∈ ks.zip pks := by
      clear hne hn hf hm
      induction ks generalizing pks with
      | nil => cases pks with
        | nil => cases hv
        | cons _ _ => simp at hl
      | cons k ks ih => cases pks with
        | nil => cases hv
        | cons v vs =>
          rcases List.mem_cons.1 hv with h | h
          · exact ⟨k, by rw [List.zip_cons_cons, ← h]; simp⟩
          · obtain ⟨k', hk'⟩ := ih vs (by simpa using hl) h
            exact ⟨k', by rw [List.zip_cons_cons]; exact List.mem_cons_of_mem _ hk'⟩
    obtain ⟨k, hk⟩ := hk
    simp only [matchesKeys, Bool.and_eq_true, List.all_eq_true] at hm
    have := hm.2 _ hk
    simp only [hasKey] at this
    split at this
    · rename_i w _
      simp only [Bool.and_eq_true, decide_eq_true_eq] at this
      obtain ⟨h1, h2⟩ := this
      cases w with
      | none => exact absurd rfl h1
      | bool b => simp [pyEq, num] at h2
      | int i => simp [pyEq, num] at h2
      | str s => simp [pyEq] at h2
      | list l => simp [pyEq] at h2
      | dict d => simp [pyEq] at h2
    · cases this
  rw [this]
  rfl

/-- Where the types of items are given one by one, asking by keys raises, whatever the items. -/
theorem C328_types_violated (rx : Rx) (items : List Val) (pk : Val) (pks : List Val) (kw : List (Str × Val)) (default : Val) :
    get rx none items (pk :: pks) kw default = .error .attributeError := rfl

/-- A key with the name of an operator: asking for any value raises if the first item has any data. -/
theorem C328_operator_violated (rx : Rx) (op : Str) (ho : op ∈ operatorNames) (e : Str × Val) (d : List (Str × Val))
    (items : List Val) (v default : Val) :
    get rx (some [op]) (.dict (e :: d) :: items) [v] [] default = .error .indexError := by
  have hs : ∀ op ∈ operatorNames, sortCriteria op = ([], [op]) := by decide +kernel
  have hm : (mkCrit (op, v)).path = [] := by simp only [mkCrit, hs op ho]
  have hu : AList.update ([] : AList Str Val) ([op].zip [v]) = [(op, v)] := rfl
  have hc : ((Filter.mk' [] [(op, v)] false false).call rx (.dict (e :: d))).1 = .error .indexError := by
    simp only [Filter.mk', Filter.call, List.map_cons, List.map_nil, critLoop, hm, Doc.getDescendant]
  simp only [get, criteria, hu, next, filterOrExclude, select]
  simp only [Val.truthy, List.isEmpty_cons, Bool.not_false, Bool.not_true, Bool.false_eq_true, if_false]
  cases hq : (Filter.mk' [] [(op, v)] false false).call rx (.dict (e :: d)) with
  | mk r f =>
    rw [hq] at hc
    simp only at hc
    subst hc
    rfl

def toyItems : List Val :=
  [.dict [("a".toList, .int 1), ("b".toList, .int 2)], .dict [("a".toList, .int 1), ("b".toList, .int 3)],
   .dict [("a".toList, .none), ("b".toList, .int 3)]]

def toyRx : Rx := ⟨fun _ _ _ _ => .ok false⟩

example : Flat "a".toList := ⟨fun a b h => by have := congrArg List.length h; simp at this; omega, by decide +kernel, fun s h => by
  injection h with h _; exact absurd h (by decide)⟩
example : get toyRx (some ["a".toList, "b".toList]) toyItems [.int 1, .int 3] [] .none
    = .ok (.dict [("a".toList, .int 1), ("b".toList, .int 3)]) := by decide +kernel
example : get toyRx (some ["a".toList, "b".toList]) toyItems [.int 1, .int 4] [] (.int 0) = .ok (.int 0) := by decide +kernel
example : get toyRx (some ["size".toList]) [.dict [("size".toList, .int 1)]] [.int 1] [] .none = .error .indexError := by
  decide +kernel

end Verif.Getting
