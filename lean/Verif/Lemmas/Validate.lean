import Verif.Spec.Validate
import Verif.Props.Compare
namespace Verif.Validate
open Spec
variable [Rx]

theorem any_eq_false {α} {o : Option α} {f : α → Bool} : o.any f = false ↔ ∀ a, o = some a → f a = false := by
  cases o <;> simp

theorem under_nil {s : Seg} {l : List Err} : l.map (Err.under s) = [] ↔ l = [] := List.map_eq_nil_iff

theorem one_nil {c : Bool} {e : Err} : (if c = true then [e] else []) = [] ↔ c = false := by cases c <;> simp

theorem uniq_iff (l : List Val) : uniq l = true ↔ l.Pairwise fun x y => ¬ equal x y = true := by
  induction l with
  | nil => simp [uniq]
  | cons x l ih => rw [uniq, List.pairwise_cons, Bool.and_eq_true, ih]; simp

theorem leafErrs_nil (l : Leaf) (v : Val) : leafErrs l v = [] ↔ leafValid lax l v := by
  cases l with
  | uniqueItems b =>
    refine Iff.trans (b := bad (.uniqueItems b) v = false) (one_nil (e := ⟨[], .leaf (.uniqueItems b) v⟩)) ?_
    simp only [leafValid, lax, bad]
    cases b with
    | false => simp
    | true => simp only [Bool.true_and, any_eq_false, Bool.not_eq_false', uniq_iff, true_implies]
  | multipleOf n =>
    refine Iff.trans (b := bad (.multipleOf n) v = false) (one_nil (e := ⟨[], .leaf (.multipleOf n) v⟩)) ?_
    simp only [leafValid, lax, bad, any_eq_false]
    refine forall_congr' fun i => imp_congr_right fun _ => ?_
    rw [bne_eq_false_iff_eq, ← Int.dvd_iff_emod_eq_zero]
    rfl
  | dependencies ds =>
    cases v <;> simp [leafErrs, leafValid, bad, entries, AList.contains, List.filter_eq_nil_iff, Option.isSome_iff_exists]
    case dict d => simp only [← ne_eq, Option.ne_none_iff_exists']
  | required ps =>
    cases v <;> simp [leafErrs, leafValid, bad, entries, AList.contains, List.filter_eq_nil_iff, Option.isSome_iff_exists]
    case dict d => simp only [← ne_eq, Option.ne_none_iff_exists']
  | _ =>
    simp only [leafErrs, leafValid, lax] <;> cases v <;>
      simp [bad, leafErrs, textSize, textOf, entries, Int.not_lt, Nat.not_lt, AList.contains, List.filter_eq_nil_iff,
        Option.isSome_iff_exists, numOf, elements, Int.not_le]

theorem declared_mem (l : List Kw) (p : Str) : p ∈ declared l ↔ Declares l p := by
  induction l with
  | nil => simp [declared, Declares]
  | cons k l ih =>
    have hc : Declares (k :: l) p ↔ (∃ ps s, k = .properties ps ∧ (p, s) ∈ ps) ∨ Declares l p := by
      unfold Declares
      constructor
      · rintro ⟨ps, s, hm, hp⟩
        rcases List.mem_cons.1 hm with h | h
        · exact Or.inl ⟨ps, s, h.symm, hp⟩
        · exact Or.inr ⟨ps, s, h, hp⟩
      · rintro (⟨ps, s, rfl, hp⟩ | ⟨ps, s, h, hp⟩)
        · exact ⟨ps, s, List.mem_cons_self .., hp⟩
        · exact ⟨ps, s, List.mem_cons_of_mem _ h, hp⟩
    rw [hc, ← ih]
    cases k <;> simp [declared]

theorem hasRef_false : (l : List Kw) → usesKws isRef l = false → hasRef l = false
  | [], _ => rfl
  | k :: l, h => by
    simp only [usesKws, Bool.or_eq_false_iff] at h
    have ih := hasRef_false l h.2
    cases k with
    | leaf f => cases f <;> simp_all [hasRef, isRef]
    | _ => simpa [hasRef] using ih

theorem covered_iff (ps : List Str) (k : Str) : covered ps k = true ↔ lax.covers ps k := by
  simp [covered, lax]

theorem patterns_eq : (l : List Kw) → patterns l = patternsOf l
  | [] => rfl
  | k :: l => by
    have ih := patterns_eq l
    unfold patternsOf at ih ⊢
    rw [List.flatMap_cons, ← ih]
    cases k <;> simp [patterns]

theorem itemCount_eq : (l : List Kw) → itemCount l = listed l
  | [] => rfl
  | k :: l => by
    have ih := itemCount_eq l
    unfold listed at ih ⊢
    rw [List.findSome?_cons, ← ih]
    cases k <;> simp [itemCount]

/-- What the model and the specification are told of the other keywords. -/
structure Told (a : Around) (b : Beside) : Prop where
  known : ∀ p, p ∈ a.names ∨ covered a.patterns p = true ↔ b.known p
  items : a.items = b.items

theorem told (l : List Kw) : Told (around l) (beside lax l) :=
  ⟨fun p => by simp only [around, beside]; rw [declared_mem, covered_iff, patterns_eq], itemCount_eq l⟩

theorem extras_mem (a : Around) (kvs : List (Str × Val)) (x : Val) :
    x ∈ extras a kvs ↔ ∃ kv ∈ kvs, ¬ (kv.1 ∈ a.names ∨ covered a.patterns kv.1 = true) ∧ kv.2 = x := by
  simp [extras, and_assoc]

mutual
theorem errs_nil : (s : Sch) → (v : Val) → uses isRef s = false → (errs s v = [] ↔ Valid lax s v)
  | .const b, v, _ => by cases b <;> simp [errs, Valid]
  | .kws l, v, h => by
    rw [errs, Valid, hasRef_false l h]
    simp only [Bool.false_eq_true, if_false]
    exact kwsErrs_nil (told l) l v h
theorem kwsErrs_nil {d : Around} {D : Beside} (hd : Told d D) : (l : List Kw) → (v : Val) →
    usesKws isRef l = false → (kwsErrs d l v = [] ↔ ValidKws lax D l v)
  | [], v, _ => by simp [kwsErrs, ValidKws]
  | k :: l, v, h => by
    simp only [usesKws, Bool.or_eq_false_iff] at h
    rw [kwsErrs, ValidKws, List.append_eq_nil_iff, under_nil, kwErrs_nil hd k v h.1.2, kwsErrs_nil hd l v h.2]
theorem kwErrs_nil {d : Around} {D : Beside} (hd : Told d D) : (k : Kw) → (v : Val) →
    usesKw isRef k = false → (kwErrs d k v = [] ↔ ValidKw lax D k v)
  | .leaf l, v, _ => by rw [kwErrs, ValidKw]; exact leafErrs_nil l v
  | .properties ps, v, h => by
    rw [kwErrs.eq_def, ValidKw]
    cases v <;> simp only [entries, reduceCtorEq, false_implies, implies_true, Option.some.injEq, forall_eq']
    exact propsErrs_nil ps _ h
  | .additional s, v, h => by
    rw [kwErrs.eq_def, ValidKw]
    cases v <;> simp only [entries, reduceCtorEq, false_implies, implies_true, Option.some.injEq, forall_eq']
    rename_i e
    rw [addErrs_nil s _ _ h]
    simp only [extras_mem]
    constructor
    · intro h' kv hkv hn
      exact h' _ ⟨kv, hkv, fun hh => hn ((hd.known _).1 hh), rfl⟩
    · rintro h' x ⟨kv, hkv, hn, rfl⟩
      exact h' kv hkv (fun hh => hn ((hd.known _).2 hh))
  | .patternProps ps, v, h => by
    rw [kwErrs.eq_def, ValidKw]
    cases v <;> simp only [entries, reduceCtorEq, false_implies, implies_true, Option.some.injEq, forall_eq']
    exact patErrs_nil ps _ h
  | .additionalItems s, v, h => by
    rw [kwErrs.eq_def, ValidKw, ← hd.items]
    cases d.items with
    | none => simp
    | some n =>
      have ha : lax.arr v = elements v := rfl
      rw [ha]
      cases he : elements v with
      | none => simp [he]
      | some l =>
        simp only [he, Option.some.injEq, forall_eq']
        exact addErrs_nil s _ _ h
  | .items s, v, h => by
    rw [kwErrs.eq_def, ValidKw]
    simp only [lax]
    cases elements v with
    | none => simp
    | some l =>
      simp only [List.flatMap_eq_nil_iff, Option.some.injEq, forall_eq']
      exact forall_congr' fun x => imp_congr_right fun _ => errs_nil s x h
  | .itemsList ss, v, h => by
    rw [kwErrs.eq_def, ValidKw]
    simp only [lax]
    cases elements v with
    | none => simp
    | some l =>
      simp only [Option.some.injEq, forall_eq']
      exact itemsErrs_nil 0 ss l h
  | .allOf ss, v, h => by rw [kwErrs, ValidKw]; exact allErrs_nil 0 ss v h
  | .anyOf ss, v, h => by
    rw [kwErrs, ValidKw]
    have := (countValid_spec ss v h).1
    split <;> rename_i h0
    · simp [this.1 h0]
    · simp only [true_iff]
      exact Classical.byContradiction fun hh => h0 (this.2 hh)
  | .oneOf ss, v, h => by
    rw [kwErrs, ValidKw]
    have h1 := (countValid_spec ss v h).2
    by_cases h2 : countValid ss v = 0
    · simp only [h2, if_true, List.cons_ne_nil, false_iff]
      intro hh
      have := h1.2 hh
      omega
    · by_cases h3 : 1 < countValid ss v
      · simp only [h2, h3, if_true, if_false, List.cons_ne_nil, false_iff]
        intro hh
        have := h1.2 hh
        omega
      · simp only [h2, h3, if_false, true_iff]
        exact h1.1 (by omega)
  | .not s, v, h => by
    rw [kwErrs, ValidKw, ← errs_nil s v h]
    split <;> simp_all
  | .ifThenElse i t e, v, h => by
    simp only [usesKw, Bool.or_eq_false_iff] at h
    rw [kwErrs, ValidKw, ← errs_nil i v h.1.1, ← errs_nil t v h.1.2, ← errs_nil e v h.2]
    split <;> simp_all
  | .contains s, v, h => by
    rw [kwErrs.eq_def, ValidKw]
    simp only [lax]
    cases elements v with
    | none => simp
    | some l =>
      simp only [Option.some.injEq, forall_eq', ite_eq_left_iff, List.cons_ne_nil, imp_false, Classical.not_not,
        List.any_eq_true, decide_eq_true_eq]
      exact exists_congr fun x => and_congr_right fun _ => errs_nil s x h
  | .propertyNames s, v, h => by
    rw [kwErrs.eq_def, ValidKw]
    cases v <;> simp only [entries, reduceCtorEq, false_implies, implies_true, Option.some.injEq, forall_eq']
    rw [List.flatMap_eq_nil_iff]
    exact forall_congr' fun kv => imp_congr_right fun _ => errs_nil s (.str kv.1) h
  | .dependencies ds, v, h => by
    rw [kwErrs.eq_def, ValidKw]
    cases v <;> simp only [entries, reduceCtorEq, false_implies, implies_true, Option.some.injEq, forall_eq']
    exact depErrs_nil ds _ h
  | .defs _ ds, v, h => by
    rw [kwErrs.eq_def, ValidKw]
    cases v <;> simp only [entries, reduceCtorEq, false_implies, implies_true, Option.some.injEq, forall_eq']
    simp only [lax, true_implies]
    exact propsErrs_nil ds _ h
theorem propsErrs_nil : (ps : List (Str × Sch)) → (e : List (Str × Val)) → usesProps isRef ps = false →
    (propsErrs ps e = [] ↔ ValidProps lax ps e)
  | [], e, _ => by simp [propsErrs, ValidProps]
  | (p, s) :: ps, e, h => by
    simp only [usesProps, Bool.or_eq_false_iff] at h
    rw [propsErrs, ValidProps, List.append_eq_nil_iff, propsErrs_nil ps e h.2]
    refine and_congr_left' ?_
    cases AList.get? e p with
    | none => simp
    | some x => simpa using errs_nil s x h.1
theorem patErrs_nil : (ps : List (Str × Sch)) → (e : List (Str × Val)) → usesProps isRef ps = false →
    (patErrs ps e = [] ↔ ValidPats lax ps e)
  | [], e, _ => by simp [patErrs, ValidPats]
  | (p, s) :: ps, e, h => by
    simp only [usesProps, Bool.or_eq_false_iff] at h
    rw [patErrs, ValidPats, List.append_eq_nil_iff, patErrs_nil ps e h.2]
    refine and_congr_left' ?_
    simp only [List.flatMap_eq_nil_iff, under_nil, List.mem_filter, and_imp]
    exact forall_congr' fun kv => imp_congr_right fun _ => imp_congr_right fun _ => errs_nil s kv.2 h.1
theorem depErrs_nil : (ds : List (Str × Sch)) → (e : List (Str × Val)) → usesProps isRef ds = false →
    (depErrs ds e = [] ↔ ValidDeps lax ds e)
  | [], e, _ => by simp [depErrs, ValidDeps]
  | (p, s) :: ds, e, h => by
    simp only [usesProps, Bool.or_eq_false_iff] at h
    rw [depErrs, ValidDeps, List.append_eq_nil_iff, depErrs_nil ds e h.2]
    refine and_congr_left' ?_
    have hc : AList.contains e p = true ↔ ∃ x, AList.get? e p = some x := by
      rw [AList.contains, Option.isSome_iff_exists]
    rw [← hc]
    split
    · rename_i h'; rw [under_nil, errs_nil s _ h.1]; simp [h']
    · rename_i h'; simp [h']
theorem addErrs_nil : (s : Sch) → (v : Val) → (xs : List Val) → uses isRef s = false →
    (addErrs s v xs = [] ↔ ∀ x ∈ xs, Valid lax s x)
  | .const b, v, xs, _ => by
    cases b
    · simp [addErrs, Valid, List.eq_nil_iff_forall_not_mem]
    · simp [addErrs, Valid]
  | .kws l, v, xs, h => by
    rw [addErrs, hasRef_false l h]
    simp only [Bool.false_eq_true, if_false, List.flatMap_eq_nil_iff]
    refine forall_congr' fun x => imp_congr_right fun _ => ?_
    rw [Valid]
    exact kwsErrs_nil (told l) l x h
theorem itemsErrs_nil (i : Nat) : (ss : List Sch) → (xs : List Val) → usesList isRef ss = false →
    (itemsErrs i ss xs = [] ↔ ValidItems lax ss xs)
  | [], xs, _ => by simp [itemsErrs, ValidItems]
  | s :: ss, [], _ => by simp [itemsErrs, ValidItems]
  | s :: ss, x :: xs, h => by
    simp only [usesList, Bool.or_eq_false_iff] at h
    rw [itemsErrs, ValidItems, List.append_eq_nil_iff, under_nil, errs_nil s x h.1, itemsErrs_nil (i + 1) ss xs h.2]
theorem allErrs_nil (i : Nat) : (ss : List Sch) → (v : Val) → usesList isRef ss = false →
    (allErrs i ss v = [] ↔ ValidAll lax ss v)
  | [], v, _ => by simp [allErrs, ValidAll]
  | s :: ss, v, h => by
    simp only [usesList, Bool.or_eq_false_iff] at h
    rw [allErrs, ValidAll, List.append_eq_nil_iff, under_nil, errs_nil s v h.1, allErrs_nil (i + 1) ss v h.2]
theorem countValid_spec : (ss : List Sch) → (v : Val) → usesList isRef ss = false →
    (countValid ss v = 0 ↔ ¬ ValidAny lax ss v) ∧ (countValid ss v = 1 ↔ ValidOne lax ss v)
  | [], v, _ => by simp [countValid, ValidAny, ValidOne]
  | s :: ss, v, h => by
    simp only [usesList, Bool.or_eq_false_iff] at h
    have h1 := errs_nil s v h.1
    have h2 := countValid_spec ss v h.2
    rw [countValid, ValidAny, ValidOne, ← h1, ← h2.2]
    have h3 : ValidAny lax ss v ↔ countValid ss v ≠ 0 :=
      ⟨fun a b => h2.1.1 b a, fun a => Classical.byContradiction fun b => a (h2.1.2 b)⟩
    rw [h3]
    by_cases h0 : errs s v = []
    · simp [h0]
    · simp [h0]
end

/-! Readings -/

/-- The two readings agree on the parts of a value, for the keywords used. -/
structure Agree (R S : Reading) (U : (Kw → Bool) → Bool) (v : Val) : Prop where
  num : U onNum = true → ∀ w, Part (U onNames) v w → R.num w = S.num w
  arr : U onArr = true → ∀ w, Part (U onNames) v w → R.arr w = S.arr w ∧ S.arr w = stdArr w
  type : U isType = true → ∀ t w, Part (U onNames) v w → (R.type t w ↔ S.type t w)
  ref : U isRef = true → ∀ u w, Part (U onNames) v w → (R.ref u w ↔ S.ref u w)
  same : ∀ c, U (hasConst c) = true → ∀ w, Part (U onNames) v w → (R.same w c ↔ S.same w c)
  uniq : U isUnique = true → ∀ w w', Part (U onNames) v w → Part (U onNames) v w' → (R.same w w' ↔ S.same w w')
  covers : ∀ ps, (∀ p ∈ ps, U (hasPattern p) = true) → ∀ k, R.covers ps k ↔ S.covers ps k
  defs : ∀ p, U (defines p) = true → ∀ d, Part (U onNames) v (.dict d) → AList.get? d p = none

theorem part_trans {n : Bool} {u v w : Val} (h : Part n u v) (h' : Part n v w) : Part n u w := by
  induction h' with
  | self => exact h
  | item _ hx ih => exact .item ih hx
  | entry _ hx ih => exact .entry ih hx
  | name hn _ hx ih => exact .name hn ih hx

theorem part_mono {n m : Bool} {v w : Val} (hn : n = true → m = true) (h : Part n v w) : Part m v w := by
  induction h with
  | self => exact .self
  | item _ hx ih => exact .item ih hx
  | entry _ hx ih => exact .entry ih hx
  | name h _ hx ih => exact .name (hn h) ih hx

theorem Agree.mono {R S : Reading} {U U' : (Kw → Bool) → Bool} {v w : Val} (h : Agree R S U v)
    (hp : Part (U onNames) v w) (hu : ∀ f, U' f = true → U f = true) : Agree R S U' w :=
  have hq : ∀ {x}, Part (U' onNames) w x → Part (U onNames) v x := fun hx => part_trans hp (part_mono (hu _) hx)
  ⟨fun e x hx => h.num (hu _ e) x (hq hx), fun e x hx => h.arr (hu _ e) x (hq hx),
    fun e t x hx => h.type (hu _ e) t x (hq hx), fun e t x hx => h.ref (hu _ e) t x (hq hx),
    fun c e x hx => h.same c (hu _ e) x (hq hx), fun e x y hx hy => h.uniq (hu _ e) x y (hq hx) (hq hy),
    fun ps e => h.covers ps fun p hp => hu _ (e p hp), fun p e d hd => h.defs p (hu _ e) d (hq hd)⟩

theorem or_left {a b c : Bool} (h : c = (a || b)) : a = true → c = true := by rintro rfl; simp [h]
theorem or_right {a b c : Bool} (h : c = (a || b)) : b = true → c = true := by rintro rfl; simp [h]

/-- Agreement for a schema, for keywords, for properties and for lists of schemas. -/
def AgreeS (R S : Reading) (s : Sch) (v : Val) : Prop := Agree R S (fun f => uses f s) v
def AgreeKs (R S : Reading) (l : List Kw) (v : Val) : Prop := Agree R S (fun f => usesKws f l) v
def AgreeK (R S : Reading) (k : Kw) (v : Val) : Prop := Agree R S (fun f => f k || usesKw f k) v
def AgreePs (R S : Reading) (l : List (Str × Sch)) (v : Val) : Prop := Agree R S (fun f => usesProps f l) v
def AgreeL (R S : Reading) (l : List Sch) (v : Val) : Prop := Agree R S (fun f => usesList f l) v

theorem arr_part {n : Bool} {v : Val} {l : List Val} (h : stdArr v = some l) : ∀ x ∈ l, Part n v x := by
  cases v <;> simp [stdArr] at h
  subst h
  exact fun x hx => .item .self hx

theorem pairwise_congr {α} {r s : α → α → Prop} {l : List α} (h : ∀ x ∈ l, ∀ y ∈ l, r x y ↔ s x y) :
    l.Pairwise r ↔ l.Pairwise s := by
  constructor <;> refine fun hp => List.Pairwise.imp_of_mem ?_ hp
  · exact fun hx hy => (h _ hx _ hy).1
  · exact fun hx hy => (h _ hx _ hy).2

theorem leafValid_congr {R S : Reading} (l : Leaf) (v : Val) (h : AgreeK R S (.leaf l) v) :
    leafValid R l v ↔ leafValid S l v := by
  cases l with
  | minimum i => simp only [leafValid]; rw [h.num rfl v .self]
  | maximum i => simp only [leafValid]; rw [h.num rfl v .self]
  | exclusiveMinimum i => simp only [leafValid]; rw [h.num rfl v .self]
  | exclusiveMaximum i => simp only [leafValid]; rw [h.num rfl v .self]
  | multipleOf i => simp only [leafValid]; rw [h.num rfl v .self]
  | minItems i => simp only [leafValid]; rw [(h.arr rfl v .self).1]
  | maxItems i => simp only [leafValid]; rw [(h.arr rfl v .self).1]
  | enum vs =>
    simp only [leafValid]
    refine exists_congr fun c => and_congr_right fun hc => h.same c ?_ v .self
    simp [hasConst, hc]
  | const c =>
    simp only [leafValid]
    exact h.same c (by simp [hasConst]) v .self
  | uniqueItems b =>
    simp only [leafValid]
    have ha := h.arr rfl v .self
    rw [ha.1]
    refine imp_congr_right fun _ => forall_congr' fun l => imp_congr_right fun hl => ?_
    have hp := arr_part (n := false) (ha.2 ▸ hl)
    exact pairwise_congr fun x hx y hy => not_congr (h.uniq rfl x y (hp x hx) (hp y hy))
  | type t => exact h.type rfl t v .self
  | ref t => exact h.ref rfl t v .self
  | _ => exact Iff.rfl

theorem validProps_absent (R : Reading) : (ps : List (Str × Sch)) → (e : List (Str × Val)) →
    (∀ p ∈ ps.map (·.1), AList.get? e p = none) → ValidProps R ps e
  | [], e, _ => by simp [ValidProps]
  | (p, s) :: ps, e, h => by
    rw [ValidProps]
    refine ⟨fun x hx => ?_, validProps_absent R ps e fun q hq => h q (List.mem_cons_of_mem _ hq)⟩
    rw [h p (List.mem_cons_self ..)] at hx
    simp at hx

theorem usesPattern : (l : List Kw) → ∀ p ∈ patternsOf l, usesKws (hasPattern p) l = true
  | [], p, h => by simp [patternsOf] at h
  | k :: l, p, h => by
    have ih := usesPattern l p
    rw [usesKws]
    unfold patternsOf at h ih
    rw [List.flatMap_cons, List.mem_append] at h
    rcases h with h | h
    · cases k <;> simp only [List.not_mem_nil] at h
      simp only [hasPattern, List.contains_iff_mem.2 h, Bool.true_or]
    · rw [ih h, Bool.or_true]

/-- The same is told. -/
structure Besides (D E : Beside) : Prop where
  known : ∀ p, D.known p ↔ E.known p
  items : D.items = E.items

mutual
theorem valid_congr {R S : Reading} : (s : Sch) → (v : Val) → AgreeS R S s v → (Valid R s v ↔ Valid S s v)
  | .const b, v, _ => by simp [Valid]
  | .kws l, v, h => by rw [Valid, Valid]; exact validKws_congr (D := beside R l) (E := beside S l) ⟨fun p => or_congr_right (h.covers _ (usesPattern l) p), rfl⟩ l v h
theorem validKws_congr {R S : Reading} {D E : Beside} (hD : Besides D E) : (l : List Kw) → (v : Val) → AgreeKs R S l v →
    (ValidKws R D l v ↔ ValidKws S E l v)
  | [], v, _ => by simp [ValidKws]
  | k :: l, v, h => by
    rw [ValidKws, ValidKws, validKw_congr hD k v (h.mono .self fun _ => or_left rfl),
      validKws_congr hD l v (h.mono .self fun _ => or_right rfl)]
theorem validKw_congr {R S : Reading} {D E : Beside} (hD : Besides D E) : (k : Kw) → (v : Val) → AgreeK R S k v →
    (ValidKw R D k v ↔ ValidKw S E k v)
  | .leaf l, v, h => by rw [ValidKw, ValidKw]; exact leafValid_congr l v h
  | .properties ps, v, h => by
    rw [ValidKw, ValidKw]
    cases v <;> simp only [entries, reduceCtorEq, false_implies, implies_true, Option.some.injEq, forall_eq']
    exact validProps_congr ps _ _ rfl (h.mono .self fun _ => or_right rfl)
  | .additional s, v, h => by
    rw [ValidKw, ValidKw]
    cases v <;> simp only [entries, reduceCtorEq, false_implies, implies_true, Option.some.injEq, forall_eq']
    refine forall_congr' fun kv => imp_congr_right fun hkv => ?_
    rw [hD.known]
    exact imp_congr_right fun _ => valid_congr s _ (h.mono (.entry .self hkv) fun _ => or_right rfl)
  | .patternProps ps, v, h => by
    rw [ValidKw, ValidKw]
    cases v <;> simp only [entries, reduceCtorEq, false_implies, implies_true, Option.some.injEq, forall_eq']
    exact validPats_congr ps _ _ rfl (h.mono .self fun _ => or_right rfl)
  | .additionalItems s, v, h => by
    rw [ValidKw, ValidKw]
    have ha := h.arr rfl v .self
    rw [ha.1, hD.items]
    refine forall_congr' fun n => imp_congr_right fun _ => forall_congr' fun l => imp_congr_right fun hl => ?_
    refine forall_congr' fun x => imp_congr_right fun hx => ?_
    exact valid_congr s x (h.mono (arr_part (ha.2 ▸ hl) x (List.mem_of_mem_drop hx)) fun _ => or_right rfl)
  | .items s, v, h => by
    rw [ValidKw, ValidKw]
    have ha := h.arr rfl v .self
    rw [ha.1]
    refine forall_congr' fun l => imp_congr_right fun hl => ?_
    refine forall_congr' fun x => imp_congr_right fun hx => ?_
    exact valid_congr s x (h.mono (arr_part (ha.2 ▸ hl) x hx) fun _ => or_right rfl)
  | .itemsList ss, v, h => by
    rw [ValidKw, ValidKw]
    have ha := h.arr rfl v .self
    rw [ha.1]
    refine forall_congr' fun l => imp_congr_right fun hl => ?_
    exact validItems_congr ss l fun x hx => h.mono (arr_part (ha.2 ▸ hl) x hx) fun _ => or_right rfl
  | .allOf ss, v, h => by rw [ValidKw, ValidKw]; exact (validList_congr ss v (h.mono .self fun _ => or_right rfl)).1
  | .anyOf ss, v, h => by rw [ValidKw, ValidKw]; exact (validList_congr ss v (h.mono .self fun _ => or_right rfl)).2.1
  | .oneOf ss, v, h => by rw [ValidKw, ValidKw]; exact (validList_congr ss v (h.mono .self fun _ => or_right rfl)).2.2
  | .not s, v, h => by rw [ValidKw, ValidKw, valid_congr s v (h.mono .self fun _ => or_right rfl)]
  | .ifThenElse i t e, v, h => by
    have hu : ∀ f, usesKw f (.ifThenElse i t e) = (uses f i || uses f t || uses f e) := fun f => by rw [usesKw]
    rw [ValidKw, ValidKw,
      valid_congr i v (h.mono .self fun f a => by simp [hu, a]),
      valid_congr t v (h.mono .self fun f a => by simp [hu, a]),
      valid_congr e v (h.mono .self fun f a => by simp [hu, a])]
  | .contains s, v, h => by
    rw [ValidKw, ValidKw]
    have ha := h.arr rfl v .self
    rw [ha.1]
    refine forall_congr' fun l => imp_congr_right fun hl => ?_
    refine exists_congr fun x => and_congr_right fun hx => ?_
    exact valid_congr s x (h.mono (arr_part (ha.2 ▸ hl) x hx) fun _ => or_right rfl)
  | .propertyNames s, v, h => by
    rw [ValidKw, ValidKw]
    cases v <;> simp only [entries, reduceCtorEq, false_implies, implies_true, Option.some.injEq, forall_eq']
    refine forall_congr' fun kv => imp_congr_right fun hkv => ?_
    exact valid_congr s _ (h.mono (.name rfl .self hkv) fun _ => or_right rfl)
  | .dependencies ds, v, h => by
    rw [ValidKw, ValidKw]
    cases v <;> simp only [entries, reduceCtorEq, false_implies, implies_true, Option.some.injEq, forall_eq']
    exact validDeps_congr ds _ (h.mono .self fun _ => or_right rfl)
  | .defs b ds, v, h => by
    rw [ValidKw, ValidKw]
    cases v <;> simp only [entries, reduceCtorEq, false_implies, implies_true, Option.some.injEq, forall_eq']
    have ha : ∀ T : Reading, ValidProps T ds _ := fun T => validProps_absent T ds _ fun p hp =>
      h.defs p (by simp only [defines, Bool.or_eq_true]; exact Or.inl (List.contains_iff_mem.2 hp)) _ .self
    exact ⟨fun _ _ => ha S, fun _ _ => ha R⟩
theorem validProps_congr {R S : Reading} : (ps : List (Str × Sch)) → (e : List (Str × Val)) → (v : Val) →
    v = .dict e → AgreePs R S ps v → (ValidProps R ps e ↔ ValidProps S ps e)
  | [], e, v, _, _ => by simp [ValidProps]
  | (p, s) :: ps, e, v, hv, h => by
    rw [ValidProps, ValidProps, validProps_congr ps e v hv (h.mono .self fun _ => or_right rfl)]
    refine and_congr_left' (forall_congr' fun x => imp_congr_right fun hx => ?_)
    subst hv
    exact valid_congr s x (h.mono (.entry .self (AList.mem_of_get? hx)) fun _ => or_left rfl)
theorem validPats_congr {R S : Reading} : (ps : List (Str × Sch)) → (e : List (Str × Val)) → (v : Val) →
    v = .dict e → AgreePs R S ps v → (ValidPats R ps e ↔ ValidPats S ps e)
  | [], e, v, _, _ => by simp [ValidPats]
  | (p, s) :: ps, e, v, hv, h => by
    rw [ValidPats, ValidPats, validPats_congr ps e v hv (h.mono .self fun _ => or_right rfl)]
    refine and_congr_left' (forall_congr' fun kv => imp_congr_right fun hkv => imp_congr_right fun _ => ?_)
    subst hv
    exact valid_congr s kv.2 (h.mono (.entry .self hkv) fun _ => or_left rfl)
theorem validDeps_congr {R S : Reading} : (ds : List (Str × Sch)) → (e : List (Str × Val)) →
    AgreePs R S ds (.dict e) → (ValidDeps R ds e ↔ ValidDeps S ds e)
  | [], e, _ => by simp [ValidDeps]
  | (p, s) :: ds, e, h => by
    rw [ValidDeps, ValidDeps, validDeps_congr ds e (h.mono .self fun _ => or_right rfl),
      valid_congr s (.dict e) (h.mono .self fun _ => or_left rfl)]
theorem validItems_congr {R S : Reading} : (ss : List Sch) → (xs : List Val) →
    (∀ x ∈ xs, AgreeL R S ss x) → (ValidItems R ss xs ↔ ValidItems S ss xs)
  | [], xs, _ => by simp [ValidItems]
  | s :: ss, [], _ => by simp [ValidItems]
  | s :: ss, x :: xs, h => by
    rw [ValidItems, ValidItems, valid_congr s x ((h x (List.mem_cons_self ..)).mono .self fun _ => or_left rfl),
      validItems_congr ss xs fun y hy => (h y (List.mem_cons_of_mem _ hy)).mono .self fun _ => or_right rfl]
theorem validList_congr {R S : Reading} : (ss : List Sch) → (v : Val) → AgreeL R S ss v →
    (ValidAll R ss v ↔ ValidAll S ss v) ∧ (ValidAny R ss v ↔ ValidAny S ss v) ∧ (ValidOne R ss v ↔ ValidOne S ss v)
  | [], v, _ => by simp [ValidAll, ValidAny, ValidOne]
  | s :: ss, v, h => by
    have h1 := valid_congr s v (h.mono .self fun _ => or_left rfl)
    obtain ⟨h2, h3, h4⟩ := validList_congr ss v (h.mono .self fun _ => or_right rfl)
    simp only [ValidAll, ValidAny, ValidOne, h1, h2, h3, h4, and_self]
end

/-! The same value -/

theorem plain_part {v w : Val} (hv : Plain v) (h : Part false v w) : Plain w := by
  refine ⟨?_, fun x hx => hv.2 x (part_trans h hx)⟩
  have hw := hv.1
  clear hv
  induction h with
  | self => exact hw
  | item _ hx ih => cases ih with | list h => exact h _ hx
  | entry _ hx ih => cases ih with | dict _ h => exact h _ hx
  | name hn => simp at hn

/-- Names are plain too. -/
theorem plain_reach {n : Bool} {v w : Val} (hv : Plain v) (h : Part n v w) : Plain w := by
  have : Part false v w ∨ ∃ s, w = .str s := by
    induction h with
    | self => exact Or.inl .self
    | item _ hx ih => exact Or.inl (.item (ih.resolve_right (by simp)) hx)
    | entry _ hx ih => exact Or.inl (.entry (ih.resolve_right (by simp)) hx)
    | name => exact Or.inr ⟨_, rfl⟩
  rcases this with h | ⟨s, rfl⟩
  · exact plain_part hv h
  · refine ⟨.str, fun x hx => ?_⟩
    have : ∀ y, Part false (.str s) y → y = .str s := by
      intro y hy
      induction hy with
      | self => rfl
      | item _ _ ih => cases ih
      | entry _ _ ih => cases ih
      | name _ _ _ ih => cases ih
    rw [this x hx]
    exact fun h => h

theorem equal_refl (v : Val) : Query.Equal v v := by
  induction v using Val.induct with
  | none => exact .none
  | bool b =>
    cases b
    · exact .num .false .false
    · exact .num .true .true
  | int i => exact .num .int .int
  | str s => exact .str
  | list l ih =>
    refine .list rfl fun k x y hx hy => ?_
    rw [hx] at hy
    cases hy
    exact ih x (List.mem_of_getElem? hx)
  | dict d ih =>
    refine .dict (fun _ => Iff.rfl) fun k x y hx hy => ?_
    rw [hx] at hy
    cases hy
    exact ih _ (AList.mem_of_get? hx)

theorem same_equal {v w : Val} (h : Same v w) : Query.Equal v w := by
  induction h with
  | none => exact .none
  | @bool b =>
    cases b
    · exact .num .false .false
    · exact .num .true .true
  | int => exact .num .int .int
  | str => exact .str
  | list hl _ ih => exact .list hl ih
  | dict hk _ ih => exact .dict hk ih

theorem equal_same {v w : Val} (h : Query.Equal v w) (hv : Plain v) (hw : Plain w) : Same v w := by
  induction h with
  | none => exact .none
  | num a b =>
    cases a with
    | int => cases b with
      | int => exact .int
      | _ => exact absurd trivial (hw.2 _ .self)
    | _ => exact absurd trivial (hv.2 _ .self)
  | str => exact .str
  | list hl _ ih =>
    refine .list hl fun k x y hx hy => ih k x y hx hy (plain_part hv (.item .self (List.mem_of_getElem? hx)))
      (plain_part hw (.item .self (List.mem_of_getElem? hy)))
  | dict hk _ ih =>
    refine .dict hk fun k x y hx hy => ih k x y hx hy (plain_part hv (.entry .self (AList.mem_of_get? hx)))
      (plain_part hw (.entry .self (AList.mem_of_get? hy)))

theorem equal_plain {v w : Val} (hv : Plain v) (hw : Plain w) : equal v w = true ↔ Same v w := by
  have he : equal v w = Query.pyEq v w := by
    have h1 := hv.2 v .self
    have h2 := hw.2 w .self
    cases v <;> first | exact absurd trivial h1 | skip
    all_goals cases w <;> first | exact absurd trivial h2 | rfl
  rw [he, Query.C296_equal v w hv.1 hw.1]
  exact ⟨fun h => equal_same h hv hw, same_equal⟩

theorem equal_scalar (v : Val) {c : Val} (hc : IsScalar c) : equal v c = true ↔ Same v c := by
  constructor
  · intro h
    cases v <;> cases c <;> simp [equal, Query.pyEq, Query.num, IsScalar] at h hc <;> subst_vars <;> constructor
  · rintro (_ | _) <;> simp_all [equal, Query.pyEq, Query.num, IsScalar]

/-! Types are not looked at -/

theorem untypedKw_name (k : Kw) : (untypedKw k).name = k.name := by
  cases k with
  | defs b ds => cases b <;> rw [untypedKw] <;> rfl
  | _ => rw [untypedKw] <;> rfl

theorem around_untyped : (l : List Kw) → around (untypedKws l) = around l
  | [] => by simp [untypedKws]
  | k :: l => by
    have hp : (ps : List (Str × Sch)) → (untypedProps ps).map (·.1) = ps.map (·.1) := by
      intro ps
      induction ps with
      | nil => simp [untypedProps]
      | cons a ps ih => obtain ⟨p, s⟩ := a; simp [untypedProps, ih]
    have hl : (ss : List Sch) → (untypedList ss).length = ss.length := by
      intro ss
      induction ss with
      | nil => simp [untypedList]
      | cons a ss ih => simp [untypedList, ih]
    have ih := around_untyped l
    simp only [around, Around.mk.injEq] at ih ⊢
    cases k with
    | leaf f => cases f <;> simp [untypedKws, isType, untypedKw, declared, patterns, itemCount, ih]
    | _ => simp [untypedKws, isType, untypedKw, declared, patterns, itemCount, ih, hp, hl]

theorem hasRef_untyped : (l : List Kw) → hasRef (untypedKws l) = hasRef l
  | [] => by simp [untypedKws, hasRef]
  | k :: l => by
    have ih := hasRef_untyped l
    cases k with
    | leaf f => cases f <;> simp [untypedKws, isType, untypedKw, hasRef, ih]
    | _ => simp [untypedKws, isType, untypedKw, hasRef, ih]

theorem kwErrs_type (d : Around) (k : Kw) (v : Val) (h : isType k = true) : kwErrs d k v = [] := by
  cases k with
  | leaf f => cases f <;> simp [isType] at h; simp [kwErrs, leafErrs, bad]
  | _ => simp [isType] at h

mutual
theorem errs_untyped : (s : Sch) → (v : Val) → errs (untyped s) v = errs s v
  | .const b, v => by rw [untyped]
  | .kws l, v => by rw [untyped, errs, errs, hasRef_untyped, around_untyped, kwsErrs_untyped]
theorem kwsErrs_untyped (d : Around) : (l : List Kw) → (v : Val) → kwsErrs d (untypedKws l) v = kwsErrs d l v
  | [], v => by rw [untypedKws]
  | k :: l, v => by
    rw [untypedKws]
    split <;> rename_i h
    · rw [kwsErrs, kwErrs_type d k v h, kwsErrs_untyped d l v]; rfl
    · rw [kwsErrs, kwsErrs, kwErrs_untyped d k v, untypedKw_name, kwsErrs_untyped d l v]
theorem kwErrs_untyped (d : Around) : (k : Kw) → (v : Val) → kwErrs d (untypedKw k) v = kwErrs d k v
  | .leaf _, v => by rw [untypedKw]
  | .properties ps, v => by
    rw [untypedKw, kwErrs.eq_def, kwErrs.eq_def]
    cases v <;> simp only
    exact propsErrs_untyped ps _
  | .additional s, v => by
    rw [untypedKw, kwErrs.eq_def, kwErrs.eq_def]
    cases v <;> simp only
    exact addErrs_untyped s _ _
  | .patternProps ps, v => by
    rw [untypedKw, kwErrs.eq_def, kwErrs.eq_def]
    cases v <;> simp only
    exact patErrs_untyped ps _
  | .additionalItems s, v => by
    rw [untypedKw, kwErrs.eq_def, kwErrs.eq_def]
    simp only
    split
    · exact addErrs_untyped s _ _
    · rfl
  | .items s, v => by
    rw [untypedKw, kwErrs.eq_def, kwErrs.eq_def]
    simp only
    have : errs (untyped s) = errs s := funext (errs_untyped s)
    rw [this]
  | .itemsList ss, v => by
    rw [untypedKw, kwErrs.eq_def, kwErrs.eq_def]
    simp only
    split
    · exact itemsErrs_untyped 0 ss _
    · rfl
  | .allOf ss, v => by rw [untypedKw, kwErrs, kwErrs, allErrs_untyped 0 ss v]
  | .anyOf ss, v => by rw [untypedKw, kwErrs, kwErrs, countValid_untyped ss v]
  | .oneOf ss, v => by rw [untypedKw, kwErrs, kwErrs, countValid_untyped ss v]
  | .not s, v => by rw [untypedKw, kwErrs, kwErrs, errs_untyped s v]
  | .ifThenElse i t e, v => by rw [untypedKw, kwErrs, kwErrs, errs_untyped i v, errs_untyped t v, errs_untyped e v]
  | .contains s, v => by
    rw [untypedKw, kwErrs.eq_def, kwErrs.eq_def]
    simp only
    have : errs (untyped s) = errs s := funext (errs_untyped s)
    rw [this]
  | .propertyNames s, v => by
    rw [untypedKw, kwErrs.eq_def, kwErrs.eq_def]
    simp only
    have : errs (untyped s) = errs s := funext (errs_untyped s)
    rw [this]
  | .dependencies ds, v => by
    rw [untypedKw, kwErrs.eq_def, kwErrs.eq_def]
    cases v <;> simp only
    exact depErrs_untyped ds _
  | .defs b ds, v => by
    rw [untypedKw, kwErrs.eq_def, kwErrs.eq_def]
    cases v <;> simp only
    exact propsErrs_untyped ds _
theorem propsErrs_untyped : (ps : List (Str × Sch)) → (e : List (Str × Val)) →
    propsErrs (untypedProps ps) e = propsErrs ps e
  | [], e => by rw [untypedProps]
  | (p, s) :: ps, e => by
    rw [untypedProps, propsErrs, propsErrs, propsErrs_untyped ps e]
    cases AList.get? e p with
    | none => rfl
    | some x => simp only; rw [errs_untyped s x]
theorem patErrs_untyped : (ps : List (Str × Sch)) → (e : List (Str × Val)) →
    patErrs (untypedProps ps) e = patErrs ps e
  | [], e => by rw [untypedProps]
  | (p, s) :: ps, e => by
    have : errs (untyped s) = errs s := funext (errs_untyped s)
    rw [untypedProps, patErrs, patErrs, patErrs_untyped ps e, this]
theorem depErrs_untyped : (ds : List (Str × Sch)) → (e : List (Str × Val)) →
    depErrs (untypedProps ds) e = depErrs ds e
  | [], e => by rw [untypedProps]
  | (p, s) :: ds, e => by rw [untypedProps, depErrs, depErrs, depErrs_untyped ds e, errs_untyped s (.dict e)]
theorem addErrs_untyped : (s : Sch) → (v : Val) → (xs : List Val) → addErrs (untyped s) v xs = addErrs s v xs
  | .const b, v, xs => by rw [untyped]
  | .kws l, v, xs => by
    rw [untyped, addErrs, addErrs, hasRef_untyped, around_untyped]
    have : ∀ d, kwsErrs d (untypedKws l) = kwsErrs d l := fun d => funext (kwsErrs_untyped d l)
    rw [this]
theorem itemsErrs_untyped (i : Nat) : (ss : List Sch) → (xs : List Val) →
    itemsErrs i (untypedList ss) xs = itemsErrs i ss xs
  | [], xs => by rw [untypedList]
  | s :: ss, [] => by rw [untypedList, itemsErrs, itemsErrs] <;> simp
  | s :: ss, x :: xs => by rw [untypedList, itemsErrs, itemsErrs, errs_untyped s x, itemsErrs_untyped (i + 1) ss xs]
theorem allErrs_untyped (i : Nat) : (ss : List Sch) → (v : Val) → allErrs i (untypedList ss) v = allErrs i ss v
  | [], v => by rw [untypedList]
  | s :: ss, v => by rw [untypedList, allErrs, allErrs, errs_untyped s v, allErrs_untyped (i + 1) ss v]
theorem countValid_untyped : (ss : List Sch) → (v : Val) → countValid (untypedList ss) v = countValid ss v
  | [], v => by rw [untypedList]
  | s :: ss, v => by rw [untypedList, countValid, countValid, errs_untyped s v, countValid_untyped ss v]
end

/-! Paths -/

/-- A path of names only. -/
def Named (e : Err) : Prop := ∀ i, Seg.idx i ∉ e.path

theorem named_under {e : Err} (s : Str) (h : Named e) : Named (e.under (.name s)) := by
  intro i hi
  simp only [Err.under, List.mem_cons, reduceCtorEq, false_or] at hi
  exact h i hi

theorem named_map {l : List Err} (s : Str) (h : ∀ e ∈ l, Named e) : ∀ e ∈ l.map (Err.under (.name s)), Named e := by
  intro e he
  obtain ⟨e', he', rfl⟩ := List.mem_map.1 he
  exact named_under s (h e' he')

theorem named_one (m : Msg) : ∀ e ∈ [Err.mk [] m], Named e := by
  intro e he
  simp only [List.mem_singleton] at he
  subst he
  intro i
  simp

theorem named_leaf (l : Leaf) (v : Val) : ∀ e ∈ leafErrs l v, Named e := by
  intro e he i
  have : e.path = [] := by
    unfold leafErrs at he
    split at he
    · obtain ⟨p, _, rfl⟩ := List.mem_map.1 he; rfl
    · obtain ⟨x, _, he⟩ := List.mem_flatMap.1 he
      obtain ⟨q, _, rfl⟩ := List.mem_map.1 he; rfl
    · split at he
      · simp only [List.mem_singleton] at he; rw [he]
      · simp at he
  simp [this]

mutual
theorem errs_named : (s : Sch) → (v : Val) → uses numbered s = false → ∀ e ∈ errs s v, Named e
  | .const b, v, _ => by cases b <;> rw [errs] <;> first | exact named_one _ | simp
  | .kws l, v, h => by
    rw [errs]
    split
    · simp
    · exact kwsErrs_named _ l v h
theorem kwsErrs_named (d : Around) : (l : List Kw) → (v : Val) → usesKws numbered l = false →
    ∀ e ∈ kwsErrs d l v, Named e
  | [], v, _ => by rw [kwsErrs]; simp
  | k :: l, v, h => by
    simp only [usesKws, Bool.or_eq_false_iff] at h
    rw [kwsErrs]
    intro e he
    rcases List.mem_append.1 he with he | he
    · exact named_map _ (kwErrs_named d k v h.1.1 h.1.2) e he
    · exact kwsErrs_named d l v h.2 e he
theorem kwErrs_named (d : Around) : (k : Kw) → (v : Val) → numbered k = false → usesKw numbered k = false →
    ∀ e ∈ kwErrs d k v, Named e
  | .leaf l, v, _, _ => by rw [kwErrs]; exact named_leaf l v
  | .properties ps, v, _, h => by
    rw [kwErrs.eq_def]
    cases v <;> simp only [List.not_mem_nil, false_implies, implies_true]
    exact propsErrs_named ps _ h
  | .additional s, v, _, h => by
    rw [kwErrs.eq_def]
    cases v <;> simp only [List.not_mem_nil, false_implies, implies_true]
    exact addErrs_named s _ _ h
  | .patternProps ps, v, _, h => by
    rw [kwErrs.eq_def]
    cases v <;> simp only [List.not_mem_nil, false_implies, implies_true]
    exact patErrs_named ps _ h
  | .additionalItems s, v, _, h => by
    rw [kwErrs.eq_def]
    simp only
    split
    · exact addErrs_named s _ _ h
    · simp
  | .items s, v, _, h => by
    rw [kwErrs.eq_def]
    simp only
    split
    · intro e he
      obtain ⟨x, _, hx⟩ := List.mem_flatMap.1 he
      exact errs_named s x h e hx
    · simp
  | .itemsList ss, v, h, _ => by simp [numbered] at h
  | .allOf ss, v, h, _ => by simp [numbered] at h
  | .anyOf ss, v, _, _ => by
    rw [kwErrs]
    split <;> first | exact named_one _ | simp
  | .oneOf ss, v, _, _ => by
    rw [kwErrs]
    split
    · exact named_one _
    · split <;> first | exact named_one _ | simp
  | .not s, v, _, _ => by
    rw [kwErrs]
    split <;> first | exact named_one _ | simp
  | .ifThenElse i t e, v, _, h => by
    simp only [usesKw, Bool.or_eq_false_iff] at h
    rw [kwErrs]
    split
    · exact named_map _ (errs_named t v h.1.2)
    · exact named_map _ (errs_named e v h.2)
  | .contains s, v, _, _ => by
    rw [kwErrs.eq_def]
    simp only
    split
    · split <;> first | exact named_one _ | simp
    · simp
  | .propertyNames s, v, _, h => by
    rw [kwErrs.eq_def]
    cases v <;> simp only [List.not_mem_nil, false_implies, implies_true]
    intro e he
    obtain ⟨x, _, hx⟩ := List.mem_flatMap.1 he
    exact errs_named s _ h e hx
  | .dependencies ds, v, _, h => by
    rw [kwErrs.eq_def]
    cases v <;> simp only [List.not_mem_nil, false_implies, implies_true]
    exact depErrs_named ds _ h
  | .defs b ds, v, _, h => by
    rw [kwErrs.eq_def]
    cases v <;> simp only [List.not_mem_nil, false_implies, implies_true]
    exact propsErrs_named ds _ h
theorem propsErrs_named : (ps : List (Str × Sch)) → (kvs : List (Str × Val)) → usesProps numbered ps = false →
    ∀ e ∈ propsErrs ps kvs, Named e
  | [], _, _ => by rw [propsErrs]; simp
  | (p, s) :: ps, kvs, h => by
    simp only [usesProps, Bool.or_eq_false_iff] at h
    rw [propsErrs]
    intro e he
    rcases List.mem_append.1 he with he | he
    · cases hx : AList.get? kvs p with
      | none => simp [hx] at he
      | some x => rw [hx] at he; exact named_map _ (errs_named s x h.1) e he
    · exact propsErrs_named ps kvs h.2 e he
theorem patErrs_named : (ps : List (Str × Sch)) → (kvs : List (Str × Val)) → usesProps numbered ps = false →
    ∀ e ∈ patErrs ps kvs, Named e
  | [], _, _ => by rw [patErrs]; simp
  | (p, s) :: ps, kvs, h => by
    simp only [usesProps, Bool.or_eq_false_iff] at h
    rw [patErrs]
    intro e he
    rcases List.mem_append.1 he with he | he
    · obtain ⟨kv, _, hx⟩ := List.mem_flatMap.1 he
      exact named_map _ (errs_named s kv.2 h.1) e hx
    · exact patErrs_named ps kvs h.2 e he
theorem depErrs_named : (ds : List (Str × Sch)) → (kvs : List (Str × Val)) → usesProps numbered ds = false →
    ∀ e ∈ depErrs ds kvs, Named e
  | [], _, _ => by rw [depErrs]; simp
  | (p, s) :: ds, kvs, h => by
    simp only [usesProps, Bool.or_eq_false_iff] at h
    rw [depErrs]
    intro e he
    rcases List.mem_append.1 he with he | he
    · split at he
      · exact named_map _ (errs_named s _ h.1) e he
      · simp at he
    · exact depErrs_named ds kvs h.2 e he
theorem addErrs_named : (s : Sch) → (v : Val) → (xs : List Val) → uses numbered s = false →
    ∀ e ∈ addErrs s v xs, Named e
  | .const b, v, xs, _ => by
    cases b <;> rw [addErrs]
    · split <;> first | exact named_one _ | simp
    · simp
  | .kws l, v, xs, h => by
    rw [addErrs]
    intro e he
    obtain ⟨x, _, hx⟩ := List.mem_flatMap.1 he
    split at hx
    · simp at hx
    · exact kwsErrs_named _ l x h e hx
end

theorem joined_none (path : List Seg) : joined path = none ↔ ∃ i, Seg.idx i ∈ path := by
  unfold joined
  rw [Option.map_eq_none_iff]
  induction path with
  | nil => simp
  | cons a path ih =>
    cases a with
    | idx i => simp
    | name s =>
      rw [List.mapM_cons]
      simp only [Option.bind_eq_bind, Option.bind_some]
      have hm : (∃ i, Seg.idx i ∈ Seg.name s :: path) ↔ ∃ i, Seg.idx i ∈ path := by simp
      rw [hm, ← ih]
      cases (path.mapM fun
        | Seg.name s => some s
        | Seg.idx _ => none) <;> simp

/-- One turn of the comprehension. -/
def reportStep (d : List (Str × Msg)) (e : Err) : Res (List (Str × Msg)) := match joined e.path with
  | none => .error .typeError
  | some p => .ok (AList.set d p e.msg)

theorem report_fold (es : List Err) (d : List (Str × Msg)) :
    (∃ e ∈ es, joined e.path = none) ∧ es.foldlM reportStep d = .error .typeError ∨
    (∃ r, es.foldlM reportStep d = .ok r ∧ (∀ e ∈ es, joined e.path ≠ none) ∧
      (∀ p, (∃ m, AList.get? r p = some m) ↔ (∃ m, AList.get? d p = some m) ∨ ∃ e ∈ es, joined e.path = some p) ∧
      (∀ p m, AList.get? r p = some m → AList.get? d p = some m ∨ ∃ e ∈ es, joined e.path = some p ∧ e.msg = m) ∧
      (∀ p, (∀ e ∈ es, joined e.path ≠ some p) → AList.get? r p = AList.get? d p) ∧
      ((es.map (joined ·.path)).Nodup → ∀ e ∈ es, ∀ p, joined e.path = some p → AList.get? r p = some e.msg)) := by
  induction es generalizing d with
  | nil => right; exact ⟨d, rfl, by simp, by simp, fun p m h => Or.inl h, fun _ _ => rfl, by simp⟩
  | cons a es ih =>
    rw [List.foldlM_cons]
    cases hj : joined a.path with
    | none =>
      left
      exact ⟨⟨a, by simp, hj⟩, by simp only [reportStep, hj]; rfl⟩
    | some q =>
      have hs : reportStep d a = .ok (AList.set d q a.msg) := by simp only [reportStep, hj]
      rw [hs]
      rcases ih (AList.set d q a.msg) with ⟨⟨e, he, hn⟩, h⟩ | ⟨r, h1, h2, h3, h4, h5, h6⟩
      · left
        exact ⟨⟨e, by simp [he], hn⟩, h⟩
      · right
        refine ⟨r, h1, ?_, ?_, ?_, ?_, ?_⟩
        · intro e he
          rcases List.mem_cons.1 he with rfl | he
          · simp [hj]
          · exact h2 e he
        · intro p
          rw [h3 p]
          rw [AList.get?_set]
          by_cases hp : q = p
          · simp [hp, hj]
          · have : p ≠ q := fun h => hp h.symm
            simp [hp, this, hj]
        · intro p m hm
          rcases h4 p m hm with h | ⟨e, he, h, h'⟩
          · rw [AList.get?_set] at h
            split at h
            · rename_i hq
              exact Or.inr ⟨a, by simp, by rw [hj, hq], by simpa using h⟩
            · exact Or.inl h
          · exact Or.inr ⟨e, by simp [he], h, h'⟩
        · intro p hp
          rw [h5 p fun e he => hp e (by simp [he]), AList.get?_set, if_neg]
          intro h
          exact hp a (by simp) (by rw [hj, h])
        · intro hn e he p hp
          rw [List.map_cons, List.nodup_cons] at hn
          rcases List.mem_cons.1 he with rfl | he
          · rw [h5 p, AList.get?_set, if_pos (by rw [hj] at hp; simpa [eq_comm] using hp)]
            intro e' he' h
            exact hn.1 (List.mem_map.2 ⟨e', he', h.trans hp.symm⟩)
          · exact h6 hn.2 e he p hp

theorem report_cases (es : List Err) :
    (∃ e ∈ es, joined e.path = none) ∧ report es = .error .typeError ∨
    (∃ r, report es = .ok r ∧ (r = [] ↔ es = []) ∧ (∀ e ∈ es, joined e.path ≠ none) ∧
      (∀ p, (∃ m, AList.get? r p = some m) ↔ ∃ e ∈ es, joined e.path = some p) ∧
      (∀ p m, AList.get? r p = some m → ∃ e ∈ es, joined e.path = some p ∧ e.msg = m) ∧
      ((es.map (joined ·.path)).Nodup → ∀ e ∈ es, ∀ p, joined e.path = some p → AList.get? r p = some e.msg)) := by
  have hr : report es = es.foldlM reportStep [] := rfl
  rw [hr]
  rcases report_fold es [] with h | ⟨r, h1, h2, h3, h4, _, h6⟩
  · exact Or.inl h
  · refine Or.inr ⟨r, h1, ?_, h2, ?_, ?_, h6⟩
    · constructor
      · rintro rfl
        cases es with
        | nil => rfl
        | cons a es =>
          exfalso
          cases hj : joined a.path with
          | none => exact h2 a (by simp) hj
          | some q =>
            obtain ⟨m, hm⟩ := (h3 q).2 (Or.inr ⟨a, by simp, hj⟩)
            simp [AList.get?] at hm
      · rintro rfl
        simp only [List.foldlM_nil] at h1
        cases h1
        rfl
    · intro p; simpa [AList.get?] using h3 p
    · intro p m hm; simpa [AList.get?] using h4 p m hm

/-! Excluding keywords -/

theorem around_filter (ex : List Str) (h : "properties".toList ∉ ex) (h' : "patternProperties".toList ∉ ex)
    (h'' : "items".toList ∉ ex) : (l : List Kw) → around (l.filter fun k => !ex.contains k.name) = around l
  | [] => rfl
  | k :: l => by
    rw [List.filter_cons]
    have ih := around_filter ex h h' h'' l
    simp only [around, Around.mk.injEq] at ih ⊢
    cases k with
    | properties ps =>
      have : (!ex.contains (Kw.properties ps).name) = true := by
        have hn : (Kw.properties ps).name = "properties".toList := rfl
        rw [hn]
        simpa using h
      rw [if_pos this]
      simp only [declared, patterns, itemCount, ih, and_self]
    | patternProps ps =>
      have : (!ex.contains (Kw.patternProps ps).name) = true := by
        have hn : (Kw.patternProps ps).name = "patternProperties".toList := rfl
        rw [hn]
        simpa using h'
      rw [if_pos this]
      simp only [declared, patterns, itemCount, ih, and_self]
    | itemsList ss =>
      have : (!ex.contains (Kw.itemsList ss).name) = true := by
        have hn : (Kw.itemsList ss).name = "items".toList := rfl
        rw [hn]
        simpa using h''
      rw [if_pos this]
      simp only [declared, patterns, itemCount, ih, and_self]
    | _ =>
      split <;> simp only [declared, patterns, itemCount, ih, and_self]

theorem name_type (k : Kw) (h : k.name = "type".toList) :
    (∃ t, k = .leaf (.type t)) ∨ k = .leaf (.other "type".toList) := by
  cases k with
  | leaf f =>
    cases f with
    | type t => exact Or.inl ⟨t, rfl⟩
    | other k => exact Or.inr (congrArg (Kw.leaf ∘ Leaf.other) h)
    | _ => exact absurd h (of_decide_eq_true (show decide (¬ ((_ : List Char) = _)) = true from rfl))
  | defs b ds => cases b <;> exact absurd h (of_decide_eq_true (show decide (¬ ((_ : List Char) = _)) = true from rfl))
  | _ => exact absurd h (of_decide_eq_true (show decide (¬ ((_ : List Char) = _)) = true from rfl))

theorem kwErrs_silent (d : Around) (k : Kw) (v : Val) (h : k.name = "type".toList) : kwErrs d k v = [] := by
  rcases name_type k h with ⟨t, rfl⟩ | rfl <;> simp [kwErrs, leafErrs, bad]

theorem kwsErrs_typeless (d : Around) : (l : List Kw) → (v : Val) →
    kwsErrs d (l.filter fun k => !(k.name == "type".toList)) v = kwsErrs d l v
  | [], v => rfl
  | k :: l, v => by
    rw [List.filter_cons, kwsErrs, ← kwsErrs_typeless d l v]
    by_cases h : k.name = "type".toList
    · rw [if_neg (by rw [h]; decide), kwErrs_silent d k v h]; rfl
    · rw [if_pos (by simpa using h), kwsErrs]

theorem around_typeless : (l : List Kw) → around (l.filter fun k => !(k.name == "type".toList)) = around l
  | [] => rfl
  | k :: l => by
    rw [List.filter_cons]
    have ih := around_typeless l
    by_cases h : k.name = "type".toList
    · rw [if_neg (by rw [h]; decide), ih]
      rcases name_type k h with ⟨t, rfl⟩ | rfl <;> simp only [around, declared, patterns, itemCount]
    · rw [if_pos (by simpa using h)]
      simp only [around, Around.mk.injEq] at ih ⊢
      cases k <;> simp only [declared, patterns, itemCount, ih, and_self]

theorem hasRef_typeless : (l : List Kw) → hasRef (l.filter fun k => !(k.name == "type".toList)) = hasRef l
  | [] => rfl
  | k :: l => by
    rw [List.filter_cons]
    have ih := hasRef_typeless l
    by_cases h : k.name = "type".toList
    · rw [if_neg (by rw [h]; decide), ih]
      rcases name_type k h with ⟨t, rfl⟩ | rfl <;> simp only [hasRef]
    · rw [if_pos (by simpa using h)]
      cases k with
      | leaf f => cases f <;> simp only [hasRef, ih]
      | _ => simp only [hasRef, ih]

theorem errs_typeless (l : List Kw) (v : Val) :
    errs (.kws (l.filter fun k => !(k.name == "type".toList))) v = errs (.kws l) v := by
  rw [errs, errs, around_typeless, hasRef_typeless, kwsErrs_typeless]

end Verif.Validate
