import Verif.Spec.Repr
/-
C312-C314: the schemas that represent types, and types given where a type is made.
-/
namespace Verif.Repr
open Spec

/-! ### Lookups -/

theorem get?_vals (d : List (Str × Val)) (k : Str) : AList.get? (vals d) k = (AList.get? d k).map Rep.val := by
  induction d with
  | nil => rfl
  | cons p d ih =>
    obtain ⟨k', v⟩ := p
    show AList.get? ((k', Rep.val v) :: vals d) k = _
    simp only [AList.get?]
    split <;> simp [ih]

theorem get?_base (d : List (Str × Val)) (k : Str) : AList.get? (base d) k = (AList.get? d k).map Rep.val := by
  rw [← get?_vals]
  unfold base
  cases h : AList.get? (vals d) "type".toList with
  | none => rfl
  | some t =>
    simp only [AList.get?]
    by_cases hk : "type".toList = k
    · subst hk
      rw [if_pos rfl, h]
    · rw [if_neg hk, AList.get?_erase, if_neg (Ne.symm hk)]

theorem get?_setIf (b : Bool) (s : Sch) (x : String) (r : Rep) (k : Str) :
    AList.get? (setIf b s x r) k = if b = true ∧ x.toList = k then some r else AList.get? s k := by
  unfold setIf
  cases b <;> simp [AList.get?_set]

theorem mem_set {s : Sch} {k k' : Str} {r r' : Rep} (h : (k', r') ∈ AList.set s k r) :
    r' = r ∨ (k', r') ∈ s := by
  induction s with
  | nil => simp only [AList.set, List.mem_singleton, Prod.mk.injEq] at h; exact .inl h.2
  | cons p s ih =>
    obtain ⟨a, b⟩ := p
    simp only [AList.set] at h
    split at h
    · rcases List.mem_cons.1 h with h | h
      · exact .inl (Prod.mk.inj h).2
      · exact .inr (by simp [h])
    · rcases List.mem_cons.1 h with h | h
      · exact .inr (by rw [h]; simp)
      · rcases ih h with h | h
        · exact .inl h
        · exact .inr (by simp [h])

/-- Nothing but values in a schema. -/
def JsonS (s : Sch) : Prop := ∀ k r, (k, r) ∈ s → Json r

theorem jsonS_set {s : Sch} (hs : JsonS s) (k : Str) {r : Rep} (hr : Json r) : JsonS (AList.set s k r) := by
  intro k' r' h
  rcases mem_set h with rfl | h
  · exact hr
  · exact hs _ _ h

theorem jsonS_setIf {s : Sch} (hs : JsonS s) (b : Bool) (k : String) {r : Rep} (hr : b = true → Json r) :
    JsonS (setIf b s k r) := by
  unfold setIf
  split
  · rename_i h; exact jsonS_set hs _ (hr h)
  · exact hs

theorem jsonS_vals (d : List (Str × Val)) : JsonS (vals d) := by
  intro k r h
  obtain ⟨p, -, hp⟩ := List.mem_map.1 h
  rw [← (Prod.mk.inj hp).2]
  exact .val _

theorem jsonS_base (d : List (Str × Val)) : JsonS (base d) := by
  unfold base
  cases h : AList.get? (vals d) "type".toList with
  | none => exact jsonS_vals d
  | some t =>
    intro k r hm
    rcases List.mem_cons.1 hm with hm | hm
    · rw [(Prod.mk.inj hm).2]
      exact jsonS_vals d _ _ (AList.mem_of_get? h)
    · exact jsonS_vals d k r (List.mem_filter.1 hm).1

theorem jsonS_withArr {s : Sch} (hs : JsonS s) (a : Arr) : JsonS (withArr s a) := by
  unfold withArr
  refine jsonS_setIf (jsonS_setIf (jsonS_setIf (jsonS_setIf (jsonS_setIf hs _ _ ?_) _ _ ?_) _ _ ?_) _ _ ?_) _ _ ?_ <;>
    exact fun _ => .val _

theorem json_names (l : List Str) : Json (names l) := by
  refine .list _ fun r hr => ?_
  obtain ⟨s, -, rfl⟩ := List.mem_map.1 hr
  exact .val _

theorem jsonS_withObj {s : Sch} (hs : JsonS s) (o : Obj) : JsonS (withObj s o) := by
  unfold withObj
  exact jsonS_setIf (jsonS_setIf (jsonS_setIf hs _ _ fun _ => .val _) _ _ fun _ => json_names _) _ _
    fun _ => json_names _

theorem json_rep (s : Sch) : Json s.rep ↔ JsonS s := by
  constructor
  · intro h k r hm
    cases h with
    | dict d h hk => exact h (.name k) r (List.mem_map.2 ⟨(k, r), hm, rfl⟩)
  · intro h
    refine .dict _ (fun k r hm => ?_) fun k r hm => ?_
    · obtain ⟨p, hp, e⟩ := List.mem_map.1 hm
      rw [← (Prod.mk.inj e).2]
      exact h p.1 p.2 hp
    · obtain ⟨p, hp, e⟩ := List.mem_map.1 hm
      exact ⟨p.1, (Prod.mk.inj e).1.symm⟩

/-- Keywords of array types and object types. -/
def arrKeys : List Str :=
  ["minItems".toList, "maxItems".toList, "uniqueItems".toList, "splitString".toList, "strDelimiter".toList]
def objKeys : List Str := ["type".toList, "required".toList, "readOnly".toList]

theorem get?_withArr (s : Sch) (a : Arr) {k : Str} (hk : k ∉ arrKeys) :
    AList.get? (withArr s a) k = AList.get? s k := by
  simp only [arrKeys, List.mem_cons, List.not_mem_nil, or_false, not_or] at hk
  unfold withArr
  simp only [get?_setIf]
  rw [if_neg fun h => hk.2.2.2.2 h.2.symm, if_neg fun h => hk.2.2.2.1 h.2.symm, if_neg fun h => hk.2.2.1 h.2.symm,
    if_neg fun h => hk.2.1 h.2.symm, if_neg fun h => hk.1 h.2.symm]

theorem get?_withObj (s : Sch) (o : Obj) {k : Str} (hk : k ∉ objKeys) :
    AList.get? (withObj s o) k = AList.get? s k := by
  simp only [objKeys, List.mem_cons, List.not_mem_nil, or_false, not_or] at hk
  unfold withObj
  simp only [get?_setIf]
  rw [if_neg fun h => hk.2.2 h.2.symm, if_neg fun h => hk.2.1 h.2.symm, if_neg fun h => hk.1 h.2.symm]

/-! ### C314: a type is represented by a schema -/

theorem noConst_isInst (own c : Attrs) : (Ty.inst own c).isInst = true ↔ NoConst own := by
  cases own with
  | const d b => exact ⟨fun h => (nomatch h), fun h => (nomatch h)⟩
  | plain d => exact ⟨fun _ => .plain _, fun _ => rfl⟩
  | array d i a => exact ⟨fun _ => .array _ _ _, fun _ => rfl⟩
  | object d o ps pp t => exact ⟨fun _ => .object _ _ _ _ _, fun _ => rfl⟩

theorem itemsReps_eq (l : List Ty) : itemsReps l = l.map itemRep := by
  induction l with
  | nil => rfl
  | cons t l ih => simp [itemsReps, ih]

theorem propsRep_eq (key : Str → Key) (ps : List (Str × Ty)) :
    propsRep key ps = ps.map fun p => (key p.1, Sch.rep (reprSchema p.2)) := by
  induction ps with
  | nil => rfl
  | cons p ps ih => obtain ⟨k, t⟩ := p; simp [propsRep, ih]

mutual
theorem repr_json : (l : Attrs) → (JsonS (repr l) ↔ Writable l)
  | .const d b => ⟨fun _ => .const d b, fun _ => by simp only [repr]; exact jsonS_base d⟩
  | .plain d => ⟨fun _ => .plain d, fun _ => by simp only [repr]; exact jsonS_base d⟩
  | .array d (.one t) a => by
    have ih := itemRep_json t
    simp only [repr]
    constructor
    · intro h
      cases ht : (Items.one t).truthy with
      | false =>
        have hf : ∃ s c, t = .inst (.const s false) c := by
          revert ht
          simp only [Items.truthy]
          intro ht
          cases t with
          | cls l => cases ht
          | inst own c =>
            cases own with
            | const s b => cases b with
              | true => cases ht
              | false => exact ⟨s, c, rfl⟩
            | plain => cases ht
            | array => cases ht
            | object => cases ht
        obtain ⟨s, c, rfl⟩ := hf
        exact .never d s c a
      | true =>
        rw [ht] at h
        refine .one d t a (ih.1 ?_)
        refine h "items".toList _ (AList.mem_of_get? ?_)
        rw [get?_withArr _ _ (by decide +kernel), get?_setIf, if_pos ⟨rfl, rfl⟩]
        simp only [itemsRep]
    · intro h
      refine jsonS_withArr (jsonS_setIf (jsonS_base d) _ _ fun ht => ?_) a
      simp only [itemsRep]
      cases h with
      | never => cases ht
      | one _ _ _ h => exact ih.2 h
  | .array d (.list l) a => by
    have ih := itemsReps_json l
    simp only [repr]
    constructor
    · intro h
      refine .list d l a ?_
      cases l with
      | nil => intro t ht; cases ht
      | cons t l =>
        refine ih.1 ?_
        have hj : Json (itemsRep (.list (t :: l))) := by
          refine h "items".toList _ (AList.mem_of_get? ?_)
          rw [get?_withArr _ _ (by decide +kernel), get?_setIf, if_pos ⟨rfl, rfl⟩]
        simp only [itemsRep] at hj
        cases hj with
        | list _ h => exact h
    · intro h
      refine jsonS_withArr (jsonS_setIf (jsonS_base d) _ _ fun ht => ?_) a
      simp only [itemsRep]
      cases h with
      | list _ _ _ h => exact .list _ (ih.2 h)
  | .object d o ps pp t => by
    have ih := propsRep_json (key := .name) ps
    constructor
    · intro h
      have hpp : pp = [] := by
        cases pp with
        | nil => rfl
        | cons p pp =>
          have hj : Json (.dict (propsRep .regex (p :: pp))) := by
            refine h "patternProperties".toList _ (AList.mem_of_get? ?_)
            simp only [repr]
            rw [get?_setIf, if_neg fun h => absurd h.2 (by decide +kernel), get?_setIf, if_pos ⟨rfl, rfl⟩]
          rw [propsRep_eq] at hj
          cases hj with
          | dict _ _ hk =>
            obtain ⟨s, hs⟩ := hk _ _ (List.mem_cons_self ..)
            cases hs
      subst hpp
      refine .object d o ps t ?_
      cases ps with
      | nil => intro k p hp; cases hp
      | cons p ps =>
        refine ih.1 ?_
        have hj : Json (.dict (propsRep .name (p :: ps))) := by
          refine h "properties".toList _ (AList.mem_of_get? ?_)
          simp only [repr]
          rw [get?_setIf, if_neg fun h => absurd h.2 (by decide +kernel), get?_setIf,
            if_neg fun h => absurd h.2 (by decide +kernel), get?_setIf, if_pos ⟨rfl, rfl⟩]
        cases hj with
        | dict _ h _ => exact h
    · intro h
      cases h with
      | object _ _ _ _ h =>
      simp only [repr]
      refine jsonS_setIf (jsonS_setIf (jsonS_setIf (jsonS_withObj (jsonS_base d) o) _ _ fun _ => ?_) _ _ fun h => ?_) _ _
        fun _ => .val _
      · refine .dict _ (ih.2 h) fun k r hm => ?_
        rw [propsRep_eq] at hm
        obtain ⟨p, -, e⟩ := List.mem_map.1 hm
        exact ⟨p.1, (Prod.mk.inj e).1.symm⟩
      · cases h
theorem itemRep_json : (t : Ty) → (Json (itemRep t) ↔ AsItem t)
  | .cls l => by
    simp only [itemRep]
    exact ⟨fun h => (nomatch h), fun h => (nomatch h)⟩
  | .inst own c => by
    have ih := repr_json own
    simp only [itemRep]
    split
    · rename_i hi
      rw [json_rep, ih]
      exact ⟨fun h => .inst own c ((noConst_isInst own c).1 hi) h, fun h => by cases h; assumption⟩
    · rename_i hi
      exact ⟨fun h => (nomatch h), fun h => by
        cases h with
        | inst _ _ hc _ => exact absurd ((noConst_isInst own c).2 hc) hi⟩
theorem itemsReps_json : (l : List Ty) → ((∀ r, r ∈ itemsReps l → Json r) ↔ ∀ t, t ∈ l → AsItem t)
  | [] => by simp [itemsReps]
  | t :: l => by
    have h1 := itemRep_json t
    have h2 := itemsReps_json l
    simp only [itemsReps, List.mem_cons, forall_eq_or_imp, h1, h2]
theorem propsRep_json {key : Str → Key} : (ps : List (Str × Ty)) →
    ((∀ k r, (k, r) ∈ propsRep key ps → Json r) ↔ ∀ k t, (k, t) ∈ ps → AsProperty t)
  | [] => by simp [propsRep]
  | (k, t) :: ps => by
    have h1 := reprSchema_json t
    have h2 := propsRep_json (key := key) ps
    simp only [propsRep]
    constructor
    · intro h k' t' hm
      rcases List.mem_cons.1 hm with hm | hm
      · rw [(Prod.mk.inj hm).2]
        exact h1.1 ((json_rep _).1 (h _ _ (List.mem_cons_self ..)))
      · exact h2.1 (fun k r hr => h k r (List.mem_cons_of_mem _ hr)) k' t' hm
    · intro h k' r' hm
      rcases List.mem_cons.1 hm with hm | hm
      · rw [(Prod.mk.inj hm).2]
        exact (json_rep _).2 (h1.2 (h _ _ (List.mem_cons_self ..)))
      · exact h2.2 (fun k t ht => h k t (List.mem_cons_of_mem _ ht)) k' r' hm
theorem reprSchema_json : (t : Ty) → (JsonS (reprSchema t) ↔ AsProperty t)
  | .cls l => by
    have ih := repr_json l
    simp only [reprSchema]
    rw [ih]
    exact ⟨fun h => .cls l h, fun h => by cases h; assumption⟩
  | .inst own c => by
    have ih := repr_json c
    simp only [reprSchema]
    rw [ih]
    exact ⟨fun h => .inst own c h, fun h => by cases h; assumption⟩
end

/-- Exactly if its array types have instances for items and its object types have no patterns, all the way down, the
representation of a type is a schema: values under names. -/
theorem C314_schema_partial (l : Attrs) : Json (Sch.rep (repr l)) ↔ Writable l :=
  (json_rep _).trans (repr_json l)

example : Writable (.object [] ⟨[], []⟩ [("a".toList, .cls (.array [] (.one (.inst (.plain []) (.plain []))) ⟨1, none, false, false, [','] ⟩))] []
    (.inst (.const [] true) (.const [] true))) :=
  .object _ _ _ _ fun k p h => by
    simp only [List.mem_singleton, Prod.mk.injEq] at h
    rw [h.2]
    exact .cls _ (.one _ _ _ (.inst _ _ (.plain _) (.plain _)))

/-- The array type as it comes, and every array type whose items are a class or the constant that accepts everything,
has a representation that holds a type. -/
theorem C314_items_violated (d : List (Str × Val)) (a : Arr) (l : Attrs) (s : List (Str × Val)) (c : Attrs) :
    AList.get? (repr (.array d (.one (.cls l)) a)) "items".toList = some (.typ (.cls l))
    ∧ AList.get? (repr (.array d (.one (.inst (.const s true) c)) a)) "items".toList
      = some (.typ (.inst (.const s true) c)) := by
  constructor <;>
  · simp only [repr]
    rw [get?_withArr _ _ (by decide +kernel), get?_setIf, if_pos ⟨rfl, rfl⟩]
    simp [itemsRep, itemRep, Ty.isInst]

/-- The patterns of an object type are shown as compiled patterns. -/
theorem C314_pattern_violated (d : List (Str × Val)) (o : Obj) (ps pp : List (Str × Ty)) (t : Ty) (h : pp ≠ []) :
    ¬ Json (Sch.rep (repr (.object d o ps pp t))) := by
  intro hj
  have hw := (C314_schema_partial _).1 hj
  cases hw
  exact h rfl

example : [("^x".toList, Ty.cls (.plain []))] ≠ [] := nofun

/-- Types for additional properties that are true as objects are not shown. -/
theorem C314_additional_violated (d : List (Str × Val)) (o : Obj) (ps pp : List (Str × Ty)) (l l' : Attrs) :
    repr (.object d o ps pp (.cls l)) = repr (.object d o ps pp (.cls l')) := by
  simp only [repr, Ty.truthy]

/-- `type` comes first. -/
theorem C314_first (d : List (Str × Val)) (v : Val) (h : AList.get? d "type".toList = some v) :
    ∃ s, repr (.plain d) = ("type".toList, .val v) :: s := by
  have hv : AList.get? (vals d) "type".toList = some (.val v) := by rw [get?_vals, h]; rfl
  simp only [repr, base, hv]
  exact ⟨_, rfl⟩

example : AList.get? [("a".toList, Val.none), ("type".toList, .int 1)] "type".toList = some (.int 1) := by decide +kernel

/-- All keywords of the schema of a type are shown, except those that array types and object types hold elsewhere. -/
theorem C314_keywords_partial (k : Str) (d : List (Str × Val)) :
    AList.get? (repr (.plain d)) k = (AList.get? d k).map Rep.val
    ∧ (∀ b, AList.get? (repr (.const d b)) k = (AList.get? d k).map Rep.val)
    ∧ (k ∉ arrKeys → k ≠ "items".toList → ∀ i a,
      AList.get? (repr (.array d i a)) k = (AList.get? d k).map Rep.val)
    ∧ (k ∉ objKeys → k ≠ "properties".toList → k ≠ "patternProperties".toList → k ≠ "additionalProperties".toList →
      ∀ o ps pp t, AList.get? (repr (.object d o ps pp t)) k = (AList.get? d k).map Rep.val) := by
  refine ⟨?_, fun b => ?_, fun hk hi i a => ?_, fun hk h1 h2 h3 o ps pp t => ?_⟩
  · simp only [repr, get?_base]
  · simp only [repr, get?_base]
  · simp only [repr]
    rw [get?_withArr _ _ hk, get?_setIf, if_neg fun h => hi h.2.symm, get?_base]
  · simp only [repr]
    rw [get?_setIf, if_neg fun h => h3 h.2.symm, get?_setIf, if_neg fun h => h2 h.2.symm, get?_setIf,
      if_neg fun h => h1 h.2.symm, get?_withObj _ _ hk, get?_base]

example : "title".toList ∉ arrKeys ∧ "title".toList ∉ objKeys := by decide +kernel

/-- The limits of an array type are shown, if they are not zero. -/
theorem C314_array_partial (d : List (Str × Val)) (i : Items) (a : Arr) :
    (a.minItems ≠ 0 → AList.get? (repr (.array d i a)) "minItems".toList = some (.val (.int a.minItems)))
    ∧ (∀ n, a.maxItems = some n → n ≠ 0 → AList.get? (repr (.array d i a)) "maxItems".toList = some (.val (.int n)))
    ∧ (a.uniqueItems = true → AList.get? (repr (.array d i a)) "uniqueItems".toList = some (.val (.bool true)))
    ∧ (a.splitString = true → AList.get? (repr (.array d i a)) "splitString".toList = some (.val (.bool true))
      ∧ AList.get? (repr (.array d i a)) "strDelimiter".toList = some (.val (.str a.strDelimiter))) := by
  simp only [repr, withArr, get?_setIf]
  refine ⟨fun h => ?_, fun n hn h => ?_, fun h => ?_, fun h => ⟨?_, ?_⟩⟩
  · rw [if_neg fun h => absurd h.2 (by decide +kernel), if_neg fun h => absurd h.2 (by decide +kernel),
      if_neg fun h => absurd h.2 (by decide +kernel), if_neg fun h => absurd h.2 (by decide +kernel),
      if_pos ⟨bne_iff_ne.2 h, trivial⟩]
  · rw [if_neg fun h => absurd h.2 (by decide +kernel), if_neg fun h => absurd h.2 (by decide +kernel),
      if_neg fun h => absurd h.2 (by decide +kernel), hn, if_pos ⟨bne_iff_ne.2 h, trivial⟩]
    rfl
  · rw [if_neg fun h => absurd h.2 (by decide +kernel), if_neg fun h => absurd h.2 (by decide +kernel), if_pos ⟨h, trivial⟩]
  · rw [if_neg fun h => absurd h.2 (by decide +kernel), if_pos ⟨h, trivial⟩]
  · rw [if_pos ⟨h, trivial⟩]

example : (⟨1, some 2, true, true, [';']⟩ : Arr).minItems ≠ 0 := by decide +kernel

/-- The required and the read-only properties of an object type are shown, and that it accepts no others; what the
schema has for its type is not. -/
theorem C314_object_partial (d : List (Str × Val)) (o : Obj) (ps pp : List (Str × Ty)) (t : Ty) :
    AList.get? (repr (.object d o ps pp t)) "type".toList = some (.val (.str "object".toList))
    ∧ (o.required ≠ [] → AList.get? (repr (.object d o ps pp t)) "required".toList
      = some (.list (o.required.map fun s => .val (.str s))))
    ∧ (o.readOnly ≠ [] → AList.get? (repr (.object d o ps pp t)) "readOnly".toList
      = some (.list (o.readOnly.map fun s => .val (.str s))))
    ∧ (∀ s c, t = .inst (.const s false) c →
      AList.get? (repr (.object d o ps pp t)) "additionalProperties".toList = some (.val (.bool false)))
    ∧ (ps ≠ [] → AList.get? (repr (.object d o ps pp t)) "properties".toList
      = some (.dict (ps.map fun p => (.name p.1, Sch.rep (reprSchema p.2))))) := by
  simp only [repr, withObj, get?_setIf]
  refine ⟨?_, fun h => ?_, fun h => ?_, fun s c h => ?_, fun h => ?_⟩
  · rw [if_neg fun h => absurd h.2 (by decide +kernel), if_neg fun h => absurd h.2 (by decide +kernel),
      if_neg fun h => absurd h.2 (by decide +kernel), if_neg fun h => absurd h.2 (by decide +kernel),
      if_neg fun h => absurd h.2 (by decide +kernel), if_pos ⟨trivial, trivial⟩]
  · rw [if_neg fun h => absurd h.2 (by decide +kernel), if_neg fun h => absurd h.2 (by decide +kernel),
      if_neg fun h => absurd h.2 (by decide +kernel), if_neg fun h => absurd h.2 (by decide +kernel),
      if_pos ⟨by simp [h], trivial⟩]
    rfl
  · rw [if_neg fun h => absurd h.2 (by decide +kernel), if_neg fun h => absurd h.2 (by decide +kernel),
      if_neg fun h => absurd h.2 (by decide +kernel), if_pos ⟨by simp [h], trivial⟩]
    rfl
  · subst h
    rw [if_pos ⟨rfl, trivial⟩]
  · rw [if_neg fun h => absurd h.2 (by decide +kernel), if_neg fun h => absurd h.2 (by decide +kernel),
      if_pos ⟨by simp [h], trivial⟩, propsRep_eq]

example : (⟨["a".toList], ["b".toList]⟩ : Obj).required ≠ [] := nofun

/-- Array types and object types cannot be represented with options. -/
theorem C314_options_violated (schema : Option (List (Str × Val))) (others : Bool) (h : schema.isSome = true ∨ others = true)
    (d : List (Str × Val)) (i : Items) (a : Arr) (o : Obj) (ps pp : List (Str × Ty)) (t : Ty) :
    reprSchemaOpts schema others (.cls (.array d i a)) = .error .typeError
    ∧ reprSchemaOpts schema others (.cls (.object d o ps pp t)) = .error .typeError := by
  have hb : (schema.isSome || others) = true := by simpa using h
  simp [reprSchemaOpts, hb]

example : (some ([] : List (Str × Val))).isSome = true ∨ false = true := .inl rfl

/-! ### C312: a type used as a property keeps its constraints -/

/-- A class does, whatever it is, and a type with an identifier is referred to. -/
theorem C312_class_partial (l : Attrs) (t : Ty) (i : Str) :
    hold .property (.typ (.cls l) none) = .ok (.built (repr l))
    ∧ hold .property (.typ t (some i)) = .ok (.built [("$ref".toList, .val (.str i))]) := by
  constructor
  · simp only [hold, untyped, reprSchema]
  · rfl

/-- Of an instance, exactly what its class has is kept. -/
theorem C312_instance_partial (own c : List (Str × Val)) :
    ∃ s, hold .property (.typ (.inst (.plain own) (.plain c)) none) = .ok (.built s)
      ∧ (∀ k, AList.get? s k = (AList.get? c k).map Rep.val)
      ∧ (Keeps own s ↔ ∀ k v, AList.get? own k = some v → AList.get? c k = some v) := by
  have hs : ∀ k, AList.get? (base c) k = (AList.get? c k).map Rep.val := get?_base c
  refine ⟨base c, by simp only [hold, untyped, reprSchema, repr], hs, ?_⟩
  constructor
  · intro h k v hk
    have := h k v hk
    rw [hs] at this
    cases hc : AList.get? c k with
    | none => rw [hc] at this; cases this
    | some w =>
      rw [hc] at this
      injection this with this
      injection this with this
      rw [this]
  · intro h k v hk
    rw [hs, h k v hk]
    rfl

/-- A constraint given to an instance is shown by the instance and lost in the property. -/
theorem C312_lost_violated (c : List (Str × Val)) (k : Str) (v : Val) (hk : AList.get? c k = none) :
    AList.get? (shown (.inst (.plain ((k, v) :: c)) (.plain c))) k = some (.val v)
    ∧ ∃ s, hold .property (.typ (.inst (.plain ((k, v) :: c)) (.plain c)) none) = .ok (.built s)
      ∧ AList.get? s k = none := by
  constructor
  · simp only [shown, repr, get?_base]
    simp [AList.get?]
  · refine ⟨base c, by simp only [hold, untyped, reprSchema, repr], ?_⟩
    rw [get?_base, hk]
    rfl

example : AList.get? [("type".toList, Val.str "string".toList)] "minLength".toList = none := by decide +kernel

/-- Whatever instances of a class are used, the properties are the same. -/
theorem C312_same_violated (own own' c : Attrs) :
    hold .property (.typ (.inst own c) none) = hold .property (.typ (.inst own' c) none) := by
  simp only [hold, untyped, reprSchema]

/-! ### C313: types and booleans can be given wherever schemas can -/

theorem keeps_vals (d : List (Str × Val)) : Keeps d (vals d) := by
  intro k v h
  rw [get?_vals, h]
  rfl

theorem prim_unique {t : Ty} {d c d' c' : List (Str × Val)} (h : Prim t d c) (h' : Prim t d' c') : d = d' ∧ c = c' := by
  cases h <;> cases h' <;> exact ⟨rfl, rfl⟩

theorem prim_repr {t : Ty} {d c : List (Str × Val)} (h : Prim t d c) : reprSchema t = base c := by
  cases h <;> simp only [reprSchema, repr]

theorem keeps_base (d c : List (Str × Val)) :
    Keeps d (base c) ↔ ∀ k v, AList.get? d k = some v → AList.get? c k = some v := by
  constructor
  · intro h k v hk
    have := h k v hk
    rw [get?_base] at this
    cases hc : AList.get? c k with
    | none => rw [hc] at this; cases this
    | some w =>
      rw [hc] at this
      injection this with this
      injection this with this
      rw [this]
  · intro h k v hk
    rw [get?_base, h k v hk]
    rfl

/-- What is held is what was given exactly for: schemas anywhere but for patterns; booleans for properties, additional
properties and items in lists; types with an identifier for properties, other primitive types if their class has all
they have; types other than the false constant for the items of all positions. -/
theorem C313_places_partial (p : Place) (g : Given) :
    (∃ h, hold p g = .ok h ∧ Meant g h) ↔ Usable p g := by
  constructor
  · rintro ⟨h, he, hm⟩
    cases p with
    | pattern => cases he
    | property =>
      cases g with
      | schema d => exact .property d
      | bool b => exact .propertyBool b
      | typ t i =>
        cases i with
        | some i => exact .propertyId t i
        | none =>
          simp only [hold, untyped, Except.ok.injEq] at he
          subst he
          cases hm with
          | keywords _ d c _ hp hk =>
            rw [prim_repr hp] at hk
            exact .propertyType t d c hp ((keeps_base d c).1 hk)
    | additional =>
      cases g with
      | schema d => exact .additional d
      | bool b => exact .additionalBool b
      | typ t i => cases he
    | listItem =>
      cases g with
      | schema d => exact .listItem d
      | bool b => exact .listItemBool b
      | typ t i => cases he
    | items =>
      cases g with
      | schema d => exact .items d
      | bool b => cases b <;> cases he <;> cases hm
      | typ t i =>
        refine .itemsType t i ?_
        rintro s c rfl
        simp only [hold, Ty.truthy, Except.ok.injEq] at he
        subst he
        cases hm
  · intro h
    cases h with
    | property d => exact ⟨_, rfl, .schema d _ (keeps_vals d)⟩
    | propertyBool b => exact ⟨_, rfl, .bool b⟩
    | propertyId t i => exact ⟨_, rfl, .ref t i⟩
    | propertyType t d c hp h =>
      exact ⟨_, rfl, .keywords t d c _ hp (by
        simp only [untyped]
        rw [prim_repr hp]
        exact (keeps_base d c).2 h)⟩
    | additional d => exact ⟨_, rfl, .schema d _ (keeps_vals d)⟩
    | additionalBool b => exact ⟨_, rfl, .bool b⟩
    | listItem d => exact ⟨_, rfl, .schema d _ (keeps_vals d)⟩
    | listItemBool b => exact ⟨_, rfl, .bool b⟩
    | items d => exact ⟨_, rfl, .schema d _ (keeps_vals d)⟩
    | itemsType t i h =>
      have ht : t.truthy = true := by
        cases t with
        | cls l => rfl
        | inst own c =>
          cases own with
          | const s b => cases b with
            | true => rfl
            | false => exact absurd rfl (h s c)
          | plain => rfl
          | array => rfl
          | object => rfl
      exact ⟨_, by simp only [hold, ht, if_true], .typ t i⟩

example : Usable .items (.typ (.cls (.plain [])) none) := .itemsType _ _ nofun
example : ¬ Usable .additional (.typ (.cls (.plain [])) none) := nofun

/-- Neither a type nor a boolean can be given for everything: a type for additional properties or for an item in a list
raises an error, items that refuse everything accept everything, and items that accept everything are no type. -/
theorem C313_places_violated (t : Ty) (i : Option Str) (s : List (Str × Val)) (c : Attrs) :
    hold .additional (.typ t i) = .error .typeError ∧ hold .listItem (.typ t i) = .error .typeError
    ∧ hold .items (.typ (.inst (.const s false) c) i) = .ok (.const true)
    ∧ hold .items (.bool false) = .ok (.const true) ∧ hold .items (.bool true) = .ok (.raw true) :=
  ⟨rfl, rfl, rfl, rfl, rfl⟩

end Verif.Repr
