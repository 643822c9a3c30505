import Verif.Props.Alias
/-
C130-C133: aliases in serialised objects, and the types of properties.
-/
namespace Verif.Alias
open Types (negate)

/-! ### C130: aliases in the serialised object -/

private theorem mem_keys {κ υ : Type} [DecidableEq κ] {d : AList κ υ} {k : κ} : k ∈ d.keys ↔ ∃ v, (k, v) ∈ d := by
  simp [AList.keys]

private theorem prefixed_nil (prim : Str → Bool) (k name : Str) : prefixed [] prim k name = name := by
  simp [prefixed]

private theorem addPrefix_nil (prim : Str → Bool) (ret : AList Str Val) (wf : ret.WF) (k : Str) :
    (addPrefix [] prim ret).get? k = ret.get? k := by
  have : ret.map (fun p => (prefixed [] prim p.1 p.1, p.2)) = ret := by simp [prefixed_nil]
  unfold addPrefix
  rw [this, AList.get?_update _ wf]; simp [AList.get?]

private theorem addPrefix_wf (pre : Str) (prim : Str → Bool) (ret : AList Str Val) : (addPrefix pre prim ret).WF :=
  AList.wf_update AList.wf_nil _

/-- The value an alias gets. -/
private def aliasVal (f : Val → Res Val) (excludes : List Str) (m : AList Str Str) (ret : AList Str Val) (k : Str) : Option Val :=
  match m.get? k with
  | none => none
  | some raw => if k ∈ excludes then none else
    match ret.get? raw with
    | none => none
    | some .none => none
    | some v => (f v).toOption

private theorem writeAliases_get (f : Val → Res Val) (prim : Str → Bool) (excludes : List Str) :
    ∀ (m : AList Str Str) (ret : AList Str Val), m.WF → (∀ q ∈ m, q.2 ∉ m.keys) →
    (∀ a raw v, (a, raw) ∈ m → ret.get? raw = some v → v ≠ .none → ∃ w, f v = .ok w) →
    ∃ r, writeAliases f [] prim [] excludes m ret = .ok r ∧ (ret.WF → r.WF) ∧
      ∀ k, r.get? k = (aliasVal f excludes m ret k).or (ret.get? k)
  | [], ret, _, _, _ => ⟨ret, rfl, id, by simp [aliasVal, AList.get?]⟩
  | (a, raw) :: m, ret, wf, ht, hf => by
    have ⟨hna, wfm⟩ : a ∉ AList.keys m ∧ AList.WF m := by
      simpa [AList.WF, AList.keys_cons, List.nodup_cons] using wf
    have hra : raw ≠ a ∧ raw ∉ AList.keys m := by
      have := ht (a, raw) (by simp); simpa [AList.keys_cons] using this
    have ht' : ∀ q ∈ m, q.2 ∉ AList.keys m := fun q hq h => ht q (List.mem_cons_of_mem _ hq) (by simp [AList.keys_cons, h])
    have hna' : AList.get? m a = none := AList.get?_eq_none.2 hna
    -- the entry writes `w` or nothing
    have skip : (a ∈ excludes ∨ ret.get? raw = none ∨ ret.get? raw = some .none) →
        ∃ r, writeAliases f [] prim [] excludes ((a, raw) :: m) ret = .ok r ∧ (ret.WF → r.WF) ∧
          ∀ k, r.get? k = (aliasVal f excludes ((a, raw) :: m) ret k).or (ret.get? k) := by
      intro hs
      obtain ⟨r, he, hw, hg⟩ := writeAliases_get f prim excludes m ret wfm ht'
        (fun b x v h => hf b x v (List.mem_cons_of_mem _ h))
      refine ⟨r, ?_, hw, fun k => ?_⟩
      · rw [← he]
        rcases hs with h | h | h
        · simp [writeAliases, h]
        · by_cases h2 : a ∈ excludes <;> simp [writeAliases, h, h2]
        · by_cases h2 : a ∈ excludes <;> simp [writeAliases, h, h2]
      · rw [hg k]; congr 1
        simp only [aliasVal, AList.get?]
        by_cases hk : a = k
        · subst hk
          simp only [if_true, hna']
          rcases hs with h | h | h
          · simp [h]
          · simp [h]
          · simp [h]
        · simp [hk]
    by_cases h1 : a ∈ excludes
    · exact skip (.inl h1)
    cases h2 : ret.get? raw with
    | none => exact skip (.inr (.inl h2))
    | some v =>
      by_cases h3 : v = .none
      · exact skip (.inr (.inr (by rw [h2, h3])))
      obtain ⟨w, hw⟩ := hf a raw v (by simp) h2 h3
      obtain ⟨r, he, hwf, hg⟩ := writeAliases_get f prim excludes m (ret.set a w) wfm ht' (fun b x v' h hx => by
        rw [AList.get?_set] at hx
        by_cases e : a = x
        · subst e; exact absurd (by simp [AList.keys_cons]) (ht (b, a) (List.mem_cons_of_mem _ h))
        · rw [if_neg e] at hx; exact hf b x v' (List.mem_cons_of_mem _ h) hx)
      refine ⟨r, ?_, fun h => hwf (AList.wf_set h _ _), fun k => ?_⟩
      · rw [← he]
        cases v with
        | none => exact absurd rfl h3
        | _ => simp [writeAliases, h1, h2, hw, prefixed_nil]
      · rw [hg k, AList.get?_set]
        simp only [aliasVal, AList.get?]
        by_cases hk : a = k
        · subst hk
          simp only [if_true, hna', h1, if_false, h2, Option.none_or]
          cases v with
          | none => exact absurd rfl h3
          | _ => simp [hw, Except.toOption]
        · simp only [hk, if_false]
          congr 1
          cases hm : AList.get? m k with
          | none => rfl
          | some raw' =>
            have : a ≠ raw' := fun e => by
              subst e
              exact absurd (by simp [AList.keys_cons]) (ht (k, a) (List.mem_cons_of_mem _ (AList.mem_of_get? hm)))
            simp only [AList.get?_set, if_neg this]

/-- Everything the object has under a property with a negated alias is a whole number or None. -/
def NumbersHeld (c : Names) (ret : AList Str Val) : Prop :=
  ∀ a p v, (a, p) ∈ c.negated → (p, v) ∈ ret → v = .none ∨ ∃ i : Int, v = .int i

/-- What is written, name by name: without prefix and without `only`. -/
theorem writeNames_get (c : Names) (hc : Unambiguous c) (prim : Str → Bool) (excludes : List Str) (ret : AList Str Val)
    (wf : ret.WF) (hn : NumbersHeld c ret) :
    ∃ r, writeNames c [] prim [] excludes ret = .ok r ∧ r.WF ∧
      (∀ k, r.get? k = (aliasVal negate excludes c.negated ret k).or ((aliasVal .ok excludes c.aliases ret k).or (ret.get? k))) := by
  have ta : ∀ q ∈ c.aliases, q.2 ∉ c.aliases.keys := fun q hq h => by
    obtain ⟨r, hr⟩ := mem_keys.1 h
    exact (hc.alias_new q.2 r hr).2.1 (hc.alias_new q.1 q.2 hq).1
  have tn : ∀ q ∈ c.negated, q.2 ∉ c.negated.keys := fun q hq h => by
    obtain ⟨r, hr⟩ := mem_keys.1 h
    exact (hc.negated_new q.2 r hr).2.1 (hc.negated_new q.1 q.2 hq).1
  obtain ⟨r1, e1, w1, g1⟩ := writeAliases_get .ok prim excludes c.aliases (addPrefix [] prim ret) hc.wf_aliases ta
    (fun _ _ v _ _ _ => ⟨v, rfl⟩)
  have gp := addPrefix_nil prim ret wf
  have av : ∀ (f : Val → Res Val) (m : AList Str Str) (d d2 : AList Str Val) (k : Str), (∀ q ∈ m, d.get? q.2 = d2.get? q.2) →
      aliasVal f excludes m d k = aliasVal f excludes m d2 k := fun f m d d2 k h => by
    unfold aliasVal
    cases hm : m.get? k with
    | none => rfl
    | some raw => simp only [h (k, raw) (AList.mem_of_get? hm)]
  have g1' : ∀ k, r1.get? k = (aliasVal .ok excludes c.aliases ret k).or (ret.get? k) := fun k => by
    rw [g1 k, gp k, av .ok c.aliases _ ret k (fun q _ => gp q.2)]
  have raw1 : ∀ q ∈ c.negated, r1.get? q.2 = ret.get? q.2 := fun q hq => by
    rw [g1' q.2]
    have : c.aliases.get? q.2 = none := AList.get?_eq_none.2 (fun h => by
      obtain ⟨r, hr⟩ := mem_keys.1 h
      exact (hc.alias_new q.2 r hr).2.1 (hc.negated_new q.1 q.2 hq).1)
    simp [aliasVal, this]
  obtain ⟨r2, e2, w2, g2⟩ := writeAliases_get negate prim excludes c.negated r1 hc.wf_negated tn
    (fun a raw v h hx hv => by
      rw [raw1 (a, raw) h] at hx
      rcases hn a raw v h (AList.mem_of_get? hx) with h' | ⟨i, rfl⟩
      · exact absurd h' hv
      · exact ⟨.int (-i), rfl⟩)
  refine ⟨r2, by simp only [writeNames, e1, e2], w2 (w1 (addPrefix_wf _ _ _)), fun k => ?_⟩
  rw [g2 k, g1' k, av negate c.negated r1 ret k raw1]

/-- **C130, the part that holds.** Without prefix and without `only`, the serialised object has every alias that is not
excluded, with the value of its property, and every negated alias with the opposite, and nothing else is changed. -/
theorem C130_aliases_partial (c : Names) (hc : Unambiguous c) (prim : Str → Bool) (excludes : List Str) (ret : AList Str Val)
    (wf : (ret.map Prod.fst).Nodup) (hn : NumbersHeld c ret)
    (plain : ∀ a p, ((a, p) ∈ c.aliases ∨ (a, p) ∈ c.negated) → a ∉ ret.map Prod.fst) :
    ∃ r, writeNames c [] prim [] excludes ret = .ok r ∧
      (∀ a p, (a, p) ∈ c.aliases → ∀ v, (a, v) ∈ r ↔ a ∉ excludes ∧ v ≠ .none ∧ (p, v) ∈ ret) ∧
      (∀ a p, (a, p) ∈ c.negated → ∀ v, (a, v) ∈ r ↔ a ∉ excludes ∧ ∃ i : Int, v = .int (-i) ∧ (p, .int i) ∈ ret) ∧
      (∀ k v, (∀ p, (k, p) ∉ c.aliases ∧ (k, p) ∉ c.negated) → ((k, v) ∈ r ↔ (k, v) ∈ ret)) := by
  obtain ⟨r, he, wr, g⟩ := writeNames_get c hc prim excludes ret wf hn
  have rm : ∀ k v, (k, v) ∈ r ↔ r.get? k = some v := fun k v => (AList.get?_iff_mem wr).symm
  have dm : ∀ k v, (k, v) ∈ ret ↔ ret.get? k = some v := fun k v => (AList.get?_iff_mem wf).symm
  refine ⟨r, he, fun a p ha v => ?_, fun a p ha v => ?_, fun k v hk => ?_⟩
  · have h1 : c.negated.get? a = none := AList.get?_eq_none.2 (fun h => by
      obtain ⟨q, hq⟩ := mem_keys.1 h; exact (hc.alias_new a p ha).2.2.2 q hq)
    have h2 : c.aliases.get? a = some p := AList.get?_of_mem hc.wf_aliases ha
    have h3 : ret.get? a = none := AList.get?_eq_none.2 (plain a p (.inl ha))
    rw [rm, g a, h3, dm]
    simp only [aliasVal, h1, h2, Option.none_or, Option.or_none]
    by_cases hx : a ∈ excludes
    · simp [hx]
    · simp only [hx, if_false, not_false_eq_true, true_and]
      cases hr : ret.get? p with
      | none => simp
      | some w =>
        by_cases hw : w = .none
        · subst hw
          simp only [Option.some.injEq, reduceCtorEq, false_iff, not_and]
          exact fun h e => h e.symm
        · have : (match some w with
              | none => none
              | some .none => none
              | some v => (Except.ok v : Res Val).toOption) = some w := by
            cases w <;> first | rfl | exact absurd rfl hw
          refine (iff_of_eq (congrArg (· = some v) this)).trans ?_
          simp only [Option.some.injEq]
          exact ⟨fun h => ⟨h ▸ hw, h⟩, fun h => h.2⟩
  · have h1 : c.negated.get? a = some p := AList.get?_of_mem hc.wf_negated ha
    have h2 : c.aliases.get? a = none := AList.get?_eq_none.2 (fun h => by
      obtain ⟨q, hq⟩ := mem_keys.1 h; exact (hc.alias_new a q hq).2.2.2 p ha)
    have h3 : ret.get? a = none := AList.get?_eq_none.2 (plain a p (.inr ha))
    rw [rm, g a, h3]
    simp only [aliasVal, h1, h2, Option.or_none]
    by_cases hx : a ∈ excludes
    · simp [hx]
    · simp only [hx, if_false, not_false_eq_true, true_and]
      cases hr : ret.get? p with
      | none => simp [dm, hr]
      | some w =>
        rcases hn a p w ha (AList.mem_of_get? hr) with rfl | ⟨i, rfl⟩
        · simp [dm, hr]
        · simp only [negate, Except.toOption, Option.some.injEq, dm, hr]
          constructor
          · intro h; exact ⟨i, h.symm, rfl⟩
          · rintro ⟨j, rfl, h⟩; cases h; rfl
  · have h1 : c.negated.get? k = none := AList.get?_eq_none.2 (fun h => by
      obtain ⟨q, hq⟩ := mem_keys.1 h; exact (hk q).2 hq)
    have h2 : c.aliases.get? k = none := AList.get?_eq_none.2 (fun h => by
      obtain ⟨q, hq⟩ := mem_keys.1 h; exact (hk q).1 hq)
    rw [rm, g k, dm]
    simp [aliasVal, h1, h2]

private def box : Names where
  props := ["weight".toList, "drop".toList]
  aliases := [("mass".toList, "weight".toList)]
  negated := [("rise".toList, "drop".toList)]

private theorem box_ok : Unambiguous box := by constructor <;> simp [box]

private def boxDecl : Types.ObjDecl :=
  { props := [("weight".toList, .none), ("drop".toList, .none)], pattern := fun _ => false, additional := true, required := [],
    readOnly := [], negated := some ["rise".toList] }

private def boxData : AList Str Val := [("weight".toList, .int 4), ("drop".toList, .int 2)]

example : serialize id id box boxDecl [] (fun _ => true) [] [] boxData =
    .ok [("weight".toList, .int 4), ("drop".toList, .int 2), ("mass".toList, .int 4), ("rise".toList, .int (-2))] := by
  decide +kernel

example : NumbersHeld box boxData := by
  intro a p v h h'
  simp only [box, List.mem_singleton, Prod.mk.injEq] at h
  obtain ⟨rfl, rfl⟩ := h
  simp [boxData] at h'
  exact .inr ⟨2, h'⟩

/-- **C130 is violated.** An alias asked for with `only` is not written, and with a prefix for attributes no alias of a
primitive property is written, although the property has a value. -/
theorem C130_aliases_violated : ∃ (c : Names) (o : Types.ObjDecl) (d : AList Str Val), Unambiguous c ∧
    ("mass".toList, "weight".toList) ∈ c.aliases ∧ ("weight".toList, Val.int 4) ∈ d ∧
    serialize id id c o [] (fun _ => true) ["mass".toList] [] d = .ok [] ∧
    serialize id id c o "@".toList (fun _ => true) [] [] d = .ok [("@weight".toList, .int 4), ("@drop".toList, .int 2)] :=
  ⟨box, boxDecl, boxData, box_ok, by decide +kernel, by decide +kernel, by decide +kernel, by decide +kernel⟩

/-- **C130, exact behaviour.** With a prefix, no alias of a primitive property is ever written, unless the object has a
key that reads like a property with the prefix: what is written is the object itself. -/
theorem C130_prefix_violated (c : Names) (attrPrefix : Str) (prim : Str → Bool) (only excludes : List Str) (ret : AList Str Val)
    (hp : ∀ a p, ((a, p) ∈ c.aliases ∨ (a, p) ∈ c.negated) → p ∉ (addPrefix attrPrefix prim ret).keys) :
    writeNames c attrPrefix prim only excludes ret = .ok (addPrefix attrPrefix prim ret) := by
  have go : ∀ (f : Val → Res Val) (m : AList Str Str), (∀ q ∈ m, q.2 ∉ (addPrefix attrPrefix prim ret).keys) →
      writeAliases f attrPrefix prim only excludes m (addPrefix attrPrefix prim ret) = .ok (addPrefix attrPrefix prim ret) := by
    intro f m
    induction m with
    | nil => intro _; rfl
    | cons q m ih =>
      intro h
      have hq := AList.get?_eq_none.2 (h q (by simp))
      have hm := ih (fun r hr => h r (List.mem_cons_of_mem _ hr))
      simp only [writeAliases, hq, hm, ite_self]
  simp only [writeNames, go .ok c.aliases (fun q hq => hp q.1 q.2 (.inl hq)), go negate c.negated (fun q hq => hp q.1 q.2 (.inr hq))]

example : ∀ a p, ((a, p) ∈ box.aliases ∨ (a, p) ∈ box.negated) → p ∉ (addPrefix "@".toList (fun _ => true) boxData).keys := by
  intro a p h
  simp only [box, List.mem_singleton, Prod.mk.injEq] at h
  rcases h with ⟨_, rfl⟩ | ⟨_, rfl⟩ <;> decide +kernel

/-! ### C131: what is written reads back -/

/-- **C131, the part that holds.** What is written without prefix, aliases included, is read back as the same data,
whichever aliases are excluded. -/
theorem C131_roundtrip_partial (ord : List Str → List Str) (hord : ∀ l, (ord l).Perm l) (c : Names) (hc : Unambiguous c)
    (prim : Str → Bool) (excludes : List Str) (ret : AList Str Val) (wf : (ret.map Prod.fst).Nodup) (hn : NumbersHeld c ret)
    (plain : ∀ k p, NameOf c k p → k ∈ ret.map Prod.fst → k ∈ c.props) :
    ∃ r d, writeNames c [] prim [] excludes ret = .ok r ∧ readNames ord c r = .ok d ∧ ∀ k v, (k, v) ∈ d ↔ (k, v) ∈ ret := by
  obtain ⟨r, he, wr, g⟩ := writeNames_get c hc prim excludes ret wf hn
  have nr : NumbersNegated c r := fun k p v h h' => by
    have h1 : c.negated.get? k = some p := AList.get?_of_mem hc.wf_negated h
    have h2 : c.aliases.get? k = none := AList.get?_eq_none.2 (fun hh => by
      obtain ⟨q, hq⟩ := mem_keys.1 hh; exact (hc.alias_new k q hq).2.2.2 p h)
    have h3 : ret.get? k = none := AList.get?_eq_none.2 (fun hh =>
      absurd (plain k p (.inr (.inr h)) hh) (hc.negated_new k p h).2.1)
    have := (AList.get?_iff_mem wr).2 h'
    rw [g k] at this
    simp only [aliasVal, h1, h2, h3, Option.or_none] at this
    by_cases hx : k ∈ excludes
    · simp [hx] at this
    · simp only [hx, if_false] at this
      cases hr : ret.get? p with
      | none => simp [hr] at this
      | some w =>
        rcases hn k p w h (AList.mem_of_get? hr) with rfl | ⟨i, rfl⟩
        · simp [hr] at this
        · simp only [hr, negate, Except.toOption, Option.some.injEq] at this
          exact ⟨-i, this.symm⟩
  obtain ⟨d, hd, wd, gd⟩ := readNames_get ord hord c hc r wr nr
  refine ⟨r, d, he, hd, fun k v => ?_⟩
  rw [← AList.get?_iff_mem wd, ← AList.get?_iff_mem wf]
  suffices h : d.get? k = ret.get? k by rw [h]
  rw [gd k]
  by_cases hp : k ∈ c.props
  · have pn : k ∉ c.negated.keys := fun h => by
      obtain ⟨q, hq⟩ := mem_keys.1 h; exact (hc.negated_new k q hq).2.1 hp
    have pa : k ∉ c.aliases.keys := fun h => by
      obtain ⟨q, hq⟩ := mem_keys.1 h; exact (hc.alias_new k q hq).2.1 hp
    have rk : r.get? k = ret.get? k := by
      rw [g k]; simp [aliasVal, AList.get?_eq_none.2 pn, AList.get?_eq_none.2 pa]
    rw [if_neg pn, if_neg pa, if_neg (fun h => h.1 hp)]
    cases h1 : lastVal negate c.negated r k with
    | some w =>
      obtain ⟨a, x, ha, hx, hf⟩ := lastVal_some_iff _ _ _ _ _ h1
      rw [Option.some_or]
      have e1 : c.negated.get? a = some k := AList.get?_of_mem hc.wf_negated ha
      have e2 : c.aliases.get? a = none := AList.get?_eq_none.2 (fun hh => by
        obtain ⟨q, hq⟩ := mem_keys.1 hh; exact (hc.alias_new a q hq).2.2.2 k ha)
      have e3 : ret.get? a = none := AList.get?_eq_none.2 (fun hh =>
        absurd (plain a k (.inr (.inr ha)) hh) (hc.negated_new a k ha).2.1)
      rw [g a] at hx
      simp only [aliasVal, e1, e2, e3, Option.or_none] at hx
      by_cases hxx : a ∈ excludes
      · simp [hxx] at hx
      · simp only [hxx, if_false] at hx
        cases hr : ret.get? k with
        | none => simp [hr] at hx
        | some y =>
          rcases hn a k y ha (AList.mem_of_get? hr) with rfl | ⟨i, rfl⟩
          · simp [hr] at hx
          · simp only [hr, negate, Except.toOption, Option.some.injEq] at hx
            subst hx
            simp only [negate, Except.ok.injEq, Int.neg_neg] at hf
            rw [hf]
    | none =>
      rw [Option.none_or]
      cases h2 : lastVal .ok c.aliases r k with
      | some w =>
        obtain ⟨a, x, ha, hx, hf⟩ := lastVal_some_iff _ _ _ _ _ h2
        cases hf
        rw [Option.some_or]
        have e1 : c.negated.get? a = none := AList.get?_eq_none.2 (fun hh => by
          obtain ⟨q, hq⟩ := mem_keys.1 hh; exact (hc.alias_new a k ha).2.2.2 q hq)
        have e2 : c.aliases.get? a = some k := AList.get?_of_mem hc.wf_aliases ha
        have e3 : ret.get? a = none := AList.get?_eq_none.2 (fun hh =>
          absurd (plain a k (.inr (.inl (.alias ha))) hh) (hc.alias_new a k ha).2.1)
        rw [g a] at hx
        simp only [aliasVal, e1, e2, e3, Option.or_none, Option.none_or] at hx
        by_cases hxx : a ∈ excludes
        · simp [hxx] at hx
        · simp only [hxx, if_false] at hx
          cases hr : ret.get? k with
          | none => simp [hr] at hx
          | some y => cases y <;> simp_all [Except.toOption]
      | none =>
        rw [Option.none_or]
        cases h3 : c.translation.find? (fun q => q.2 = k && q.1 ∉ c.props && r.contains q.1) with
        | none => exact rk
        | some q =>
          have h4 := List.find?_some h3
          simp only [Bool.and_eq_true, decide_eq_true_eq] at h4
          have h5 := List.mem_of_find?_eq_some h3
          have hq : q.1 ∈ r.keys := AList.contains_iff.1 h4.2
          have e1 : c.negated.get? q.1 = none := AList.get?_eq_none.2 (fun hh => by
            obtain ⟨x, hx⟩ := mem_keys.1 hh; exact (hc.negated_new q.1 x hx).2.2 q.2 h5)
          have e2 : c.aliases.get? q.1 = none := AList.get?_eq_none.2 (fun hh => by
            obtain ⟨x, hx⟩ := mem_keys.1 hh; exact (hc.alias_new q.1 x hx).2.2.1 q.2 h5)
          have : (r.get? q.1).isSome := h4.2
          rw [g q.1] at this
          simp only [aliasVal, e1, e2, Option.none_or] at this
          exact absurd (plain q.1 q.2 (.inr (.inl (.clean h4.1.2 h5))) (AList.get?_isSome.1 this)) h4.1.2
  · have t1 : lastVal negate c.negated r k = none := by
      cases h1 : lastVal negate c.negated r k with
      | none => rfl
      | some w =>
        obtain ⟨a, x, ha, _, _⟩ := lastVal_some_iff _ _ _ _ _ h1
        exact absurd (hc.negated_new a k ha).1 hp
    have t2 : lastVal .ok c.aliases r k = none := by
      cases h1 : lastVal .ok c.aliases r k with
      | none => rfl
      | some w =>
        obtain ⟨a, x, ha, _, _⟩ := lastVal_some_iff _ _ _ _ _ h1
        exact absurd (hc.alias_new a k ha).1 hp
    have t3 : c.translation.find? (fun q => q.2 = k && q.1 ∉ c.props && r.contains q.1) = none := by
      rw [List.find?_eq_none]; intro q hq hh
      simp only [Bool.and_eq_true, decide_eq_true_eq] at hh
      exact hp (hh.1.1 ▸ hc.clean_prop q.1 q.2 hq)
    rw [t1, t2, t3, Option.none_or, Option.none_or]
    have gone : ∀ p, NameOf c k p → ret.get? k = none := fun p h =>
      AList.get?_eq_none.2 (fun hh => hp (plain k p h hh))
    by_cases a1 : k ∈ c.negated.keys
    · obtain ⟨p, h⟩ := mem_keys.1 a1
      rw [if_pos a1, gone p (.inr (.inr h))]
    · rw [if_neg a1]
      by_cases a2 : k ∈ c.aliases.keys
      · obtain ⟨p, h⟩ := mem_keys.1 a2
        rw [if_pos a2, gone p (.inr (.inl (.alias h)))]
      · rw [if_neg a2]
        by_cases a3 : k ∈ c.translation.keys
        · obtain ⟨p, h⟩ := mem_keys.1 a3
          rw [if_pos ⟨hp, a3⟩, gone p (.inr (.inl (.clean hp h)))]
        · rw [if_neg (fun h => a3 h.2), g k]
          simp [aliasVal, AList.get?_eq_none.2 a1, AList.get?_eq_none.2 a2]

example : (match writeNames box [] (fun _ => true) [] ["mass".toList] boxData with
    | .ok r => (r, readNames id box r)
    | .error e => ([], .error e)) =
    ([("weight".toList, .int 4), ("drop".toList, .int 2), ("rise".toList, .int (-2))],
     .ok [("weight".toList, .int 4), ("drop".toList, .int 2)]) := by decide +kernel

/-- **C131 is violated.** An object with a text under a property that has a negated alias cannot be written. -/
theorem C131_text_violated : ∃ (c : Names) (o : Types.ObjDecl) (d : AList Str Val), Unambiguous c ∧
    serialize id id c o [] (fun _ => true) [] [] d = .error .typeError :=
  ⟨box, boxDecl, [("drop".toList, .str "steep".toList)], box_ok, by decide +kernel⟩

/-! ### C132, C133: types of properties -/

/-- The declared type of a name: the property's, else the first pattern's, else that of additional properties. -/
def declared (c : Decl) (name : Str) : Option Ty :=
  (c.types.get? name).or ((c.pattern name).or c.additional)

/-- **C132, exact behaviour.** The type found for an alias that was not looked up before is not that of its property: it is
the one of an additional property with that name, or there is none at all. -/
theorem C132_alias_violated (built : Nat → Option Ty) (c : Decl) (a : Str) (hn : a ∉ c.names.negated.keys)
    (hp : a ∉ c.types.keys) (hpat : c.pattern a = none) :
    (itemsType built c a []).1 = match c.additional with
      | none => .error .keyError
      | some (.real n) => .ok (.real n)
      | some (.proxy u) => .ok ((built u).getD (.proxy u)) := by
  have h1 := AList.get?_eq_none.2 hn
  have h2 := AList.get?_eq_none.2 hp
  simp only [itemsType, AList.get?, h1, Option.getD_none, baseType, h2, hpat]
  cases c.additional with
  | none => rfl
  | some t =>
    cases t with
    | real n => rfl
    | proxy u => simp only; cases built u <;> rfl

private def typed : Decl := { names := box, types := [("weight".toList, .real 1), ("drop".toList, .proxy 7)] }

example : (itemsType (fun _ => none) typed "mass".toList []).1 = .error .keyError ∧
    (itemsType (fun _ => none) typed "weight".toList []).1 = .ok (.real 1) := by decide +kernel

/-- **C132, the part that holds.** A negated alias that was not looked up before has the type of its property. -/
theorem C132_negated_partial (built : Nat → Option Ty) (c : Decl) (a p : Str) (h : c.names.negated.get? a = some p) :
    (itemsType built c a []).1 = match declared c p with
      | none => .error .keyError
      | some (.real n) => .ok (.real n)
      | some (.proxy u) => .ok ((built u).getD (.proxy u)) := by
  have hd : (baseType c p []).1 = match declared c p with | none => .error .keyError | some t => .ok t := by
    unfold baseType declared
    simp only [AList.get?]
    cases c.types.get? p with
    | some t => rfl
    | none => cases c.pattern p with
      | some t => rfl
      | none => cases c.additional <;> rfl
  simp only [itemsType, AList.get?, h, Option.getD_some]
  cases hb : baseType c p [] with
  | mk r cache =>
    rw [hb] at hd; simp only at hd; subst hd
    cases declared c p with
    | none => rfl
    | some t => cases t with
      | real n => rfl
      | proxy u => simp only; cases built u <;> rfl

example : (itemsType (fun u => some (.real (u + 10))) typed "rise".toList []).1 = .ok (.real 17) ∧
    typed.names.negated.get? "rise".toList = some "drop".toList := by decide +kernel

/-- Lookups one after the other; `built` is what has been built at that moment. -/
def runTypes (c : Decl) : List (Str × (Nat → Option Ty)) → Cache → Cache
  | [], cache => cache
  | (item, built) :: l, cache => runTypes c l (itemsType built c item cache).2

/-- The type a name has when `built` has been built. -/
def resolved (built : Nat → Option Ty) (c : Decl) (name : Str) : Res Ty :=
  match declared c name with
  | none => .error .keyError
  | some (.real n) => .ok (.real n)
  | some (.proxy u) => .ok ((built u).getD (.proxy u))

private theorem itemsType_good (c : Decl) (built final : Nat → Option Ty) (hb : ∀ u t, built u = some t → final u = some t)
    (hreal : ∀ u t, final u = some t → ∃ n, t = .real n) (item : Str) (hi : item ∉ c.names.negated.keys) (cache : Cache)
    (inv : ∀ k t, cache.get? k = some t → (∃ n, t = .real n) ∧ resolved final c k = .ok t) :
    ((∃ t, cache.get? item = some t ∧ itemsType built c item cache = (.ok t, cache)) ∨
     (cache.get? item = none ∧ (itemsType built c item cache).1 = resolved built c item)) ∧
    (∀ k t, (itemsType built c item cache).2.get? k = some t → (∃ n, t = .real n) ∧ resolved final c k = .ok t) := by
  cases hc : cache.get? item with
  | some t =>
    have : itemsType built c item cache = (.ok t, cache) := by simp [itemsType, hc]
    refine ⟨.inl ⟨t, rfl, this⟩, ?_⟩
    rw [this]; exact inv
  | none =>
    have hn := AList.get?_eq_none.2 hi
    have hbase : baseType c item cache = match declared c item with
        | none => (.error .keyError, cache)
        | some t => (.ok t, cache.set item t) := by
      unfold baseType declared
      simp only [hc]
      cases c.types.get? item with
      | some t => rfl
      | none => cases c.pattern item with
        | some t => rfl
        | none => cases c.additional <;> rfl
    refine ⟨.inr ⟨rfl, ?_⟩, ?_⟩
    · simp only [itemsType, hc, hn, Option.getD_none, hbase, resolved]
      cases declared c item with
      | none => rfl
      | some t => cases t with
        | real n => rfl
        | proxy u => simp only; cases built u <;> rfl
    · simp only [itemsType, hc, hn, Option.getD_none, hbase]
      cases hd : declared c item with
      | none => exact inv
      | some t =>
        cases t with
        | real n =>
          intro k t h
          simp only [AList.get?_set] at h
          by_cases hk : item = k
          · subst hk; simp only [if_true, Option.some.injEq] at h; subst h
            exact ⟨⟨n, rfl⟩, by simp [resolved, hd]⟩
          · simp only [hk, if_false] at h; exact inv k t h
        | proxy u =>
          cases hu : built u with
          | some p =>
            intro k t h
            simp only [hu, AList.get?_set] at h
            by_cases hk : item = k
            · subst hk; simp only [if_true, Option.some.injEq] at h; subst h
              exact ⟨hreal u p (hb u p hu), by simp [resolved, hd, hb u p hu]⟩
            · simp only [hk, if_false] at h; exact inv k t h
          | none =>
            intro k t h
            simp only [hu, AList.get?_erase, AList.get?_set] at h
            by_cases hk : k = item
            · simp [hk] at h
            · simp only [hk, if_false] at h
              rw [if_neg (fun e => hk e.symm)] at h; exact inv k t h

/-- **C133, the part that holds.** After any lookups of names other than negated aliases, at any stages of the
construction of the classes, a name has its declared type, and the class itself as soon as it has been built. -/
theorem C133_resolved_partial (c : Decl) (built : Nat → Option Ty) (hreal : ∀ u t, built u = some t → ∃ n, t = .real n)
    (l : List (Str × (Nat → Option Ty)))
    (hl : ∀ p ∈ l, p.1 ∉ c.names.negated.keys ∧ ∀ u t, p.2 u = some t → built u = some t)
    (item : Str) (hi : item ∉ c.names.negated.keys) :
    (itemsType built c item (runTypes c l [])).1 = resolved built c item := by
  have inv : ∀ (l : List (Str × (Nat → Option Ty))) (cache : Cache),
      (∀ p ∈ l, p.1 ∉ c.names.negated.keys ∧ ∀ u t, p.2 u = some t → built u = some t) →
      (∀ k t, cache.get? k = some t → (∃ n, t = .real n) ∧ resolved built c k = .ok t) →
      ∀ k t, (runTypes c l cache).get? k = some t → (∃ n, t = .real n) ∧ resolved built c k = .ok t := by
    intro l
    induction l with
    | nil => intro cache _ h; exact h
    | cons p l ih =>
      intro cache hl h
      obtain ⟨h1, h2⟩ := hl p (by simp)
      exact ih _ (fun q hq => hl q (List.mem_cons_of_mem _ hq)) (itemsType_good c p.2 built h2 hreal p.1 h1 cache h).2
  have h := inv l [] hl (by simp [AList.get?])
  rcases (itemsType_good c built built (fun _ _ h => h) hreal item hi _ h).1 with ⟨t, h1, h2⟩ | ⟨_, h2⟩
  · rw [h2, (h item t h1).2]
  · exact h2

example : (itemsType (fun u => some (.real (u + 10))) typed "drop".toList
    (runTypes typed [("drop".toList, fun _ => none), ("weight".toList, fun _ => none)] [])).1 = .ok (.real 17) := by
  decide +kernel

/-- **C133 is violated.** Once a negated alias was looked up, its property keeps the stand-in for the class for ever,
although the class has been built. -/
theorem C133_resolved_violated : ∃ (c : Decl) (a p : Str), c.names.negated.get? a = some p ∧ Unambiguous c.names ∧
    ∀ built : Nat → Option Ty,
      (itemsType built c p (runTypes c [(a, fun _ => none)] [])).1 = .ok (.proxy 7) ∧
      (itemsType built c p (runTypes c [(a, built)] [])).1 = .ok (.proxy 7) := by
  refine ⟨typed, "rise".toList, "drop".toList, by decide +kernel, box_ok, fun built => ⟨by rfl, ?_⟩⟩
  simp only [runTypes]
  have : itemsType built typed "rise".toList [] =
      (match built 7 with
       | some p => (.ok p, [("drop".toList, .proxy 7), ("rise".toList, p)])
       | none => (.ok (.proxy 7), [("drop".toList, .proxy 7)])) := by
    have : ∀ o : Option Ty, (match o with
        | some p => ((.ok p, AList.set [("drop".toList, .proxy 7)] "rise".toList p) : Res Ty × Cache)
        | none => (.ok (.proxy 7), AList.erase [("drop".toList, .proxy 7)] "rise".toList)) =
        (match o with
        | some p => (.ok p, [("drop".toList, .proxy 7), ("rise".toList, p)])
        | none => (.ok (.proxy 7), [("drop".toList, .proxy 7)])) := by
      intro o; cases o <;> rfl
    exact (this (built 7))
  rw [this]
  cases built 7 <;> rfl

end Verif.Alias
