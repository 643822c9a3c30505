import Verif.Spec.Keywords
import Verif.Props.Classes
/-
C293: which keywords of a schema give defaults to its properties. C294: primary keys.
-/
namespace Verif.Classes

theorem definition_defKeys {k : Str} (h : Definition k) : k ∈ defKeys := by
  rcases h with ⟨s, hs, rfl⟩ | ⟨s, hs, rfl⟩ | ⟨s, hs, rfl⟩ <;>
    (simp only [List.mem_cons, List.not_mem_nil, or_false] at hs
     rcases hs with rfl | rfl | rfl | rfl | rfl | rfl | rfl <;> decide +kernel)

theorem about_not_defKeys {k : Str} (h : About k) : k ∉ defKeys := by
  obtain ⟨s, hs, rfl⟩ := h
  simp only [List.mem_cons, List.not_mem_nil, or_false] at hs
  rcases hs with rfl | rfl | rfl | rfl | rfl | rfl | rfl | rfl <;> decide +kernel

/-- For every program: a definition keyword of the schema of a class does nothing to the inherited property of this
name. -/
theorem C293_definition_partial (p : Params) (its : List Item) (i : Nat) (d : Decl)
    (hd : IsBuilt (run p its).items i d) (k : Str) (hk : k ∉ d.props.keys) (hdef : Definition k)
    (ha : ∀ v, d.attrs.get? (Names.cleanJsName k) = some v → v = .none) :
    (run p its).item i k = (protoBases (run p its) d).findSome? (fun b => (run p its).item b k) := by
  have h := hist_run p its
  obtain ⟨c, hc⟩ := items_get hd
  obtain ⟨v, tys, l, hb⟩ := built_facts h hc
  have ha' : value? (d.attrs.get? (Names.cleanJsName k)) = none := by
    cases hx : d.attrs.get? (Names.cleanJsName k) with
    | none => rfl
    | some v => rw [ha v hx]; rfl
  rw [item_built h hc, hb.own, get?_descriptors, types_get hb]
  have h1 : (buildTypes d.id d.props v.reg).1.get? k = none := by
    rw [AList.get?_eq_none, buildTypes_keys]; exact hk
  have h2 : (buildTypes d.id l.extra (buildTypes d.id d.props v.reg).2).1.get? k = none := by
    rw [AList.get?_eq_none, buildTypes_keys, ← AList.get?_eq_none,
      (visitAll_keeps hb.visit).2.2.2.2 k ha' (.inl (definition_defKeys hdef))]; rfl
  rw [h1, h2]; rfl

/-- Keywords about a class become defaults of the inherited properties of their names, which is what its instances are
given (hypotheses as in C121). -/
theorem C293_about_violated (p : Params) (pre : List Item) (d : Decl) (c : Cls)
    (hc : lastClass p pre (.built d) = some c) (k : Str) (hk : k ∉ d.props.keys) (hfresh : FreshType pre d.id k)
    (t : Ty) (ht : ((infos (run p pre) (protoBases (run p pre) d)).map Info.props).findSome? (fun m => m.get? k) = some t)
    (v : Val) (hv : v ≠ .none) (hab : About k) (ha : d.attrs.get? (Names.cleanJsName k) = none)
    (hkw : d.keywords.get? k = some v)
    (hone : ∀ f, c.info = some f → ∀ k' ∈ f.props.keys, k' ≠ k → Names.cleanJsName k' ≠ Names.cleanJsName k) :
    ∃ v' D f, p.dflt t v = some v' ∧ c.own.get? k = some D ∧ D.ty = ⟨typeId d.id k, { t.sch with default := v' }⟩ ∧
      c.info = some f ∧ f.props.get? k = some D.ty ∧ k ∈ f.withDefault := by
  refine default_of_attr hc hk hfresh ht ?_ hone
  simp only [attrOf, loopStart, ha, hkw, if_neg (about_not_defKeys hab)]
  cases v <;> first | rfl | exact absurd rfl hv

/-- Class 0 has the properties `title` and `type`; class 1 derives from it, with these keywords. -/
def exTitle : List Item :=
  [.built { id := "A".toList, props := [("title".toList, ⟨1, .none⟩), ("type".toList, ⟨2, .none⟩)] }]
def exTitled : Decl :=
  { id := "B".toList, bases := [0], keywords := [("title".toList, .str "Bs".toList), ("type".toList, .str "object".toList)] }

example : (lastClass exParams exTitle (.built exTitled)).map (fun c => c.own.get? "title".toList) =
    some (some ⟨1, ⟨"B/properties/title".toList, ⟨1, .str "Bs".toList⟩⟩, {}⟩) := by decide +kernel
example : ((run exParams (exTitle ++ [.built exTitled])).item 1 "type".toList) =
    some ⟨0, ⟨"A/properties/type".toList, ⟨2, .none⟩⟩, {}⟩ := by decide +kernel
example : Definition "type".toList ∧ About "title".toList :=
  ⟨.inr (.inl ⟨"type", by simp, rfl⟩), ⟨"title", by simp, rfl⟩⟩

/-! ### C294: Primary keys are inherited, each once -/

theorem mem_keysOf {l : List Info} {acc : List Str} {k : Str} :
    k ∈ l.foldl (fun ks i => ks ++ i.primaryKeys.filter (fun k => !ks.contains k)) acc ↔
      k ∈ acc ∨ ∃ i ∈ l, k ∈ i.primaryKeys := by
  induction l generalizing acc with
  | nil => simp
  | cons i l ih =>
    rw [List.foldl_cons, ih, List.mem_append, List.mem_filter]
    constructor
    · rintro ((h | h) | ⟨j, hj, h⟩)
      · exact .inl h
      · exact .inr ⟨i, by simp, h.1⟩
      · exact .inr ⟨j, by simp [hj], h⟩
    · rintro (h | ⟨j, hj, h⟩)
      · exact .inl (.inl h)
      · rcases List.mem_cons.1 hj with rfl | hj
        · by_cases hk : k ∈ acc
          · exact .inl (.inl hk)
          · exact .inl (.inr ⟨h, by simpa using hk⟩)
        · exact .inr ⟨j, hj, h⟩

theorem nodup_keysOf {l : List Info} {acc : List Str} (ha : acc.Nodup) (hl : ∀ i ∈ l, i.primaryKeys.Nodup) :
    (l.foldl (fun ks i => ks ++ i.primaryKeys.filter (fun k => !ks.contains k)) acc).Nodup := by
  induction l generalizing acc with
  | nil => exact ha
  | cons i l ih =>
    rw [List.foldl_cons]
    refine ih ?_ (fun j hj => hl j (by simp [hj]))
    refine List.nodup_append.2 ⟨ha, (hl i (by simp)).filter _, ?_⟩
    rintro x hx y hy rfl
    have := (List.mem_filter.1 hy).2
    simp at this
    exact this hx

theorem keysOf_own {w : World} {d : Decl} {ks : List Str} (h : Declares d ks) : primaryKeysOf w d = ks := by
  obtain ⟨hne, h⟩ := h
  have he : ks.isEmpty = false := by cases ks <;> first | rfl | exact absurd rfl hne
  rcases h with h | ⟨h1, h2⟩
  · simp [primaryKeysOf, h, he]
  · simp [primaryKeysOf, h1, h2, he]

theorem keysOf_none {w : World} {d : Decl} (h : ∀ ks, ¬ Declares d ks) :
    primaryKeysOf w d = (infos w (protoBases w d)).foldl (fun ks i => ks ++ i.primaryKeys.filter (fun k => !ks.contains k)) [] := by
  unfold primaryKeysOf
  have : (match d.attrPrimaryKeys with | some ks => ks | none => d.primaryKeys.getD []).isEmpty = true := by
    cases h1 : d.attrPrimaryKeys with
    | some ks =>
      cases ks with
      | nil => rfl
      | cons x ks => exact absurd ⟨by simp, .inl h1⟩ (h (x :: ks))
    | none =>
      cases h2 : d.primaryKeys with
      | none => rfl
      | some ks =>
        cases ks with
        | nil => rfl
        | cons x ks => exact absurd ⟨by simp, .inr ⟨h1, h2⟩⟩ (h (x :: ks))
  exact if_pos this

theorem keys_info {p : Params} {w : World} (h : Hist p w) {i : Nat} {d : Decl} (hd : IsBuilt w.items i d) {f : Info}
    (hf : w.info i = some f) : f.primaryKeys = primaryKeysOf w d := by
  obtain ⟨c, hc⟩ := items_get hd
  obtain ⟨v, tys, l, hb⟩ := built_facts h hc
  rw [info_get hc, hb.info] at hf
  rw [← Option.some.inj hf]; rfl

/-- For every program: a class has the primary keys it declares; declaring none it has those of its bases. -/
theorem C294_keys_partial (p : Params) (its : List Item) (i : Nat) (d : Decl) (hd : IsBuilt (run p its).items i d)
    (f : Info) (hf : (run p its).info i = some f) :
    (∀ ks, Declares d ks → f.primaryKeys = ks) ∧
    ((∀ ks, ¬ Declares d ks) → d.exts = [] → ∀ k, k ∈ f.primaryKeys ↔
      ∃ b ∈ d.bases, ∃ g, (run p its).info b = some g ∧ k ∈ g.primaryKeys) ∧
    ((∀ ks, ¬ Declares d ks) → d.exts = [] → ∀ b g, d.bases = [b] → (run p its).info b = some g →
      f.primaryKeys = g.primaryKeys) := by
  have h := hist_run p its
  have hk := keys_info h hd hf
  have hpb : d.exts = [] → protoBases (run p its) d = d.bases.filter (fun b => ((run p its).info b).isSome) := by
    intro hx; simp [protoBases, keptBases, extended, hx]
  refine ⟨fun ks hks => by rw [hk, keysOf_own hks], fun hno hx k => ?_, fun hno hx b g hb hg => ?_⟩
  · rw [hk, keysOf_none hno, mem_keysOf, hpb hx]
    simp only [List.not_mem_nil, false_or, infos, List.mem_filterMap, List.mem_filter]
    constructor
    · rintro ⟨g, ⟨b, ⟨hb, -⟩, hg⟩, hkg⟩; exact ⟨b, hb, g, hg, hkg⟩
    · rintro ⟨b, hb, g, hg, hkg⟩; exact ⟨g, ⟨b, ⟨hb, by rw [hg]; rfl⟩, hg⟩, hkg⟩
  · rw [hk, keysOf_none hno, hpb hx, hb]
    simp [infos, hg, List.filter_eq_self.2]

/-- If no definition declares a primary key twice, no class has one twice. -/
theorem C294_once_partial (p : Params) (its : List Item)
    (hno : ∀ i d ks, IsBuilt (run p its).items i d → Declares d ks → ks.Nodup)
    (i : Nat) (f : Info) (hf : (run p its).info i = some f) : f.primaryKeys.Nodup := by
  have h := hist_run p its
  generalize run p its = w at *
  induction i using Nat.strongRecOn generalizing f with
  | ind i ih =>
    obtain ⟨⟨it, c⟩, hc, hcf⟩ : ∃ x, w.classes[i]? = some x ∧ x.2.info = some f := by
      simp [World.info, World.cls?, Option.bind_eq_some_iff] at hf
      obtain ⟨c, ⟨it, hc⟩, hcf⟩ := hf
      exact ⟨(it, c), hc, hcf⟩
    have hpar := (facts h hc).parents
    cases it with
    | built d =>
      rw [keys_info h (get_items hc) hf]
      by_cases hk : ∃ ks, Declares d ks
      · obtain ⟨ks, hk⟩ := hk
        rw [keysOf_own hk]
        exact hno i d ks (get_items hc) hk
      · rw [keysOf_none (fun ks hks => hk ⟨ks, hks⟩)]
        refine nodup_keysOf List.nodup_nil fun g hg => ?_
        simp only [infos, List.mem_filterMap] at hg
        obtain ⟨b, hb, hg⟩ := hg
        exact ih b (hpar b (mem_protoBases_parent hb)) g hg
    | plain bases methods =>
      obtain ⟨-, hinfo⟩ := plain_facts h hc
      obtain ⟨hpar, -, m, hm, hcm⟩ := facts h hc
      obtain ⟨-, hmem⟩ := Mro.C09_mro_sound _ _ _ hm
      simp only at hcf
      rw [hcf, mro_get hc, hcm, List.tail_cons] at hinfo
      obtain ⟨j, hj, hjf⟩ := List.exists_of_findSome?_eq_some hinfo.symm
      refine ih j ?_ f hjf
      have hil : i < w.items.length := (List.getElem?_eq_some_iff.1 (get_items hc)).1
      rcases (hmem j).1 hj with hx | ⟨y, hy, hxy⟩
      · exact hpar j hx
      · have hyi := hpar y hy
        have := inherits_le h ((mem_mro h y (Nat.lt_trans hyi hil) j).1 hxy)
        omega

/-- A class cannot declare that it has no primary keys: with an empty list it has those of its base. -/
theorem C294_none_violated (p : Params) (its : List Item) (i b : Nat) (d : Decl) (hd : IsBuilt (run p its).items i d)
    (f g : Info) (hf : (run p its).info i = some f) (hx : d.exts = []) (hb : d.bases = [b])
    (hg : (run p its).info b = some g) (hn : d.attrPrimaryKeys = some [] ∨ d.attrPrimaryKeys = none ∧ d.primaryKeys = some []) :
    f.primaryKeys = g.primaryKeys := by
  refine (C294_keys_partial p its i d hd f hf).2.2 ?_ hx b g hb hg
  rintro ks ⟨hne, h | ⟨h1, h2⟩⟩ <;> rcases hn with h' | ⟨h', h''⟩
  · rw [h] at h'; exact hne (Option.some.inj h')
  · rw [h] at h'; cases h'
  · rw [h1] at h'; cases h'
  · rw [h2] at h''; exact hne (Option.some.inj h'')

/-- Classes 0 and 1 have primary keys; class 2 has both as bases, class 3 declares none. -/
def exKeys : List Item :=
  [.built { id := "A".toList, primaryKeys := some ["a".toList, "k".toList] },
   .built { id := "B".toList, attrPrimaryKeys := some ["k".toList, "b".toList], primaryKeys := some ["x".toList] },
   .built { id := "C".toList, bases := [0, 1] },
   .built { id := "D".toList, bases := [0], attrPrimaryKeys := some [] },
   .plain [2] []]

example : ((List.range 5).map fun i => ((run exParams exKeys).info i).map Info.primaryKeys) =
    [["a", "k"], ["k", "b"], ["a", "k", "b"], ["a", "k"], ["a", "k", "b"]].map (fun l => some (l.map String.toList)) := by
  decide +kernel
example : Declares { id := [], attrPrimaryKeys := some ["k".toList], primaryKeys := none } ["k".toList] := ⟨by simp, .inl rfl⟩

end Verif.Classes
