import Verif.Lemmas.Classes
/-
C118-C123: what classes built from schemas inherit.
-/
namespace Verif.Classes

/-! ### C118 -/

/-- C118. For every program: the required, read-only, not serialised and not validated properties of a class are those
named by the definitions of the class and of all the classes it is derived from, including those `build` leaves out of
the bases, as long as ordinary Python classes have at most one base made from schemas. -/
theorem C118_constraints_inherited_partial (p : Params) (its : List Item) (hs : SinglePlain (run p its).items)
    (i : Nat) (f : Info) (hf : (run p its).info i = some f) (q : Kind) (k : Str) :
    k ∈ f.sets q ↔ ∃ j d, Inherits (run p its).items i j ∧ IsBuilt (run p its).items j d ∧ Names d q k := by
  have h := hist_run p its
  generalize run p its = w at *
  induction i using Nat.strongRecOn generalizing f with
  | ind i ih =>
    obtain ⟨⟨it, c⟩, hc, hcf⟩ : ∃ x, w.classes[i]? = some x ∧ x.2.info = some f := by
      simp only [World.info, World.cls?, Option.bind_eq_some_iff, Option.map_eq_some_iff] at hf
      obtain ⟨_, ⟨x, hx, rfl⟩, hf⟩ := hf
      exact ⟨x, hx, hf⟩
    have hit := get_items hc
    have hi : i < w.items.length := (List.getElem?_eq_some_iff.1 hit).1
    have hpar := (facts h hc).parents
    cases it with
    | built d =>
      obtain ⟨v, tys, l, hb⟩ := built_facts h hc
      simp only at hcf
      rw [hb.info] at hcf
      cases hcf
      have hown : (k ∈ (match d.sets q with | some ks => ks | none => (d.attrSets q).getD [])) ↔ Names d q k := by
        unfold Names
        cases d.sets q with
        | some ks => simp
        | none => cases d.attrSets q <;> simp
      simp only [infoOf, setsOf, List.mem_append, List.mem_flatMap, mem_infos]
      constructor
      · rintro (hn | ⟨g, ⟨b, hb', hg⟩, hk⟩)
        · exact ⟨i, d, .refl hi, hit, hown.1 hn⟩
        · have hbp := mem_protoBases_parent hb'
          obtain ⟨j, d', hj, hd', hn⟩ := (ih b (hpar b hbp) g hg).1 hk
          exact ⟨j, d', .step hit hbp hj, hd', hn⟩
      · rintro ⟨j, d', hj, hd', hn⟩
        by_cases hji : j = i
        · subst hji
          simp only [IsBuilt] at hd'
          rw [hit] at hd'; cases hd'
          exact .inl (hown.2 hn)
        · obtain ⟨b, hb', hbj⟩ := protoBases_cover h hc hj hji ⟨j, d', .refl (List.getElem?_eq_some_iff.1 hd').1, hd'⟩
          obtain ⟨g, hg⟩ := protoBases_info h hc hb'
          exact .inr ⟨g, ⟨b, hb', hg⟩, (ih b (hpar b (mem_protoBases_parent hb')) g hg).2 ⟨j, d', hbj, hd', hn⟩⟩
    | plain bases methods =>
      have hpi : IsProtocol w.items i := (info_isSome h i hi).1 (by rw [hf]; rfl)
      obtain ⟨j0, d0, hj0, hd0⟩ := hpi
      cases hj0 with
      | refl _ => simp only [IsBuilt] at hd0; rw [hit] at hd0; cases hd0
      | @step _ b _ it' hit' hbm hbj =>
        rw [hit] at hit'; cases hit'
        simp only [Item.parents] at hbm
        have hbp : IsProtocol w.items b := ⟨j0, d0, hbj, hd0⟩
        have hbf : w.info b = some f := by rw [← plain_info h hs hc hbm hbp, hf]
        refine (ih b (hpar b hbm) f hbf).trans ?_
        constructor
        · rintro ⟨j, d', hj, hd', hn⟩
          exact ⟨j, d', .step hit hbm hj, hd', hn⟩
        · rintro ⟨j, d', hj, hd', hn⟩
          refine ⟨j, d', ?_, hd', hn⟩
          cases hj with
          | refl _ => simp only [IsBuilt] at hd'; rw [hit] at hd'; cases hd'
          | @step _ b' _ it' hit' hbm' hbj' =>
            rw [hit] at hit'; cases hit'
            have := hs i bases methods hit b' hbm' b hbm ⟨j, d', hbj', hd'⟩ hbp
            exact this ▸ hbj'

/-- Parameters without defaults and decorators. -/
def exParams : Params := ⟨fun _ v => some v, fun _ => []⟩
/-- Class 0 requires `a`, class 1 extends it and makes `b` read only, class 2 is an ordinary class derived from 1, class 3
has base 2, extends 0 (which is left out) and requires `c`. -/
def exProgram : List Item :=
  [.built { id := "A".toList, props := [("a".toList, ⟨1, .none⟩)], sets := fun | .required => some ["a".toList] | _ => none },
   .built { id := "B".toList, exts := [0], props := [("b".toList, ⟨2, .none⟩)],
            attrSets := fun | .readOnly => some ["b".toList] | _ => none },
   .plain [1] [],
   .built { id := "C".toList, bases := [2], exts := [0], props := [("c".toList, ⟨3, .none⟩)],
            sets := fun | .required => some ["c".toList] | _ => none }]

example : ((run exParams exProgram).info 3).map (fun f => (f.sets .required, f.sets .readOnly)) =
    some (["c".toList, "a".toList], ["b".toList]) := by decide +kernel
example : (run exParams exProgram).classes.length = 4 ∧ extended (run exParams exProgram)
    { id := "C".toList, bases := [2], exts := [0] } = [] := by decide +kernel

/-- The hypothesis holds for the program above: its ordinary class has a single base. -/
theorem exProgram_single : SinglePlain (run exParams exProgram).items := by
  rw [items_run exParams exProgram (by decide +kernel)]
  intro i bases methods hi a ha b hb _ _
  match i, hi with
  | 0, hi => cases hi
  | 1, hi => cases hi
  | 2, hi => cases hi; simp at ha hb; rw [ha, hb]
  | 3, hi => cases hi
  | n + 4, hi => cases hi

example : ∃ f, (run exParams exProgram).info 3 = some f ∧ ("b".toList ∈ f.sets .readOnly ↔
    ∃ j d, Inherits (run exParams exProgram).items 3 j ∧ IsBuilt (run exParams exProgram).items j d ∧
      Names d .readOnly "b".toList) := by
  have h : ((run exParams exProgram).info 3).isSome = true := by decide +kernel
  obtain ⟨f, hf⟩ := Option.isSome_iff_exists.1 h
  exact ⟨f, hf, C118_constraints_inherited_partial _ _ exProgram_single 3 f hf _ _⟩

/-- Requires `b`. -/
def exB : Decl where
  id := "B".toList
  props := [("b".toList, ⟨2, .none⟩)]
  sets := fun | .required => some ["b".toList] | _ => none

/-- C118 fails for an ordinary class with two bases made from schemas: it only has the constraints of the first. -/
def exTwoBases : List Item :=
  [.built { id := "A".toList, props := [("a".toList, ⟨1, .none⟩)], sets := fun | .required => some ["a".toList] | _ => none },
   .built exB,
   .plain [0, 1] []]

theorem C118_ordinary_class_violated : ∃ (its : List Item) (i : Nat) (f : Info) (q : Kind) (k : Str),
    (run exParams its).info i = some f ∧
    (∃ j d, Inherits (run exParams its).items i j ∧ IsBuilt (run exParams its).items j d ∧ Names d q k) ∧ k ∉ f.sets q := by
  have h : (((run exParams exTwoBases).info 2).map (fun f => f.sets .required)) = some ["a".toList] := by decide +kernel
  rw [Option.map_eq_some_iff] at h
  obtain ⟨f, hf, hk⟩ := h
  have hlen : (run exParams exTwoBases).classes.length = 3 := by decide +kernel
  have hhist := hist_run exParams exTwoBases
  refine ⟨exTwoBases, 2, f, .required, "b".toList, hf, ?_, by rw [hk]; decide⟩
  have hi : Inherits (run exParams exTwoBases).items 2 1 := by
    rw [← mem_mro hhist 2 (by simp [World.items, hlen])]
    decide +kernel
  have hitems := items_run exParams exTwoBases hlen
  refine ⟨1, exB, hi, ?_, .inl ⟨["b".toList], rfl, by simp⟩⟩
  rw [IsBuilt, hitems]; rfl

/-! ### C119 -/

/-- Above class `i`, every class that has no descriptor of its own for `k` finds the same one in all its bases made from
schemas that have one. -/
def Coherent (w : World) (i : Nat) (k : Str) : Prop :=
  ∀ j d, Inherits w.items i j → IsBuilt w.items j d → w.ownDesc k j = none →
    ∀ a ∈ protoBases w d, ∀ b ∈ protoBases w d, ∀ D E, w.item a k = some D → w.item b k = some E → D = E

/-- C119. For every program: `obj.k` and `obj[k]` use the same declaration of `k` when no class above finds two different
ones in its bases. -/
theorem C119_attribute_item_agree_partial (p : Params) (its : List Item) (hs : SinglePlain (run p its).items)
    (i : Nat) (hi : i < (run p its).items.length) (k : Str) (hco : Coherent (run p its) i k) :
    (run p its).attribute i k = (run p its).item i k := by
  have h := hist_run p its
  generalize run p its = w at *
  induction i using Nat.strongRecOn with
  | ind i ih =>
    obtain ⟨it, hit⟩ : ∃ it, w.items[i]? = some it := ⟨_, List.getElem?_eq_getElem hi⟩
    obtain ⟨c, hc⟩ := items_get hit
    have hpar := (facts h hc).parents
    have agree : ∀ b ∈ it.parents, w.attribute b k = w.item b k := fun b hb =>
      ih b (hpar b hb) (Nat.lt_trans (hpar b hb) hi) (fun j d hj => hco j d (.step hit hb hj))
    -- the class the attribute comes from, when it is not the class itself
    have from_super : ∀ m, (w.mro i).find? (fun j => (w.ownDesc k j).isSome) = some m → w.ownDesc k i = none →
        ∃ b ∈ w.supers it, m ∈ w.mro b ∧ IsProtocol w.items b := by
      intro m hm hno
      have hmm := List.mem_of_find?_eq_some hm
      have hms := List.find?_some hm
      have hne : m ≠ i := by rintro rfl; simp [hno] at hms
      obtain ⟨-, -, m', hm', hcm⟩ := facts h hc
      obtain ⟨-, hmem⟩ := Mro.C09_mro_sound _ _ _ hm'
      rw [mro_get hc, hcm] at hmm
      have hmm' := (List.mem_cons.1 hmm).resolve_left hne
      have hlt : ∀ b ∈ w.supers it, b < w.items.length := fun b hb => Nat.lt_trans (hpar b (supers_parent hb)) hi
      have : ∃ b ∈ w.supers it, m ∈ w.mro b := by
        rcases (hmem m).1 hmm' with hx | hx
        · exact ⟨m, hx, (mem_mro h m (hlt m hx) m).2 (.refl (hlt m hx))⟩
        · exact hx
      obtain ⟨b, hb, hmb⟩ := this
      refine ⟨b, hb, hmb, protocol_of_inherits ((mem_mro h b (hlt b hb) m).1 hmb) ?_⟩
      -- only classes built from schemas have descriptors
      rw [Option.isSome_iff_exists] at hms
      obtain ⟨D, hD⟩ := hms
      have hml : m < w.items.length := by
        have := inherits_le h ((mem_mro h b (hlt b hb) m).1 hmb)
        have := hlt b hb
        omega
      obtain ⟨it', hit'⟩ : ∃ it', w.items[m]? = some it' := ⟨_, List.getElem?_eq_getElem hml⟩
      obtain ⟨c', hc'⟩ := items_get hit'
      cases it' with
      | built d => exact ⟨m, d, .refl hml, hit'⟩
      | plain bs ms =>
        rw [ownDesc_get hc', (plain_facts h hc').1] at hD
        cases hD
    cases it with
    | built d =>
      rw [item_built h hc]
      cases ho : c.own.get? k with
      | some D =>
        rw [attribute_own h hi (D := D) (by rw [ownDesc_get hc, ho])]
        rfl
      | none =>
        rw [Option.none_or]
        have hno : w.ownDesc k i = none := by rw [ownDesc_get hc, ho]
        cases hfm : (w.mro i).find? (fun j => (w.ownDesc k j).isSome) with
        | some m =>
          obtain ⟨b, hb, hmb, hbp⟩ := from_super m hfm hno
          have hbm : b ∈ protoBases w d := by
            have hbl : b < w.items.length := Nat.lt_trans (hpar b (supers_parent hb)) hi
            have hbi := (info_isSome h b hbl).2 hbp
            simp only [World.supers, List.mem_append] at hb
            simp only [protoBases, List.mem_append, List.mem_filter]
            exact hb.imp (fun hb => ⟨hb, hbi⟩) id
          have e1 := attribute_super h hc hfm hb hmb
          have e2 := agree b (supers_parent hb)
          have hms := List.find?_some hfm
          obtain ⟨D, hD⟩ := Option.isSome_iff_exists.1 hms
          have e3 : w.attribute i k = some D := by rw [attribute_eq, hfm]; exact hD
          have e4 : w.item b k = some D := by rw [← e2, e1, e3]
          rw [e3]
          symm
          cases hfs : (protoBases w d).findSome? (fun b => w.item b k) with
          | none =>
            rw [List.findSome?_eq_none_iff] at hfs
            rw [hfs b hbm] at e4; cases e4
          | some E =>
            obtain ⟨a, ha, haE⟩ := List.exists_of_findSome?_eq_some hfs
            rw [hco i d (.refl hi) hit hno a ha b hbm E D haE e4]
        | none =>
          rw [attribute_eq, hfm]
          symm
          simp only [Option.bind_none]
          rw [List.findSome?_eq_none_iff]
          intro b hb
          cases hbi : w.item b k with
          | none => rfl
          | some D =>
            exfalso
            have hbp := mem_protoBases_parent hb
            have hbl : b < w.items.length := Nat.lt_trans (hpar b hbp) hi
            obtain ⟨j, hj, hjD⟩ := item_from h b hbl hbi
            have hij : j ∈ w.mro i := (mem_mro h i hi j).2 (.step hit hbp hj)
            rw [List.find?_eq_none] at hfm
            exact hfm j hij (by rw [hjD]; rfl)
    | plain bases methods =>
      have hno : w.ownDesc k i = none := by rw [ownDesc_get hc, (plain_facts h hc).1]; rfl
      cases hfm : (w.mro i).find? (fun j => (w.ownDesc k j).isSome) with
      | some m =>
        obtain ⟨b, hb, hmb, hbp⟩ := from_super m hfm hno
        rw [← attribute_super h hc hfm hb hmb, agree b hb]
        simp only [World.item, plain_info h hs hc hb hbp]
      | none =>
        rw [attribute_eq, hfm]
        symm
        simp only [Option.bind_none]
        cases hii : w.item i k with
        | none => rfl
        | some D =>
          exfalso
          obtain ⟨j, hj, hjD⟩ := item_from h i hi hii
          rw [List.find?_eq_none] at hfm
          exact hfm j ((mem_mro h i hi j).2 hj) (by rw [hjD]; rfl)

/-- The classes above `i` have at most one base made from schemas each. -/
def SingleInheritance (w : World) (i : Nat) : Prop :=
  ∀ (j : Nat) (d : Decl), Inherits w.items i j → IsBuilt w.items j d → ∀ a ∈ d.bases ++ d.exts, ∀ b ∈ d.bases ++ d.exts,
    IsProtocol w.items a → IsProtocol w.items b → a = b

/-- C119 with single inheritance. -/
theorem C119_single_inheritance (p : Params) (its : List Item) (hs : SinglePlain (run p its).items)
    (i : Nat) (hi : i < (run p its).items.length) (hsi : SingleInheritance (run p its) i) (k : Str) :
    (run p its).attribute i k = (run p its).item i k := by
  refine C119_attribute_item_agree_partial p its hs i hi k ?_
  have h := hist_run p its
  generalize run p its = w at *
  intro j d hj hd hno a ha b hb D E hD hE
  obtain ⟨c, hc⟩ := items_get hd
  have hpar := (facts h hc).parents
  have hjl : j < w.items.length := (List.getElem?_eq_some_iff.1 hd).1
  have hpr : ∀ x ∈ protoBases w d, IsProtocol w.items x := by
    intro x hx
    obtain ⟨f, hf⟩ := protoBases_info h hc hx
    exact (info_isSome h x (Nat.lt_trans (hpar x (mem_protoBases_parent hx)) hjl)).1 (by rw [hf]; rfl)
  have := hsi j d hj hd a (mem_protoBases_parent ha) b (mem_protoBases_parent hb) (hpr a ha) (hpr b hb)
  subst this
  rw [hD] at hE
  exact Option.some.inj hE

/-- C119 when a single class above declares the property, whatever the shape of the hierarchy. -/
theorem C119_single_declaration (p : Params) (its : List Item) (hs : SinglePlain (run p its).items)
    (i : Nat) (hi : i < (run p its).items.length) (k : Str)
    (hone : ∀ a b, Inherits (run p its).items i a → Inherits (run p its).items i b →
      ((run p its).ownDesc k a).isSome = true → ((run p its).ownDesc k b).isSome = true → a = b) :
    (run p its).attribute i k = (run p its).item i k := by
  refine C119_attribute_item_agree_partial p its hs i hi k ?_
  have h := hist_run p its
  generalize run p its = w at *
  intro j d hj hd hno a ha b hb D E hD hE
  obtain ⟨c, hc⟩ := items_get hd
  have hpar := (facts h hc).parents
  have hjl : j < w.items.length := (List.getElem?_eq_some_iff.1 hd).1
  have hlt : ∀ x ∈ protoBases w d, x < w.items.length := fun x hx =>
    Nat.lt_trans (hpar x (mem_protoBases_parent hx)) hjl
  obtain ⟨x, hx, hxD⟩ := item_from h a (hlt a ha) hD
  obtain ⟨y, hy, hyE⟩ := item_from h b (hlt b hb) hE
  have := hone x y (inherits_trans hj (.step hd (mem_protoBases_parent ha) hx))
    (inherits_trans hj (.step hd (mem_protoBases_parent hb) hy)) (by rw [hxD]; rfl) (by rw [hyE]; rfl)
  subst this
  rw [hxD] at hyE
  exact Option.some.inj hyE

/-- Class 3 has bases 1 and 2, both derived from 0; 0 declares `a` and 2 redeclares it. -/
def exDiamond : List Item :=
  [.built { id := "A".toList, props := [("a".toList, ⟨1, .none⟩)] },
   .built { id := "B".toList, bases := [0] },
   .built { id := "C".toList, bases := [0], props := [("a".toList, ⟨2, .none⟩)] },
   .built { id := "D".toList, bases := [1, 2] }]

/-- C119 fails on a diamond: the attribute is the redeclared one, the item the original one. -/
theorem C119_diamond_violated : ∃ (its : List Item) (i : Nat) (k : Str) (D E : Desc),
    (run exParams its).attribute i k = some D ∧ (run exParams its).item i k = some E ∧ D.ty.sch ≠ E.ty.sch :=
  ⟨exDiamond, 3, "a".toList, ⟨2, ⟨"C/properties/a".toList, ⟨2, .none⟩⟩, {}⟩, ⟨0, ⟨"A/properties/a".toList, ⟨1, .none⟩⟩, {}⟩,
    by decide +kernel, by decide +kernel, by decide⟩

example : (run exParams exProgram).attribute 3 "a".toList = some ⟨0, ⟨"A/properties/a".toList, ⟨1, .none⟩⟩, {}⟩ ∧
    (run exParams exProgram).item 3 "a".toList = some ⟨0, ⟨"A/properties/a".toList, ⟨1, .none⟩⟩, {}⟩ := by decide +kernel

example : (run exParams exProgram).attribute 3 "a".toList = (run exParams exProgram).item 3 "a".toList := by
  refine C119_single_declaration _ _ exProgram_single 3 (by simp [World.items]; decide +kernel) _ ?_
  intro a b ha hb h1 h2
  have hlt : ∀ x, Inherits (run exParams exProgram).items 3 x → x < 4 := fun x hx =>
    Nat.lt_succ_of_le (inherits_le (hist_run _ _) hx)
  have key : ∀ x, x < 4 → ((run exParams exProgram).ownDesc "a".toList x).isSome = true → x = 0 := by decide +kernel
  rw [key a (hlt a ha) h1, key b (hlt b hb) h2]

/-! ### C120 -/

/-- No property of the class has the name of an accessor of `k`. -/
def NoClash (w : World) (i : Nat) (k : Str) : Prop :=
  ∀ f, w.info i = some f → ∀ k' ∈ f.props.keys, ∀ pre ∈ ["get_", "set_", "del_"],
    Names.cleanJsName k' ≠ pre.toList ++ Names.cleanJsName k

/-- What a class built from a schema does with a property declared in it. -/
theorem local_descriptor {p : Params} {w : World} (h : Hist p w) {i : Nat} {d : Decl} {c : Cls}
    (hc : w.classes[i]? = some (.built d, c)) {k : Str} (hk : k ∈ d.props.keys) :
    ∃ D, c.own.get? k = some D ∧ w.attribute i k = some D ∧ w.item i k = some D := by
  have hi : i < w.items.length := (List.getElem?_eq_some_iff.1 (get_items hc)).1
  obtain ⟨v, tys, l, hb⟩ := built_facts h hc
  have hD : ∃ D, c.own.get? k = some D := by
    rw [hb.own, get?_descriptors, types_get hb]
    rw [← buildTypes_keys d.id d.props v.reg, ← AList.get?_isSome, Option.isSome_iff_exists] at hk
    obtain ⟨t, ht⟩ := hk
    rw [ht]; simp
  obtain ⟨D, hD⟩ := hD
  refine ⟨D, hD, attribute_own h hi (by rw [ownDesc_get hc, hD]), ?_⟩
  rw [item_built h hc, hD]; rfl

theorem method_earlier {p : Params} {v w : World} (h : Hist p w) {i : Nat} (hv : v.classes = w.classes.take i)
    {b : Nat} (hb : b < i) (hl : i ≤ w.items.length) (name : Str) : v.method b name = w.method b name := by
  unfold World.method
  rw [mro_earlier hv hb]
  have hm : ∀ j ∈ w.mro b, j < i := fun j hj => by
    have := inherits_le h ((mem_mro h b (by omega) j).1 hj)
    omega
  generalize w.mro b = m at hm
  induction m with
  | nil => rfl
  | cons x m ih =>
    simp only [List.findSome?_cons]
    rw [cls_earlier hv (hm x (by simp)), ih (fun y hy => hm y (by simp [hy]))]

/-- The accessors of a property declared in the class: those of the class, else those of the first remaining base that
has one. -/
theorem local_accessors {p : Params} {w : World} (h : Hist p w) {i : Nat} {d : Decl} {c : Cls}
    (hc : w.classes[i]? = some (.built d, c)) {k : Str} {D : Desc} (hD : c.own.get? k = some D)
    (hn : NoClash w i k) : D.funs = found w d.methods (keptBases w d) k := by
  have hi : i < w.items.length := (List.getElem?_eq_some_iff.1 (get_items hc)).1
  have hpar := (facts h hc).parents
  obtain ⟨v, tys, l, hb⟩ := built_facts h hc
  rw [hb.own, get?_descriptors, Option.map_eq_some_iff] at hD
  obtain ⟨t, ht, rfl⟩ := hD
  have hsub : ∀ x, x ∈ AList.keys (firstOf ((buildTypes d.id d.props v.reg).1 :: (infos w (protoBases w d)).map Info.props)) ↔
      x ∈ AList.keys (infoOf w d tys l c.own).props := by
    intro x
    simp only [infoOf, ← AList.get?_isSome, get?_firstOf, List.findSome?_cons, types_get hb]
    cases h1 : (buildTypes d.id d.props v.reg).1.get? x with
    | some t => simp
    | none =>
      simp only [Option.none_or]
      cases h2 : (buildTypes d.id l.extra (buildTypes d.id d.props v.reg).2).1.get? x with
      | none => simp
      | some t' =>
        simp only [Option.isSome_some, iff_true]
        -- the loop only redefines properties it goes through
        by_cases hx : x ∈ AList.keys (firstOf ((buildTypes d.id d.props v.reg).1 :: (infos w (protoBases w d)).map Info.props))
        · rw [← AList.get?_isSome, get?_firstOf, List.findSome?_cons, h1] at hx; exact hx
        · have := ((visitAll_keeps hb.visit).2.1 x hx).1
          have hx' : x ∈ l.extra.keys := by
            rw [← buildTypes_keys d.id l.extra (buildTypes d.id d.props v.reg).2, ← AList.get?_isSome, h2]; rfl
          rw [← AList.get?_isSome, this] at hx'
          simp [loopStart, AList.get?] at hx'
  have hkeys : k ∈ AList.keys (infoOf w d tys l c.own).props := by
    simp only [infoOf, ← AList.get?_isSome, get?_firstOf, List.findSome?_cons, ht]; rfl
  simp only
  rw [visitAll_funs hb.visit (wf_firstOf _) ((hsub k).2 hkeys) rfl
    (fun k' hk' => hn _ (by rw [info_get hc, hb.info]) k' ((hsub k').1 hk'))]
  have hacc : ∀ name, accessor v d.methods (keptBases v d) name = accessor w d.methods (keptBases w d) name := by
    intro name
    unfold accessor
    cases d.methods.get? name with
    | some f => rfl
    | none =>
      simp only
      rw [keptBases_earlier hb.earlier hpar]
      have hlt : ∀ x ∈ keptBases w d, x < i := fun x hx => hpar x (mem_keptBases_parent hx)
      generalize keptBases w d = bs at hlt
      induction bs with
      | nil => rfl
      | cons b bs ih =>
        simp only [List.findSome?_cons]
        rw [method_earlier h hb.earlier (hlt b (by simp)) (by omega), ih (fun y hy => hlt y (by simp [hy]))]
  simp only [found, loopStart, hacc]

/-- C120. For every program: an accessor a class defines for a property it declares itself is used, both for attribute and
item access. (The same holds for `set_` and `del_`.) -/
theorem C120_own_accessor_partial (p : Params) (its : List Item) (i : Nat) (d : Decl)
    (hd : IsBuilt (run p its).items i d) (k : Str) (hk : k ∈ d.props.keys) (hn : NoClash (run p its) i k) (g : Nat) :
    ∃ D, (run p its).attribute i k = some D ∧ (run p its).item i k = some D ∧
      (d.methods.get? ("get_".toList ++ Names.cleanJsName k) = some g → D.funs.get = some g) ∧
      (d.methods.get? ("set_".toList ++ Names.cleanJsName k) = some g → D.funs.set = some g) ∧
      (d.methods.get? ("del_".toList ++ Names.cleanJsName k) = some g → D.funs.del = some g) := by
  have h := hist_run p its
  obtain ⟨c, hc⟩ := items_get hd
  obtain ⟨D, hD, h1, h2⟩ := local_descriptor h hc hk
  refine ⟨D, h1, h2, ?_⟩
  rw [local_accessors h hc hD hn]
  refine ⟨fun hg => ?_, fun hg => ?_, fun hg => ?_⟩ <;> (simp only [found, accessor]; rw [hg])

/-- C120, the rest of the rule: an accessor the class does not define comes from the first of its Python bases that has it
in its resolution order. -/
theorem C120_base_accessor_partial (p : Params) (its : List Item) (i : Nat) (d : Decl)
    (hd : IsBuilt (run p its).items i d) (hx : d.exts = []) (k : Str) (hk : k ∈ d.props.keys)
    (hn : NoClash (run p its) i k) (hno : d.methods.get? ("get_".toList ++ Names.cleanJsName k) = none) :
    ∃ D, (run p its).attribute i k = some D ∧ (run p its).item i k = some D ∧
      D.funs.get = d.bases.findSome? (fun b => (run p its).method b ("get_".toList ++ Names.cleanJsName k)) := by
  have h := hist_run p its
  obtain ⟨c, hc⟩ := items_get hd
  obtain ⟨D, hD, h1, h2⟩ := local_descriptor h hc hk
  refine ⟨D, h1, h2, ?_⟩
  rw [local_accessors h hc hD hn]
  have : keptBases (run p its) d = d.bases := by simp [keptBases, extended, hx]
  simp only [found, accessor, this, hno]

/-- The accessors a class defines for a property it does not declare do nothing. -/
theorem C120_inherited_ignored_partial (p : Params) (its : List Item) (i : Nat) (d : Decl)
    (hd : IsBuilt (run p its).items i d) (k : Str) (hk : k ∉ d.props.keys)
    (ha : value? (d.attrs.get? (Names.cleanJsName k)) = none) (hw : value? (d.keywords.get? k) = none) :
    (run p its).item i k = (protoBases (run p its) d).findSome? (fun b => (run p its).item b k) := by
  have h := hist_run p its
  obtain ⟨c, hc⟩ := items_get hd
  obtain ⟨v, tys, l, hb⟩ := built_facts h hc
  rw [item_built h hc, hb.own, get?_descriptors, types_get hb]
  have h1 : (buildTypes d.id d.props v.reg).1.get? k = none := by
    rw [AList.get?_eq_none, buildTypes_keys]; exact hk
  have h2 : (buildTypes d.id l.extra (buildTypes d.id d.props v.reg).2).1.get? k = none := by
    rw [AList.get?_eq_none, buildTypes_keys, ← AList.get?_eq_none, (visitAll_keeps hb.visit).2.2.2.2 k ha (.inr hw)]; rfl
  rw [h1, h2]; rfl

/-- Class 0 declares `a` with getter 7. Class 1 derives from it and defines getter 8. Class 2 extends it and redeclares
`a`. Class 3 derives from it and redeclares `a`. Class 4 also, with getter 9. -/
def exAccessors : List Item :=
  [.built { id := "A".toList, props := [("a".toList, ⟨1, .none⟩)], methods := [("get_a".toList, 7)] },
   .built { id := "B".toList, bases := [0], methods := [("get_a".toList, 8)] },
   .built { id := "C".toList, exts := [0], props := [("a".toList, ⟨2, .none⟩)] },
   .built { id := "D".toList, bases := [0], props := [("a".toList, ⟨2, .none⟩)] },
   .built { id := "E".toList, bases := [0], props := [("a".toList, ⟨2, .none⟩)], methods := [("get_a".toList, 9)] }]

example : ((run exParams exAccessors).item 4 "a".toList).map (·.funs.get) = some (some 9) ∧
    ((run exParams exAccessors).item 3 "a".toList).map (·.funs.get) = some (some 7) := by decide +kernel

/-- C120 fails for an inherited property: class 1 defines getter 8, getter 7 is used. -/
theorem C120_override_violated : ∃ (its : List Item) (i g : Nat) (d : Decl) (k : Str) (D : Desc),
    IsBuilt (run exParams its).items i d ∧ d.methods.get? ("get_".toList ++ Names.cleanJsName k) = some g ∧
    (run exParams its).attribute i k = some D ∧ (run exParams its).item i k = some D ∧ D.funs.get ≠ some g := by
  refine ⟨exAccessors, 1, 8, { id := "B".toList, bases := [0], methods := [("get_a".toList, 8)] }, "a".toList,
    ⟨0, ⟨"A/properties/a".toList, ⟨1, .none⟩⟩, ⟨some 7, none, none⟩⟩, ?_, by decide +kernel, by decide +kernel,
    by decide +kernel, by decide⟩
  rw [IsBuilt, items_run exParams exAccessors (by decide +kernel)]; rfl

/-- C120 fails for an accessor inherited through `extends`: redeclaring the property loses it, although the method is
there. -/
theorem C120_extended_accessor_violated : ∃ (its : List Item) (i g : Nat) (k : Str) (D : Desc),
    (run exParams its).method i ("get_".toList ++ Names.cleanJsName k) = some g ∧
    (run exParams its).attribute i k = some D ∧ (run exParams its).item i k = some D ∧ D.funs.get = none :=
  ⟨exAccessors, 2, 7, "a".toList, ⟨2, ⟨"C/properties/a".toList, ⟨2, .none⟩⟩, {}⟩, by decide +kernel, by decide +kernel,
    by decide +kernel, rfl⟩

/-! ### C121, C122 -/

/-- The class made by the last definition of a program, if it succeeded. -/
def lastClass (p : Params) (pre : List Item) (it : Item) : Option Cls :=
  ((run p (pre ++ [it])).classes[(run p pre).classes.length]?).map Prod.snd

/-- No other definition of the program has a property type with this identifier. -/
def FreshType (pre : List Item) (id k : Str) : Prop :=
  ∀ d k', Item.built d ∈ pre → typeId d.id k' ≠ typeId id k

theorem lastClass_build {p : Params} {pre : List Item} {d : Decl} {c : Cls} (h : lastClass p pre (.built d) = some c) :
    ∃ reg, build p (run p pre) d = (.ok c, reg) := by
  have hr : run p (pre ++ [.built d]) = exec p (run p pre) (.built d) := by simp [run]
  rw [lastClass, hr] at h
  rcases exec_cases p (run p pre) (.built d) with ⟨reg, he, -⟩ | ⟨c', reg, he, hb⟩
  · rw [he] at h; simp at h
  · rw [he] at h
    simp at h
    subst h
    rcases hb with ⟨d', hd, hb⟩ | ⟨⟨_, _, hc⟩, -⟩
    · cases hd; exact ⟨reg, hb⟩
    · cases hc

theorem fresh_reg {p : Params} {pre : List Item} {id k : Str} (h : FreshType pre id k) :
    (run p pre).reg.get? (typeId id k) = none := by
  rw [AList.get?_eq_none]
  intro hx
  obtain ⟨d, k', hd, he⟩ := regKeys_run p pre hx
  exact h d k' hd he.symm

/-- What `build` makes. -/
theorem build_ok {p : Params} {w : World} {d : Decl} {c : Cls} {reg : AList Str Ty} (h : build p w d = (.ok c, reg)) :
    ∃ l tys, visitAll p w d (keptBases w d)
        (firstOf ((buildTypes d.id d.props w.reg).1 :: (infos w (protoBases w d)).map Info.props)) (loopStart w d) = .ok l ∧
      (∀ k, tys.get? k = ((buildTypes d.id l.extra (buildTypes d.id d.props w.reg).2).1.get? k).or
        ((buildTypes d.id d.props w.reg).1.get? k)) ∧
      c.own = descriptors w.classes.length l.funs tys ∧ c.info = some (infoOf w d tys l c.own) := by
  simp only [build] at h
  split at h
  · cases h
  · rename_i l hl
    split at h
    · cases h
    · simp only [Prod.mk.injEq, Except.ok.injEq] at h
      obtain ⟨rfl, -⟩ := h
      have hwf : l.extra.WF := (visitAll_keeps hl).1 AList.wf_nil
      have hwf2 := wf_of_keys (buildTypes_keys d.id l.extra (buildTypes d.id d.props w.reg).2) hwf
      exact ⟨l, _, hl, fun k => AList.get?_update _ hwf2 k, rfl, rfl⟩

theorem default_of_attr {p : Params} {pre : List Item} {d : Decl} {c : Cls}
    (hc : lastClass p pre (.built d) = some c) {k : Str} (hk : k ∉ d.props.keys) (hfresh : FreshType pre d.id k)
    {t : Ty} (ht : ((infos (run p pre) (protoBases (run p pre) d)).map Info.props).findSome? (fun m => m.get? k) = some t)
    {v : Val} (hattr : attrOf d k (loopStart (run p pre) d) = some v)
    (hone : ∀ f, c.info = some f → ∀ k' ∈ f.props.keys, k' ≠ k → Names.cleanJsName k' ≠ Names.cleanJsName k) :
    ∃ v' D f, p.dflt t v = some v' ∧ c.own.get? k = some D ∧ D.ty = ⟨typeId d.id k, { t.sch with default := v' }⟩ ∧
      c.info = some f ∧ f.props.get? k = some D.ty ∧ k ∈ f.withDefault := by
  obtain ⟨reg, hb⟩ := lastClass_build hc
  obtain ⟨l, tys, hl, htys, hown, hinfo⟩ := build_ok hb
  have h1 : (buildTypes d.id d.props (run p pre).reg).1.get? k = none := by
    rw [AList.get?_eq_none, buildTypes_keys]; exact hk
  have hall : (firstOf ((buildTypes d.id d.props (run p pre).reg).1 ::
      (infos (run p pre) (protoBases (run p pre) d)).map Info.props)).get? k = some t := by
    rw [get?_firstOf, List.findSome?_cons, h1]; exact ht
  obtain ⟨v', hv', hex, hwd⟩ := visitAll_extra hl (wf_firstOf _) hall hattr (by
    intro k' hk' hne
    refine hone _ hinfo k' ?_ hne
    simp only [infoOf, ← AList.get?_isSome, get?_firstOf, List.findSome?_cons, htys] at hk' ⊢
    cases (buildTypes d.id l.extra (buildTypes d.id d.props (run p pre).reg).2).1.get? k' with
    | some _ => rfl
    | none => simpa using hk')
  have hreg : (buildTypes d.id d.props (run p pre).reg).2.get? (typeId d.id k) = none := by
    cases hr : (buildTypes d.id d.props (run p pre).reg).2.get? (typeId d.id k) with
    | none => rfl
    | some t' =>
      exfalso
      -- only the declared properties were registered
      have : ∀ (ps : AList Str Sch) (reg : AList Str Ty), reg.get? (typeId d.id k) = none → k ∉ ps.keys →
          (buildTypes d.id ps reg).2.get? (typeId d.id k) = none := by
        intro ps
        induction ps with
        | nil => exact fun reg h _ => h
        | cons q ps ih =>
          intro reg h hk
          simp only [AList.keys_cons, List.mem_cons, not_or] at hk
          refine ih _ ?_ hk.2
          unfold buildType
          split
          · exact h
          · rw [AList.get?_set_ne _ _ (fun hc => hk.1 (typeId_inj hc).symm)]; exact h
      rw [this _ _ (fresh_reg hfresh) hk] at hr
      cases hr
  have hty : tys.get? k = some ⟨typeId d.id k, { t.sch with default := v' }⟩ := by
    rw [htys, buildTypes_new d.id l.extra hreg hex]; rfl
  have hD : c.own.get? k = some ⟨(run p pre).classes.length, ⟨typeId d.id k, { t.sch with default := v' }⟩,
      (l.funs.get? k).getD {}⟩ := by
    rw [hown, get?_descriptors, hty]; rfl
  refine ⟨v', _, _, hv', hD, rfl, hinfo, ?_, ?_⟩
  · simp only [infoOf, get?_firstOf, List.findSome?_cons, hty]
  · simp only [infoOf, List.mem_append]; exact .inl hwd

/-- C121. For every program: a value given as class attribute (or schema keyword) for an inherited property becomes the
default of the property in the class, everything else in its type being inherited, provided no other property of the class
has the same Python name and no other definition the same identifier for the type. -/
theorem C121_inherited_default_partial (p : Params) (pre : List Item) (d : Decl) (c : Cls)
    (hc : lastClass p pre (.built d) = some c) (k : Str) (hk : k ∉ d.props.keys) (hfresh : FreshType pre d.id k)
    (t : Ty) (ht : ((infos (run p pre) (protoBases (run p pre) d)).map Info.props).findSome? (fun m => m.get? k) = some t)
    (v : Val) (hv : v ≠ .none) (ha : d.attrs.get? (Names.cleanJsName k) = some v)
    (hone : ∀ f, c.info = some f → ∀ k' ∈ f.props.keys, k' ≠ k → Names.cleanJsName k' ≠ Names.cleanJsName k) :
    ∃ v' D f, p.dflt t v = some v' ∧ c.own.get? k = some D ∧ D.ty = ⟨typeId d.id k, { t.sch with default := v' }⟩ ∧
      c.info = some f ∧ f.props.get? k = some D.ty ∧ k ∈ f.withDefault := by
  refine default_of_attr hc hk hfresh ht ?_ hone
  simp only [attrOf, loopStart, ha]
  cases v <;> first | rfl | exact absurd rfl hv

/-- C122. For every program: the type of a property declared in a class is made from the schema given there, when no other
definition has the same identifier for the type; a class attribute of its name has no effect on the type. -/
theorem C122_declared_type_partial (p : Params) (pre : List Item) (d : Decl) (c : Cls)
    (hc : lastClass p pre (.built d) = some c) (k : Str) (s : Sch) (hk : d.props.get? k = some s)
    (hfresh : FreshType pre d.id k) :
    ∃ D f, c.own.get? k = some D ∧ D.ty = ⟨typeId d.id k, s⟩ ∧ c.info = some f ∧ f.props.get? k = some D.ty ∧
      f.descs.get? k = some D := by
  obtain ⟨reg, hb⟩ := lastClass_build hc
  obtain ⟨l, tys, hl, htys, hown, hinfo⟩ := build_ok hb
  have h1 := buildTypes_new d.id d.props (fresh_reg (p := p) hfresh) hk
  have hty : tys.get? k = some ⟨typeId d.id k, s⟩ := by
    rw [htys]
    cases h2 : (buildTypes d.id l.extra (buildTypes d.id d.props (run p pre).reg).2).1.get? k with
    | none => rw [h1]; rfl
    | some t' =>
      have hk' : k ∈ l.extra.keys := by
        rw [← buildTypes_keys d.id l.extra (buildTypes d.id d.props (run p pre).reg).2, ← AList.get?_isSome, h2]; rfl
      have := buildTypes_old d.id l.extra (buildTypes_reg d.id d.props _ h1) hk'
      rw [h2] at this
      rw [this]; rfl
  have hD : c.own.get? k = some ⟨(run p pre).classes.length, ⟨typeId d.id k, s⟩, (l.funs.get? k).getD {}⟩ := by
    rw [hown, get?_descriptors, hty]; rfl
  refine ⟨_, _, hD, rfl, hinfo, ?_, ?_⟩
  · simp only [infoOf, get?_firstOf, List.findSome?_cons, hty]
  · simp only [infoOf, get?_firstOf, List.findSome?_cons, hD]

/-- Class 0 declares `a`; class 1 derives from it and gives `a` the value 5; class 2 declares `b` and gives it the value
6. -/
def exDefaults : List Item :=
  [.built { id := "A".toList, props := [("a".toList, ⟨1, .none⟩)] },
   .built { id := "B".toList, bases := [0], attrs := [("a".toList, .int 5)] }]
def exLocalDefault : Decl := { id := "C".toList, props := [("b".toList, ⟨2, .none⟩)], attrs := [("b".toList, .int 6)] }

example : ((run exParams exDefaults).item 1 "a".toList).map (·.ty) =
    some ⟨"B/properties/a".toList, ⟨1, .int 5⟩⟩ := by decide +kernel

theorem exFresh : FreshType exDefaults "C".toList "b".toList := by
  intro d k' hd h
  simp only [exDefaults, List.mem_cons, Item.built.injEq, List.not_mem_nil, or_false] at hd
  rcases hd with rfl | rfl <;> simp [typeId] at h

/-- The hypotheses of C122 hold for the declared property of this class, those of C121 for an inherited one. -/
example : ∃ c D, lastClass exParams exDefaults (.built exLocalDefault) = some c ∧ c.own.get? "b".toList = some D ∧
    D.ty.sch = ⟨2, .none⟩ := by
  have h : (lastClass exParams exDefaults (.built exLocalDefault)).isSome = true := by decide +kernel
  obtain ⟨c, hc⟩ := Option.isSome_iff_exists.1 h
  obtain ⟨D, f, h1, h2, -⟩ := C122_declared_type_partial _ _ _ c hc "b".toList ⟨2, .none⟩ rfl exFresh
  exact ⟨c, D, hc, h1, by rw [h2]⟩
example : ∃ c D, lastClass exParams exDefaults (.built { id := "C".toList, bases := [0], attrs := [("a".toList, .int 6)] }) =
    some c ∧ c.own.get? "a".toList = some D ∧ D.ty.sch = ⟨1, .int 6⟩ := by
  have h : ((lastClass exParams exDefaults (.built { id := "C".toList, bases := [0], attrs := [("a".toList, .int 6)] })).bind
      Cls.info).map (fun f => f.props.keys) = some ["a".toList] := by decide +kernel
  rw [Option.map_eq_some_iff] at h
  obtain ⟨f0, hf0, hkeys⟩ := h
  rw [Option.bind_eq_some_iff] at hf0
  obtain ⟨c, hc, hci⟩ := hf0
  obtain ⟨v', D, f, h1, h2, h3, -⟩ := C121_inherited_default_partial exParams exDefaults _ c hc "a".toList (by decide)
    (by
      intro d k' hd h
      simp only [exDefaults, List.mem_cons, Item.built.injEq, List.not_mem_nil, or_false] at hd
      rcases hd with rfl | rfl <;> simp [typeId] at h)
    ⟨"A/properties/a".toList, ⟨1, .none⟩⟩ (by decide +kernel) (.int 6) (by simp) (by decide +kernel)
    (by
      intro f hf k' hk' hne
      rw [hci] at hf; cases hf
      rw [hkeys] at hk'
      simp only [List.mem_singleton] at hk'
      exact absurd hk' hne)
  cases h1
  exact ⟨c, D, hc, h2, by rw [h3]⟩

/-- C121 fails for a property declared in the class: it is listed among those with a default, but its type has none. -/
theorem C121_local_default_violated : ∃ (pre : List Item) (d : Decl) (c : Cls) (k : Str) (v : Val) (D : Desc) (f : Info),
    lastClass exParams pre (.built d) = some c ∧ k ∈ d.props.keys ∧ d.attrs.get? (Names.cleanJsName k) = some v ∧
    v ≠ .none ∧ c.own.get? k = some D ∧ c.info = some f ∧ k ∈ f.withDefault ∧ D.ty.sch.default = .none := by
  have h : (lastClass exParams exDefaults (.built exLocalDefault)).isSome = true := by decide +kernel
  obtain ⟨c, hc⟩ := Option.isSome_iff_exists.1 h
  have h2 : (lastClass exParams exDefaults (.built exLocalDefault)).map (fun c => c.own.get? "b".toList) =
      some (some ⟨2, ⟨"C/properties/b".toList, ⟨2, .none⟩⟩, {}⟩) := by decide +kernel
  have h3 : (lastClass exParams exDefaults (.built exLocalDefault)).bind (fun c => c.info.map Info.withDefault) =
      some ["b".toList] := by decide +kernel
  rw [hc] at h2 h3
  simp only [Option.map_some, Option.some.injEq, Option.bind_some, Option.map_eq_some_iff] at h2 h3
  obtain ⟨f, hf, hw⟩ := h3
  exact ⟨exDefaults, exLocalDefault, c, "b".toList, .int 6, _, f, hc, by decide, by decide +kernel, by simp, h2, hf,
    by rw [hw]; simp, rfl⟩

/-- C122. Classes defined under the same identifier share the types of their properties, whatever their schemas. -/
theorem C122_same_identifier_partial (p : Params) (its : List Item) (i j : Nat) (d e : Decl) (c c' : Cls)
    (hi : (run p its).classes[i]? = some (.built d, c)) (hj : (run p its).classes[j]? = some (.built e, c'))
    (k : Str) (hid : d.id = e.id) (D E : Desc) (hD : c.own.get? k = some D) (hE : c'.own.get? k = some E) : D.ty = E.ty := by
  have h1 := regInv_run p its i d c k D hi hD
  have h2 := regInv_run p its j e c' k E hj hE
  rw [hid, h2] at h1
  exact (Option.some.inj h1).symm

/-- C122 fails: a class defined again under the same identifier keeps the old types. -/
theorem C122_redefinition_violated : ∃ (pre : List Item) (d : Decl) (c : Cls) (k : Str) (s : Sch) (D : Desc),
    lastClass exParams pre (.built d) = some c ∧ d.props.get? k = some s ∧ c.own.get? k = some D ∧ D.ty.sch ≠ s := by
  have h : (lastClass exParams exDefaults (.built { id := "A".toList, props := [("a".toList, ⟨9, .int 1⟩)] })).map
      (fun c => c.own.get? "a".toList) = some (some ⟨2, ⟨"A/properties/a".toList, ⟨1, .none⟩⟩, {}⟩) := by decide +kernel
  rw [Option.map_eq_some_iff] at h
  obtain ⟨c, hc, hD⟩ := h
  exact ⟨exDefaults, _, c, "a".toList, ⟨9, .int 1⟩, _, hc, rfl, hD, by decide⟩

/-! ### C123 -/

/-- C123. For every program: the dependencies of a class include those declared by all the classes it is derived from,
except the dependencies of the property `identityKeys`. -/
theorem C123_dependencies_inherited_partial (p : Params) (its : List Item) (hs : SinglePlain (run p its).items)
    (i : Nat) (f : Info) (hf : (run p its).info i = some f) (j : Nat) (d : Decl) (hj : Inherits (run p its).items i j)
    (hd : IsBuilt (run p its).items j d) (k : Str) (hk : k ≠ "identityKeys".toList) (x : Str)
    (hx : x ∈ (d.deps.get? k).getD []) : x ∈ (f.deps.get? k).getD [] := by
  have h := hist_run p its
  generalize run p its = w at *
  induction i using Nat.strongRecOn generalizing f with
  | ind i ih =>
    obtain ⟨⟨it, c⟩, hc, hcf⟩ : ∃ x, w.classes[i]? = some x ∧ x.2.info = some f := by
      simp only [World.info, World.cls?, Option.bind_eq_some_iff, Option.map_eq_some_iff] at hf
      obtain ⟨_, ⟨x, hx, rfl⟩, hf⟩ := hf
      exact ⟨x, hx, hf⟩
    have hit := get_items hc
    have hi : i < w.items.length := (List.getElem?_eq_some_iff.1 hit).1
    have hpar := (facts h hc).parents
    cases it with
    | built e =>
      obtain ⟨v, tys, l, hb⟩ := built_facts h hc
      simp only at hcf
      rw [hb.info] at hcf
      cases hcf
      simp only [infoOf]
      refine (visitAll_keeps hb.visit).2.2.1 k x ?_
      simp only [loopStart]
      rw [depsBefore_earlier hb.earlier hpar]
      refine mem_depsBefore hk ?_
      by_cases hji : j = i
      · subst hji
        simp only [IsBuilt] at hd
        rw [hit] at hd; cases hd
        exact .inl hx
      · obtain ⟨b, hb', hbj⟩ := protoBases_cover h hc hj hji ⟨j, d, .refl (List.getElem?_eq_some_iff.1 hd).1, hd⟩
        obtain ⟨g, hg⟩ := protoBases_info h hc hb'
        exact .inr ⟨g, mem_infos.2 ⟨b, hb', hg⟩, ih b (hpar b (mem_protoBases_parent hb')) g hg hbj⟩
    | plain bases methods =>
      cases hj with
      | refl _ => simp only [IsBuilt] at hd; rw [hit] at hd; cases hd
      | @step _ b _ it' hit' hbm hbj =>
        rw [hit] at hit'; cases hit'
        simp only [Item.parents] at hbm
        have hbp : IsProtocol w.items b := ⟨j, d, hbj, hd⟩
        have hbf : w.info b = some f := by rw [← plain_info h hs hc hbm hbp, hf]
        exact ih b (hpar b hbm) f hbf hbj

/-- Class 0 declares that `a` depends on `b`, and `identityKeys` on `c`; class 1 extends it and has the primary key `b`. -/
def exDeps : List Item :=
  [.built { id := "A".toList, props := [("a".toList, ⟨1, .none⟩), ("b".toList, ⟨2, .none⟩), ("c".toList, ⟨2, .none⟩)],
            deps := [("a".toList, ["b".toList]), ("identityKeys".toList, ["c".toList])] },
   .built { id := "B".toList, exts := [0], primaryKeys := some ["b".toList] }]

example : ((run exParams exDeps).info 1).map (fun f => f.deps.get? "a".toList) = some (some ["b".toList]) := by
  decide +kernel

/-- C123 fails for `identityKeys`. -/
theorem C123_identity_keys_violated : ∃ (its : List Item) (i j : Nat) (f : Info) (d : Decl) (k x : Str),
    (run exParams its).info i = some f ∧ Inherits (run exParams its).items i j ∧ IsBuilt (run exParams its).items j d ∧
    x ∈ (d.deps.get? k).getD [] ∧ x ∉ (f.deps.get? k).getD [] := by
  have h : ((run exParams exDeps).info 1).map (fun f => f.deps.get? "identityKeys".toList) =
      some (some ["b".toList]) := by decide +kernel
  rw [Option.map_eq_some_iff] at h
  obtain ⟨f, hf, hk⟩ := h
  have hitems := items_run exParams exDeps (by decide +kernel)
  refine ⟨exDeps, 1, 0, f, { id := "A".toList, props := [("a".toList, ⟨1, .none⟩), ("b".toList, ⟨2, .none⟩),
    ("c".toList, ⟨2, .none⟩)], deps := [("a".toList, ["b".toList]), ("identityKeys".toList, ["c".toList])] },
    "identityKeys".toList, "c".toList, hf, ?_, ?_, by decide, by rw [hk]; decide⟩
  · rw [hitems]; exact .step (it := .built { id := "B".toList, exts := [0], primaryKeys := some ["b".toList] }) rfl
      (by simp [Item.parents]) (.refl (by simp [exDeps]))
  · rw [IsBuilt, hitems]; rfl

end Verif.Classes
