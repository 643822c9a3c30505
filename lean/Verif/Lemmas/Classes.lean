import Verif.Spec.Classes
import Verif.Props.Mro
/-
Lemmas on classes built from schemas.
-/
namespace Verif.Classes

/-! ### How a class came into being -/

/-- The class `c` was made from `it` when the world was `w`. -/
structure Made (p : Params) (w : World) (it : Item) (c : Cls) : Prop where
  parents : ∀ x ∈ it.parents, x < w.classes.length
  exts : ∀ x ∈ it.extended, (w.info x).isSome = true
  eq : match it with
    | .built d => ∃ reg, build p w d = (.ok c, reg)
    | .plain bases methods => derive w bases methods = .ok c

/-- Every class was made from the ones before it. -/
def Hist (p : Params) (w : World) : Prop :=
  ∀ i it c, w.classes[i]? = some (it, c) → ∃ v : World, v.classes = w.classes.take i ∧ Made p v it c

theorem hist_exec (p : Params) (w : World) (it : Item) (h : Hist p w) : Hist p (exec p w it) := by
  have keep : ∀ reg, Hist p { w with reg } := fun reg i it c hi => h i it c hi
  have add : ∀ c reg, Made p w it c → Hist p ⟨w.classes ++ [(it, c)], reg⟩ := by
    intro c reg hm i it' c' hi
    by_cases hl : i < w.classes.length
    · simp only [List.getElem?_append_left hl] at hi
      obtain ⟨v, hv, hm'⟩ := h i it' c' hi
      refine ⟨v, ?_, hm'⟩
      rw [hv]; simp only; rw [List.take_append_of_le_length (by omega)]
    · have hl' : i = w.classes.length := by
        have := (List.getElem?_eq_some_iff.1 hi).1
        simp at this; omega
      subst hl'
      simp at hi
      obtain ⟨rfl, rfl⟩ := hi
      exact ⟨w, by simp, hm⟩
  unfold exec
  split
  · exact h
  · rename_i hg
    simp only [Bool.or_eq_true, Bool.not_eq_true', not_or, Bool.not_eq_false, List.all_eq_true, decide_eq_true_eq] at hg
    cases it with
    | built d =>
      simp only
      split
      · rename_i c reg hb; exact add c reg ⟨hg.1, hg.2, reg, hb⟩
      · exact keep _
    | plain bases methods =>
      simp only
      split
      · rename_i c hb; exact add c w.reg ⟨hg.1, hg.2, hb⟩
      · exact h

theorem hist_run (p : Params) (its : List Item) : Hist p (run p its) := by
  have : ∀ (its : List Item) (w : World), Hist p w → Hist p (its.foldl (exec p) w) := by
    intro its
    induction its with
    | nil => exact fun w h => h
    | cons it its ih => exact fun w h => ih _ (hist_exec p w it h)
  exact this its {} (fun i it c hi => by simp at hi)

/-! ### Looking up in an earlier world -/

section earlier
variable {v w : World} {i : Nat} (hv : v.classes = w.classes.take i)
include hv

theorem cls_earlier {b : Nat} (hb : b < i) : v.cls? b = w.cls? b := by
  simp [World.cls?, hv, hb]
theorem mro_earlier {b : Nat} (hb : b < i) : v.mro b = w.mro b := by simp [World.mro, cls_earlier hv hb]
theorem info_earlier {b : Nat} (hb : b < i) : v.info b = w.info b := by simp [World.info, cls_earlier hv hb]
theorem isSub_earlier {b : Nat} (hb : b < i) (e : Nat) : v.isSub b e = w.isSub b e := by
  simp [World.isSub, mro_earlier hv hb]

theorem extended_earlier {d : Decl} (hd : ∀ x ∈ d.bases ++ d.exts, x < i) : extended v d = extended w d := by
  unfold extended
  refine List.filter_congr fun e _ => ?_
  congr 1
  rw [Bool.eq_iff_iff]
  simp only [List.any_eq_true]
  constructor <;> rintro ⟨b, hb, h⟩ <;> refine ⟨b, hb, ?_⟩
  · rwa [isSub_earlier hv (hd b (by simp [hb]))] at h
  · rwa [isSub_earlier hv (hd b (by simp [hb]))]

theorem keptBases_earlier {d : Decl} (hd : ∀ x ∈ d.bases ++ d.exts, x < i) : keptBases v d = keptBases w d := by
  unfold keptBases
  rw [extended_earlier hv hd]
  refine List.filter_congr fun e _ => ?_
  congr 1
  rw [Bool.eq_iff_iff]
  simp only [List.any_eq_true]
  have hx : ∀ b ∈ extended w d, b < i := fun b hb => hd b (by simp [(List.mem_filter.1 hb).1])
  constructor <;> rintro ⟨b, hb, h⟩ <;> refine ⟨b, hb, ?_⟩
  · rwa [isSub_earlier hv (hx b hb)] at h
  · rwa [isSub_earlier hv (hx b hb)]

theorem protoBases_earlier {d : Decl} (hd : ∀ x ∈ d.bases ++ d.exts, x < i) : protoBases v d = protoBases w d := by
  unfold protoBases
  rw [extended_earlier hv hd, keptBases_earlier hv hd]
  congr 1
  refine List.filter_congr fun e he => ?_
  rw [info_earlier hv (hd e (by simp [(List.mem_filter.1 he).1]))]

theorem infos_earlier {bs : List Nat} (hb : ∀ x ∈ bs, x < i) : infos v bs = infos w bs := by
  unfold infos
  induction bs with
  | nil => rfl
  | cons b bs ih =>
    simp only [List.filterMap_cons]
    rw [info_earlier hv (hb b (by simp)), ih (fun x hx => hb x (by simp [hx]))]

end earlier

theorem mem_protoBases_parent {w : World} {d : Decl} {b : Nat} (h : b ∈ protoBases w d) : b ∈ d.bases ++ d.exts := by
  unfold protoBases keptBases extended at h
  simp only [List.mem_append, List.mem_filter] at h ⊢
  rcases h with h | h
  · exact .inl h.1.1
  · exact .inr h.1

theorem mem_keptBases_parent {w : World} {d : Decl} {b : Nat} (h : b ∈ keptBases w d) : b ∈ d.bases ++ d.exts := by
  unfold keptBases at h
  simp only [List.mem_append, List.mem_filter] at h ⊢
  exact .inl h.1

/-- The classes given to `type(...)`. -/
def World.supers (w : World) : Item → List Nat
  | .built d => keptBases w d ++ extended w d
  | .plain bases _ => bases

theorem supers_parent {w : World} {it : Item} {b : Nat} (h : b ∈ w.supers it) : b ∈ it.parents := by
  cases it with
  | built d =>
    simp only [World.supers, Item.parents, keptBases, extended, List.mem_append, List.mem_filter] at h ⊢
    exact h.imp (·.1) (·.1)
  | plain => exact h

/-- What is known of a class made from an item. -/
structure Facts (w : World) (i : Nat) (it : Item) (c : Cls) : Prop where
  parents : ∀ x ∈ it.parents, x < i
  exts : ∀ x ∈ it.extended, (w.info x).isSome = true
  mro : ∃ m, Mro.mro w.mro (w.supers it) = .ok m ∧ c.mro = i :: m

theorem mroLoop_congr {f g : Nat → List Nat} {bs : List Nat} (h : ∀ b ∈ bs, f b = g b) :
    Mro.mro f bs = Mro.mro g bs := by
  unfold Mro.mro
  rw [List.map_congr_left h]

theorem facts {p : Params} {w : World} (h : Hist p w) {i : Nat} {it : Item} {c : Cls}
    (hi : w.classes[i]? = some (it, c)) : Facts w i it c := by
  obtain ⟨v, hv, hm⟩ := h i it c hi
  have hlen : v.classes.length = i := by
    rw [hv, List.length_take]
    have := (List.getElem?_eq_some_iff.1 hi).1
    omega
  have hpar : ∀ x ∈ it.parents, x < i := fun x hx => hlen ▸ hm.parents x hx
  refine ⟨hpar, ?_, ?_⟩
  · intro x hx
    rw [← info_earlier hv]
    · exact hm.exts x hx
    · apply hpar
      cases it with
      | built d => simp [Item.parents, Item.extended] at hx ⊢; exact .inr hx
      | plain => simp [Item.extended] at hx
  · have he := hm.eq
    cases it with
    | built d =>
      obtain ⟨reg, he⟩ := he
      simp only [build] at he
      split at he
      · cases he
      · split at he
        · cases he
        · rename_i m hmro
          simp only [Prod.mk.injEq, Except.ok.injEq] at he
          refine ⟨m, ?_, ?_⟩
          · rw [← hmro, keptBases_earlier hv hpar, extended_earlier hv hpar]
            refine mroLoop_congr fun b hb => (mro_earlier hv (hpar b ?_)).symm
            exact supers_parent (it := .built d) hb
          · rw [← he.1, hlen]
    | plain bases methods =>
      simp only [derive] at he
      split at he
      · cases he
      · rename_i m hmro
        simp only [Except.ok.injEq] at he
        refine ⟨m, ?_, ?_⟩
        · rw [← hmro]
          exact mroLoop_congr fun b hb => (mro_earlier hv (hpar b hb)).symm
        · rw [← he, hlen]

/-! ### The resolution order holds the ancestors -/

theorem items_get {w : World} {i : Nat} {it : Item} (h : w.items[i]? = some it) : ∃ c, w.classes[i]? = some (it, c) := by
  simp only [World.items, List.getElem?_map, Option.map_eq_some_iff] at h
  obtain ⟨⟨it', c⟩, h, rfl⟩ := h
  exact ⟨c, h⟩

theorem get_items {w : World} {i : Nat} {it : Item} {c : Cls} (h : w.classes[i]? = some (it, c)) :
    w.items[i]? = some it := by simp [World.items, h]

theorem mro_get {w : World} {i : Nat} {it : Item} {c : Cls} (h : w.classes[i]? = some (it, c)) : w.mro i = c.mro := by
  simp [World.mro, World.cls?, h]
theorem info_get {w : World} {i : Nat} {it : Item} {c : Cls} (h : w.classes[i]? = some (it, c)) : w.info i = c.info := by
  simp [World.info, World.cls?, h]

theorem inherits_lt {items : List Item} {i j : Nat} (h : Inherits items i j) : i < items.length := by
  cases h with
  | refl h => exact h
  | step h => exact (List.getElem?_eq_some_iff.1 h).1

theorem inherits_trans {items : List Item} {i j k : Nat} (h : Inherits items i j) (h' : Inherits items j k) :
    Inherits items i k := by
  induction h with
  | refl _ => exact h'
  | step hi hp _ ih => exact .step hi hp (ih h')

/-- Every parent is still above one of the classes given to `type(...)`. -/
theorem parent_covered {w : World} {d : Decl} {x : Nat}
    (refl : ∀ x ∈ d.bases ++ d.exts, w.isSub x x = true)
    (trans : ∀ a ∈ d.bases ++ d.exts, ∀ b ∈ d.bases ++ d.exts, ∀ c, w.isSub a b = true → w.isSub b c = true → w.isSub a c = true)
    (hx : x ∈ d.bases ++ d.exts) : ∃ b ∈ w.supers (.built d), w.isSub b x = true := by
  have base : ∀ b ∈ d.bases, ∃ b' ∈ w.supers (.built d), w.isSub b' b = true := by
    intro b hb
    by_cases hc : ∃ e ∈ extended w d, w.isSub e b = true
    · obtain ⟨e, he, hs⟩ := hc
      exact ⟨e, by simp [World.supers, he], hs⟩
    · refine ⟨b, ?_, refl b (by simp [hb])⟩
      simp only [World.supers, keptBases, List.mem_append, List.mem_filter, Bool.not_eq_true', List.any_eq_false]
      exact .inl ⟨hb, fun e he hs => hc ⟨e, he, hs⟩⟩
  rcases List.mem_append.1 hx with hb | he
  · exact base x hb
  · by_cases hc : ∃ b ∈ d.bases, w.isSub b x = true
    · obtain ⟨b, hb, hs⟩ := hc
      obtain ⟨b', hb', hs'⟩ := base b hb
      have hp : b' ∈ d.bases ++ d.exts := supers_parent hb'
      exact ⟨b', hb', trans b' hp b (by simp [hb]) x hs' hs⟩
    · refine ⟨x, ?_, refl x hx⟩
      simp only [World.supers, extended, List.mem_append, List.mem_filter, Bool.not_eq_true', List.any_eq_false]
      exact .inr ⟨he, fun b hb hs => hc ⟨b, hb, hs⟩⟩

theorem mem_mro {p : Params} {w : World} (h : Hist p w) (i : Nat) (hi : i < w.items.length) (j : Nat) :
    j ∈ w.mro i ↔ Inherits w.items i j := by
  induction i using Nat.strongRecOn generalizing j with
  | ind i ih =>
    obtain ⟨it, hit⟩ : ∃ it, w.items[i]? = some it := ⟨_, List.getElem?_eq_getElem hi⟩
    obtain ⟨c, hc⟩ := items_get hit
    obtain ⟨hpar, -, m, hm, hcm⟩ := facts h hc
    rw [mro_get hc, hcm]
    obtain ⟨-, hmem⟩ := Mro.C09_mro_sound _ _ _ hm
    have hlt : ∀ x ∈ it.parents, x < w.items.length := fun x hx => Nat.lt_trans (hpar x hx) hi
    have self : ∀ x ∈ it.parents, x ∈ w.mro x := fun x hx =>
      (ih x (hpar x hx) (hlt x hx) x).2 (.refl (hlt x hx))
    have hsup : ∀ x ∈ it.parents, ∃ b ∈ w.supers it, x ∈ w.mro b := by
      intro x hx
      cases it with
      | plain bases methods => exact ⟨x, hx, self x hx⟩
      | built d =>
        have := parent_covered (w := w) (d := d) (x := x) (fun x hx => by simpa [World.isSub] using self x hx) ?_ hx
        · simpa [World.isSub] using this
        · intro a ha b hb c hab hbc
          simp only [World.isSub, decide_eq_true_eq] at hab hbc ⊢
          rw [ih a (hpar a ha) (hlt a ha)] at hab ⊢
          rw [ih b (hpar b hb) (hlt b hb)] at hbc
          exact inherits_trans hab hbc
    constructor
    · intro hj
      rcases List.mem_cons.1 hj with rfl | hj
      · exact .refl hi
      · have : ∃ b ∈ w.supers it, j ∈ w.mro b := by
          rcases (hmem j).1 hj with hj | hj
          · exact ⟨j, hj, self j (supers_parent hj)⟩
          · exact hj
        obtain ⟨b, hb, hj⟩ := this
        have hb' := supers_parent hb
        exact .step hit hb' ((ih b (hpar b hb') (hlt b hb') j).1 hj)
    · intro hj
      cases hj with
      | refl _ => simp
      | @step _ x _ it' hit' hx hj =>
        rw [hit] at hit'; cases hit'
        obtain ⟨b, hb, hxb⟩ := hsup x hx
        have hb' := supers_parent hb
        rw [ih b (hpar b hb') (hlt b hb')] at hxb
        refine List.mem_cons_of_mem _ ((hmem j).2 (.inr ⟨b, hb, ?_⟩))
        exact (ih b (hpar b hb') (hlt b hb') j).2 (inherits_trans hxb hj)

theorem inherits_le {p : Params} {w : World} (h : Hist p w) {i j : Nat} (hij : Inherits w.items i j) : j ≤ i := by
  induction hij with
  | refl _ => exact Nat.le_refl _
  | step hi hp _ ih =>
    obtain ⟨c, hc⟩ := items_get hi
    have := (facts h hc).parents _ hp
    omega

/-! ### The attributes of a class -/

/-- What is known of a class built from a schema, in terms of the classes it is derived from. -/
structure BuiltFacts (p : Params) (w v : World) (i : Nat) (d : Decl) (c : Cls) (tys : AList Str Ty) (l : Loop) : Prop where
  earlier : v.classes = w.classes.take i
  length : v.classes.length = i
  visit : visitAll p v d (keptBases v d)
    (firstOf ((buildTypes d.id d.props v.reg).1 :: (infos w (protoBases w d)).map Info.props)) (loopStart v d) = .ok l
  types : tys = (buildTypes d.id d.props v.reg).1.update
    (buildTypes d.id l.extra (buildTypes d.id d.props v.reg).2).1
  own : c.own = descriptors i l.funs tys
  info : c.info = some (infoOf w d tys l c.own)
  methods : c.methods = l.methods

theorem setsOf_earlier {v w : World} {i : Nat} (hv : v.classes = w.classes.take i) {d : Decl}
    (hd : ∀ x ∈ d.bases ++ d.exts, x < i) : infos v (protoBases v d) = infos w (protoBases w d) := by
  rw [protoBases_earlier hv hd]
  exact infos_earlier hv fun x hx => hd x (mem_protoBases_parent hx)

theorem built_facts {p : Params} {w : World} (h : Hist p w) {i : Nat} {d : Decl} {c : Cls}
    (hi : w.classes[i]? = some (.built d, c)) : ∃ v tys l, BuiltFacts p w v i d c tys l := by
  have hf := facts h hi
  obtain ⟨v, hv, hm⟩ := h i _ c hi
  have hlen : v.classes.length = i := by
    rw [hv, List.length_take]
    have := (List.getElem?_eq_some_iff.1 hi).1
    omega
  have hpar : ∀ x ∈ d.bases ++ d.exts, x < i := hf.parents
  have hinf := setsOf_earlier hv hpar
  obtain ⟨reg, he⟩ := hm.eq
  simp only [build] at he
  split at he
  · cases he
  · rename_i l hl
    split at he
    · cases he
    · simp only [Prod.mk.injEq, Except.ok.injEq] at he
      obtain ⟨rfl, -⟩ := he
      refine ⟨v, _, l, hv, hlen, ?_, rfl, ?_, ?_, rfl⟩
      · rw [← hinf]; exact hl
      · rw [← hlen]
      · simp only [Option.some.injEq]
        unfold infoOf setsOf primaryKeysOf
        rw [hinf]

theorem plain_facts {p : Params} {w : World} (h : Hist p w) {i : Nat} {bases : List Nat} {methods : AList Str Nat} {c : Cls}
    (hi : w.classes[i]? = some (.plain bases methods, c)) :
    c.own = [] ∧ c.info = (w.mro i).tail.findSome? w.info := by
  have hf := facts h hi
  obtain ⟨hpar, -, m, hm, hcm⟩ := hf
  obtain ⟨v, hv, hmade⟩ := h i _ c hi
  have hlen : v.classes.length = i := by
    rw [hv, List.length_take]
    have := (List.getElem?_eq_some_iff.1 hi).1
    omega
  have he := hmade.eq
  simp only [derive] at he
  split at he
  · cases he
  · rename_i m' hm'
    simp only [Except.ok.injEq] at he
    have hmm : m' = m := by
      rw [mroLoop_congr (f := v.mro) (g := w.mro) (bs := bases) fun b hb => mro_earlier hv (hpar b hb)] at hm'
      rw [show w.supers (.plain bases methods) = bases from rfl, hm'] at hm
      exact Except.ok.inj hm
    subst hmm
    refine ⟨by rw [← he], ?_⟩
    rw [mro_get hi, hcm, ← he]
    simp only [List.tail_cons]
    have hb : ∀ x ∈ m', x < i := by
      intro x hx
      have hx' : x ∈ w.mro i := by rw [mro_get hi, hcm]; simp [hx]
      have hil : i < w.items.length := by
        simp only [World.items, List.length_map]; exact (List.getElem?_eq_some_iff.1 hi).1
      obtain ⟨-, hmem⟩ := Mro.C09_mro_sound _ _ _ hm
      rcases (hmem x).1 hx with hx | ⟨b, hb, hx⟩
      · exact hpar x hx
      · have hbi := hpar b hb
        have := inherits_le h ((mem_mro h b (by omega) x).1 hx)
        omega
    clear hm' hm hcm he
    induction m' with
    | nil => rfl
    | cons x m' ih =>
      simp only [List.findSome?_cons]
      rw [info_earlier hv (hb x (by simp)), ih (fun y hy => hb y (by simp [hy]))]

theorem mro_cons {p : Params} {w : World} (h : Hist p w) {i : Nat} (hi : i < w.items.length) :
    ∃ m, w.mro i = i :: m := by
  obtain ⟨it, hit⟩ : ∃ it, w.items[i]? = some it := ⟨_, List.getElem?_eq_getElem hi⟩
  obtain ⟨c, hc⟩ := items_get hit
  obtain ⟨-, -, m, -, hcm⟩ := facts h hc
  exact ⟨m, by rw [mro_get hc, hcm]⟩

/-- A class has the attributes exactly when it is derived from a class built from a schema. -/
theorem info_isSome {p : Params} {w : World} (h : Hist p w) (i : Nat) (hi : i < w.items.length) :
    (w.info i).isSome = true ↔ IsProtocol w.items i := by
  induction i using Nat.strongRecOn with
  | ind i ih =>
    obtain ⟨it, hit⟩ : ∃ it, w.items[i]? = some it := ⟨_, List.getElem?_eq_getElem hi⟩
    obtain ⟨c, hc⟩ := items_get hit
    cases it with
    | built d =>
      obtain ⟨v, tys, l, hb⟩ := built_facts h hc
      rw [info_get hc, hb.info]
      simp only [Option.isSome_some, true_iff]
      exact ⟨i, d, .refl hi, hit⟩
    | plain bases methods =>
      obtain ⟨-, hinfo⟩ := plain_facts h hc
      rw [info_get hc, hinfo]
      obtain ⟨m, hm⟩ := mro_cons h hi
      have hpar := (facts h hc).parents
      simp only [hm, List.tail_cons, List.findSome?_isSome_iff]
      constructor
      · rintro ⟨x, hx, hs⟩
        have hix : Inherits w.items i x := (mem_mro h i hi x).1 (by rw [hm]; simp [hx])
        cases hix with
        | refl _ =>
          exfalso
          obtain ⟨-, -, m', hm', hcm⟩ := facts h hc
          rw [mro_get hc, hcm] at hm
          cases hm
          obtain ⟨-, hmem⟩ := Mro.C09_mro_sound _ _ _ hm'
          rcases (hmem i).1 hx with hx | ⟨b, hb, hx⟩
          · exact absurd (hpar i hx) (Nat.lt_irrefl _)
          · have hbi := hpar b hb
            have := inherits_le h ((mem_mro h b (by omega) i).1 hx)
            omega
        | @step _ y _ it' hit' hy hyx =>
          rw [hit] at hit'; cases hit'
          have hyi := hpar y hy
          have hxy := inherits_le h hyx
          obtain ⟨j, d, hj, hb⟩ := (ih x (by omega) (by omega)).1 hs
          exact ⟨j, d, .step hit hy (inherits_trans hyx hj), hb⟩
      · rintro ⟨j, d, hj, hb⟩
        have hjm := (mem_mro h i hi j).2 hj
        rw [hm] at hjm
        rcases List.mem_cons.1 hjm with rfl | hjm
        · simp only [IsBuilt] at hb; rw [hit] at hb; cases hb
        · refine ⟨j, hjm, ?_⟩
          obtain ⟨c', hc'⟩ := items_get hb
          obtain ⟨v, tys, l, hb⟩ := built_facts h hc'
          rw [info_get hc', hb.info]; rfl

theorem protocol_of_inherits {items : List Item} {i j : Nat} (h : Inherits items i j) (hj : IsProtocol items j) :
    IsProtocol items i := by
  obtain ⟨k, d, hk, hb⟩ := hj
  exact ⟨k, d, inherits_trans h hk, hb⟩

/-- An ordinary class with a single protocol base has the attributes of that base. -/
theorem plain_info {p : Params} {w : World} (h : Hist p w) (hs : SinglePlain w.items) {i : Nat} {bases : List Nat}
    {methods : AList Str Nat} {c : Cls} (hi : w.classes[i]? = some (.plain bases methods, c)) {b : Nat} (hb : b ∈ bases)
    (hp : IsProtocol w.items b) : w.info i = w.info b := by
  have hil : i < w.items.length := by
    simp only [World.items, List.length_map]; exact (List.getElem?_eq_some_iff.1 hi).1
  obtain ⟨-, hinfo⟩ := plain_facts h hi
  obtain ⟨hpar, -, m, hm, hcm⟩ := facts h hi
  obtain ⟨⟨hnd, hsub, -⟩, hmem⟩ := Mro.C09_mro_sound _ _ _ hm
  simp only [World.supers] at hsub hmem
  have hbl : b < w.items.length := Nat.lt_trans (hpar b hb) hil
  rw [info_get hi, hinfo, mro_get hi, hcm]
  simp only [List.tail_cons]
  -- classes of the order that have the attributes come from `b`
  have key : ∀ x ∈ m, (w.info x).isSome = true → x ∈ w.mro b := by
    intro x hx hsome
    have : ∃ y ∈ bases, x ∈ w.mro y := by
      rcases (hmem x).1 hx with hx | hx
      · obtain ⟨m', hm'⟩ := mro_cons h (Nat.lt_trans (hpar x hx) hil)
        exact ⟨x, hx, by rw [hm']; simp⟩
      · exact hx
    obtain ⟨y, hy, hxy⟩ := this
    have hyl : y < w.items.length := Nat.lt_trans (hpar y hy) hil
    have hyx := (mem_mro h y hyl x).1 hxy
    have hxl : x < w.items.length := Nat.lt_of_le_of_lt (inherits_le h hyx) hyl
    have hpy := protocol_of_inherits hyx ((info_isSome h x hxl).1 hsome)
    have := hs i bases methods (get_items hi) y hy b hb hpy hp
    exact this ▸ hxy
  obtain ⟨mb, hmb⟩ := mro_cons h hbl
  have hbs : (w.info b).isSome = true := (info_isSome h b hbl).2 hp
  have hsb := hsub b hb
  rw [hmb] at hsb key
  clear hmem hcm hinfo hsub hm
  induction m with
  | nil => cases hsb
  | cons x m ih =>
    simp only [List.findSome?_cons]
    cases hx : w.info x with
    | some f =>
      have hxm := key x (by simp) (by rw [hx]; rfl)
      cases hsb with
      | cons _ hsb' =>
        exact absurd (hsb'.mem hxm) (List.nodup_cons.1 hnd).1
      | cons_cons _ hsb' => simp only; exact hx.symm
    | none =>
      simp only
      refine ih (List.nodup_cons.1 hnd).2 (fun y hy => key y (by simp [hy])) ?_
      cases hsb with
      | cons _ hsb' => exact hsb'
      | cons_cons _ hsb' => rw [hx] at hbs; cases hbs

theorem mem_infos {w : World} {bs : List Nat} {f : Info} : f ∈ infos w bs ↔ ∃ b ∈ bs, w.info b = some f := by
  simp [infos]

/-- Every protocol class above a class built from a schema is above one of its protocol bases. -/
theorem protoBases_cover {p : Params} {w : World} (h : Hist p w) {i : Nat} {d : Decl} {c : Cls}
    (hi : w.classes[i]? = some (.built d, c)) {j : Nat} (hj : Inherits w.items i j) (hne : j ≠ i)
    (hp : IsProtocol w.items j) : ∃ b ∈ protoBases w d, Inherits w.items b j := by
  have hil : i < w.items.length := inherits_lt hj
  obtain ⟨hpar, -, m, hm, hcm⟩ := facts h hi
  obtain ⟨-, hmem⟩ := Mro.C09_mro_sound _ _ _ hm
  have hjm := (mem_mro h i hil j).2 hj
  rw [mro_get hi, hcm] at hjm
  rcases List.mem_cons.1 hjm with rfl | hjm
  · exact absurd rfl hne
  · have hlt : ∀ b ∈ w.supers (.built d), b < w.items.length := fun b hb => Nat.lt_trans (hpar b (supers_parent hb)) hil
    have : ∃ b ∈ w.supers (.built d), Inherits w.items b j := by
      rcases (hmem j).1 hjm with hx | ⟨b, hb, hx⟩
      · exact ⟨j, hx, .refl (hlt j hx)⟩
      · exact ⟨b, hb, (mem_mro h b (hlt b hb) j).1 hx⟩
    obtain ⟨b, hb, hbj⟩ := this
    refine ⟨b, ?_, hbj⟩
    have hbp := (info_isSome h b (hlt b hb)).2 (protocol_of_inherits hbj hp)
    simp only [World.supers, List.mem_append] at hb
    simp only [protoBases, List.mem_append, List.mem_filter]
    exact hb.imp (fun hb => ⟨hb, hbp⟩) id

/-- The protocol bases are parents that have the attributes. -/
theorem protoBases_info {p : Params} {w : World} (h : Hist p w) {i : Nat} {d : Decl} {c : Cls}
    (hi : w.classes[i]? = some (.built d, c)) {b : Nat} (hb : b ∈ protoBases w d) : ∃ f, w.info b = some f := by
  rw [← Option.isSome_iff_exists]
  simp only [protoBases, List.mem_append, List.mem_filter] at hb
  rcases hb with hb | hb
  · exact hb.2
  · refine (facts h hi).exts b ?_
    simp only [extended, List.mem_filter] at hb
    exact hb.1

/-! ### Chains of mappings -/

theorem get?_addNew {υ : Type} (m d : AList Str υ) (k : Str) :
    (m.foldl (fun d p => if d.contains p.1 then d else d ++ [p]) d).get? k = (d.get? k).or (m.get? k) := by
  induction m generalizing d with
  | nil => simp [AList.get?]
  | cons p m ih =>
    simp only [List.foldl_cons, ih]
    by_cases hp : p.1 = k
    · subst hp
      cases hd : d.get? p.1 with
      | some x => simp [AList.contains, hd]
      | none => simp [AList.contains, hd, AList.get?_append, AList.get?]
    · have : AList.get? (p :: m) k = AList.get? m k := by simp [AList.get?, hp]
      rw [this]
      split
      · rfl
      · rw [AList.get?_append]
        simp [AList.get?, hp]

theorem get?_firstOf {υ : Type} (ms : List (AList Str υ)) (k : Str) :
    (firstOf ms).get? k = ms.findSome? (fun m => m.get? k) := by
  have : ∀ (ms : List (AList Str υ)) (d : AList Str υ),
      (ms.foldl (fun d m => m.foldl (fun d p => if d.contains p.1 then d else d ++ [p]) d) d).get? k =
        (d.get? k).or (ms.findSome? (fun m => m.get? k)) := by
    intro ms
    induction ms with
    | nil => intro d; simp
    | cons m ms ih =>
      intro d
      simp only [List.foldl_cons, List.findSome?_cons]
      rw [ih, get?_addNew]
      cases d.get? k <;> cases m.get? k <;> simp
  rw [firstOf, this]
  simp [AList.get?]

theorem wf_addNew {υ : Type} (m d : AList Str υ) (h : d.WF) :
    AList.WF (m.foldl (fun d p => if d.contains p.1 then d else d ++ [p]) d) := by
  induction m generalizing d with
  | nil => exact h
  | cons p m ih =>
    simp only [List.foldl_cons]
    apply ih
    split
    · exact h
    · rename_i hc
      rw [AList.contains_iff] at hc
      simp only [AList.WF, AList.keys, List.map_append, List.map_cons, List.map_nil]
      refine List.nodup_append.2 ⟨h, by simp, ?_⟩
      intro a ha b hb
      simp only [List.mem_singleton] at hb
      rintro rfl
      exact hc (hb ▸ ha)

theorem wf_firstOf {υ : Type} (ms : List (AList Str υ)) : (firstOf ms).WF := by
  have : ∀ (ms : List (AList Str υ)) (d : AList Str υ), d.WF →
      AList.WF (ms.foldl (fun d m => m.foldl (fun d p => if d.contains p.1 then d else d ++ [p]) d) d) := by
    intro ms
    induction ms with
    | nil => exact fun d h => h
    | cons m ms ih => exact fun d h => ih _ (wf_addNew m d h)
  exact this ms [] AList.wf_nil

/-! ### Resolution orders as lists -/

theorem mro_nodup {p : Params} {w : World} (h : Hist p w) {i : Nat} (hi : i < w.items.length) : (w.mro i).Nodup := by
  obtain ⟨it, hit⟩ : ∃ it, w.items[i]? = some it := ⟨_, List.getElem?_eq_getElem hi⟩
  obtain ⟨c, hc⟩ := items_get hit
  obtain ⟨hpar, -, m, hm, hcm⟩ := facts h hc
  obtain ⟨⟨hnd, -⟩, hmem⟩ := Mro.C09_mro_sound _ _ _ hm
  rw [mro_get hc, hcm]
  refine List.nodup_cons.2 ⟨fun hx => ?_, hnd⟩
  rcases (hmem i).1 hx with hx | ⟨b, hb, hx⟩
  · exact absurd (hpar i (supers_parent hx)) (Nat.lt_irrefl _)
  · have hbi := hpar b (supers_parent hb)
    have := inherits_le h ((mem_mro h b (by omega) i).1 hx)
    omega

theorem mro_sublist {p : Params} {w : World} (h : Hist p w) {i : Nat} {it : Item} {c : Cls}
    (hi : w.classes[i]? = some (it, c)) {b : Nat} (hb : b ∈ w.supers it) : (w.mro b).Sublist (w.mro i) := by
  obtain ⟨-, -, m, hm, hcm⟩ := facts h hi
  obtain ⟨⟨-, hsub, -⟩, -⟩ := Mro.C09_mro_sound _ _ _ hm
  rw [mro_get hi, hcm]
  exact (hsub b hb).trans (List.sublist_cons_self _ _)

theorem findSome_find {α β : Type} (f : α → Option β) (l : List α) :
    l.findSome? f = (l.find? (fun x => (f x).isSome)).bind f := by
  induction l with
  | nil => rfl
  | cons x l ih =>
    simp only [List.findSome?_cons, List.find?_cons]
    cases hx : f x with
    | none => simpa [hx] using ih
    | some y => simp [hx]

theorem find_sublist {α : Type} (q : α → Bool) {S L : List α} (hs : S.Sublist L) (hn : L.Nodup) {a : α}
    (hf : L.find? q = some a) (ha : a ∈ S) : S.find? q = some a := by
  induction hs with
  | slnil => cases ha
  | @cons S L x hs ih =>
    simp only [List.find?_cons] at hf
    split at hf
    · cases hf; exact absurd (hs.mem ha) (List.nodup_cons.1 hn).1
    · exact ih (List.nodup_cons.1 hn).2 hf ha
  | @cons_cons S L x hs ih =>
    simp only [List.find?_cons] at hf ⊢
    split
    · rename_i hq; rw [hq] at hf; exact hf
    · rename_i hq
      rw [hq] at hf
      rcases List.mem_cons.1 ha with rfl | ha
      · have := List.find?_some hf; rw [hq] at this; cases this
      · exact ih (List.nodup_cons.1 hn).2 hf ha

/-- The descriptor a class itself has. -/
def World.ownDesc (w : World) (k : Str) (j : Nat) : Option Desc := (w.cls? j).bind (fun c => c.own.get? k)

theorem ownDesc_get {w : World} {i : Nat} {it : Item} {c : Cls} (h : w.classes[i]? = some (it, c)) (k : Str) :
    w.ownDesc k i = c.own.get? k := by simp [World.ownDesc, World.cls?, h]

theorem attribute_eq (w : World) (i : Nat) (k : Str) :
    w.attribute i k = ((w.mro i).find? (fun j => (w.ownDesc k j).isSome)).bind (w.ownDesc k) :=
  findSome_find (w.ownDesc k) (w.mro i)

theorem attribute_own {p : Params} {w : World} (h : Hist p w) {i : Nat} (hi : i < w.items.length) {k : Str} {D : Desc}
    (ho : w.ownDesc k i = some D) : w.attribute i k = some D := by
  obtain ⟨m, hm⟩ := mro_cons h hi
  rw [attribute_eq, hm]
  simp [ho]

/-- An attribute a class gets from a class above one of its direct superclasses is the attribute of that superclass. -/
theorem attribute_super {p : Params} {w : World} (h : Hist p w) {i : Nat} {it : Item} {c : Cls}
    (hi : w.classes[i]? = some (it, c)) {k : Str} {m : Nat}
    (hm : (w.mro i).find? (fun j => (w.ownDesc k j).isSome) = some m) {b : Nat} (hb : b ∈ w.supers it)
    (hmb : m ∈ w.mro b) : w.attribute b k = w.attribute i k := by
  have hil : i < w.items.length := by
    simp only [World.items, List.length_map]; exact (List.getElem?_eq_some_iff.1 hi).1
  rw [attribute_eq, attribute_eq, hm, find_sublist _ (mro_sublist h hi hb) (mro_nodup h hil) hm hmb]

theorem item_built {p : Params} {w : World} (h : Hist p w) {i : Nat} {d : Decl} {c : Cls}
    (hi : w.classes[i]? = some (.built d, c)) (k : Str) :
    w.item i k = (c.own.get? k).or ((protoBases w d).findSome? (fun b => w.item b k)) := by
  obtain ⟨v, tys, l, hb⟩ := built_facts h hi
  simp only [World.item, info_get hi, hb.info, Option.bind_some, infoOf, get?_firstOf, List.findSome?_cons]
  have : ((infos w (protoBases w d)).map Info.descs).findSome? (fun m => m.get? k) =
      (protoBases w d).findSome? (fun b => (w.info b).bind (fun f => f.descs.get? k)) := by
    unfold infos
    generalize protoBases w d = bs
    induction bs with
    | nil => rfl
    | cons b bs ih =>
      simp only [List.filterMap_cons, List.findSome?_cons]
      cases w.info b with
      | none => simpa using ih
      | some f =>
        simp only [List.map_cons, List.findSome?_cons, Option.bind_some]
        cases f.descs.get? k with
        | none => simpa using ih
        | some x => rfl
  rw [this]
  cases c.own.get? k <;> rfl

/-- The descriptor used for item access is the own one of a class above. -/
theorem item_from {p : Params} {w : World} (h : Hist p w) (i : Nat) (hi : i < w.items.length) {k : Str} {D : Desc}
    (hD : w.item i k = some D) : ∃ j, Inherits w.items i j ∧ w.ownDesc k j = some D := by
  induction i using Nat.strongRecOn with
  | ind i ih =>
    obtain ⟨it, hit⟩ : ∃ it, w.items[i]? = some it := ⟨_, List.getElem?_eq_getElem hi⟩
    obtain ⟨c, hc⟩ := items_get hit
    have hpar := (facts h hc).parents
    cases it with
    | built d =>
      rw [item_built h hc] at hD
      cases ho : c.own.get? k with
      | some x =>
        rw [ho] at hD
        exact ⟨i, .refl hi, by rw [ownDesc_get hc, ho]; exact hD⟩
      | none =>
        rw [ho] at hD
        simp only [Option.none_or] at hD
        obtain ⟨b, hb, hbD⟩ := List.exists_of_findSome?_eq_some hD
        have hbp := mem_protoBases_parent hb
        have hbi := hpar b hbp
        obtain ⟨j, hj, hjD⟩ := ih b hbi (by omega) hbD
        exact ⟨j, .step hit hbp hj, hjD⟩
    | plain bases methods =>
      obtain ⟨-, hinfo⟩ := plain_facts h hc
      simp only [World.item, info_get hc, hinfo] at hD
      rw [Option.bind_eq_some_iff] at hD
      obtain ⟨f, hf, hD⟩ := hD
      obtain ⟨b, hb, hbf⟩ := List.exists_of_findSome?_eq_some hf
      have hbm : b ∈ w.mro i := List.mem_of_mem_tail hb
      have hib := (mem_mro h i hi b).1 hbm
      have hne : b ≠ i := by
        rintro rfl
        have hn := mro_nodup h hi
        obtain ⟨m, hm⟩ := mro_cons h hi
        rw [hm] at hn hb
        exact (List.nodup_cons.1 hn).1 hb
      have hle := inherits_le h hib
      obtain ⟨j, hj, hjD⟩ := ih b (by omega) (by omega) (by simp [World.item, hbf, hD])
      exact ⟨j, inherits_trans hib hj, hjD⟩

/-! ### The registry -/

theorem typeId_inj {id k k' : Str} (h : typeId id k = typeId id k') : k = k' := by
  unfold typeId at h
  exact List.append_cancel_left h

theorem buildType_mono {reg : AList Str Ty} {id x : Str} {s : Sch} {t : Ty} (h : reg.get? x = some t) :
    (buildType reg id s).2.get? x = some t := by
  unfold buildType
  split
  · exact h
  · rename_i hn
    simp only
    rw [AList.get?_set_ne _ _ (by rintro rfl; rw [hn] at h; cases h)]
    exact h

theorem buildType_reg (reg : AList Str Ty) (id : Str) (s : Sch) :
    (buildType reg id s).2.get? id = some (buildType reg id s).1 := by
  unfold buildType
  split
  · rename_i h; exact h
  · simp [AList.get?_set_self]

theorem buildTypes_mono (id : Str) (ps : AList Str Sch) {reg : AList Str Ty} {x : Str} {t : Ty} (h : reg.get? x = some t) :
    (buildTypes id ps reg).2.get? x = some t := by
  induction ps generalizing reg with
  | nil => exact h
  | cons q ps ih => exact ih (buildType_mono h)

theorem buildTypes_keys (id : Str) (ps : AList Str Sch) (reg : AList Str Ty) : (buildTypes id ps reg).1.keys = ps.keys := by
  induction ps generalizing reg with
  | nil => rfl
  | cons q ps ih =>
    simp only [buildTypes, AList.keys_cons, ih]

/-- The types made are those registered. -/
theorem buildTypes_reg (id : Str) (ps : AList Str Sch) (reg : AList Str Ty) {k : Str} {t : Ty}
    (h : (buildTypes id ps reg).1.get? k = some t) : (buildTypes id ps reg).2.get? (typeId id k) = some t := by
  induction ps generalizing reg with
  | nil => simp [buildTypes, AList.get?] at h
  | cons q ps ih =>
    simp only [buildTypes] at h ⊢
    by_cases hq : q.1 = k
    · subst hq
      simp only [AList.get?, if_true, Option.some.injEq] at h
      rw [← h]
      exact buildTypes_mono id ps (buildType_reg _ _ _)
    · simp only [AList.get?, if_neg hq] at h
      exact ih _ h

/-- A type that is registered is used as it is. -/
theorem buildTypes_old (id : Str) (ps : AList Str Sch) {reg : AList Str Ty} {k : Str} {t : Ty}
    (h : reg.get? (typeId id k) = some t) (hk : k ∈ ps.keys) : (buildTypes id ps reg).1.get? k = some t := by
  rw [← buildTypes_keys id ps reg, ← AList.get?_isSome, Option.isSome_iff_exists] at hk
  obtain ⟨t', ht⟩ := hk
  have h1 := buildTypes_reg id ps reg ht
  rw [buildTypes_mono id ps h] at h1
  rw [ht, h1]

/-- A type that is not registered is made from the schema. -/
theorem buildTypes_new (id : Str) (ps : AList Str Sch) {reg : AList Str Ty} {k : Str} {s : Sch}
    (h : reg.get? (typeId id k) = none) (hk : ps.get? k = some s) :
    (buildTypes id ps reg).1.get? k = some ⟨typeId id k, s⟩ := by
  induction ps generalizing reg with
  | nil => cases hk
  | cons q ps ih =>
    simp only [buildTypes]
    by_cases hq : q.1 = k
    · subst hq
      simp only [AList.get?, if_true, Option.some.injEq] at hk ⊢
      simp [buildType, h, hk]
    · simp only [AList.get?, if_neg hq] at hk ⊢
      refine ih ?_ hk
      unfold buildType
      split
      · exact h
      · rw [AList.get?_set_ne _ _ (fun hc => hq (typeId_inj hc))]; exact h

theorem buildTypes_regKeys (id : Str) (ps : AList Str Sch) (reg : AList Str Ty) {x : Str}
    (h : x ∈ (buildTypes id ps reg).2.keys) : x ∈ reg.keys ∨ ∃ k, x = typeId id k := by
  induction ps generalizing reg with
  | nil => exact .inl h
  | cons q ps ih =>
    rcases ih _ h with h | h
    · unfold buildType at h
      split at h
      · exact .inl h
      · rcases AList.mem_keys_set.1 h with h | h
        · exact .inr ⟨q.1, h⟩
        · exact .inl h
    · exact .inr h

/-! ### The loop over the properties -/

theorem accessors_extra (p : Params) (w : World) (bases : List Nat) (k : Str) (l : Loop) :
    (accessors p w bases k l).extra = l.extra := rfl
theorem accessors_attrs (p : Params) (w : World) (bases : List Nat) (k : Str) (l : Loop) :
    (accessors p w bases k l).attrs = l.attrs := rfl
theorem accessors_methods (p : Params) (w : World) (bases : List Nat) (k : Str) (l : Loop) :
    (accessors p w bases k l).methods = l.methods := rfl
theorem accessors_withDefault (p : Params) (w : World) (bases : List Nat) (k : Str) (l : Loop) :
    (accessors p w bases k l).withDefault = l.withDefault := rfl

/-- The accessors found for a property. -/
def found (w : World) (methods : AList Str Nat) (bases : List Nat) (k : Str) : Funs where
  get := accessor w methods bases ("get_".toList ++ Names.cleanJsName k)
  set := accessor w methods bases ("set_".toList ++ Names.cleanJsName k)
  del := accessor w methods bases ("del_".toList ++ Names.cleanJsName k)

theorem accessors_funs_self (p : Params) (w : World) (bases : List Nat) (k : Str) (l : Loop) (h : l.funs.get? k = none) :
    ((accessors p w bases k l).funs.get? k).getD {} = found w l.methods bases k := by
  simp only [accessors, found]
  split
  · simp [AList.get?_set_self]
  · rename_i hn
    simp only [Bool.or_eq_true, not_or, Bool.not_eq_true, Option.isSome_eq_false_iff, Option.isNone_iff_eq_none] at hn
    obtain ⟨⟨h1, h2⟩, h3⟩ := hn
    rw [h, h1, h2, h3]; rfl

theorem accessors_funs_ne (p : Params) (w : World) (bases : List Nat) {k k' : Str} (l : Loop) (h : k ≠ k') :
    (accessors p w bases k l).funs.get? k' = l.funs.get? k' := by
  simp only [accessors]
  split
  · rw [AList.get?_set_ne _ _ h]
  · rfl

theorem mem_updDep {m : AList Str (List Str)} {k k' x : Str} {xs : List Str} (h : x ∈ (m.get? k').getD []) :
    x ∈ ((updDep m k xs).get? k').getD [] := by
  unfold updDep
  by_cases hk : k = k'
  · subst hk; simp [AList.get?_set_self, h]
  · rw [AList.get?_set_ne _ _ hk]; exact h

theorem mem_addDepends {p : Params} {k k' x : Str} {f : Option Nat} {m : AList Str (List Str)}
    (h : x ∈ (m.get? k').getD []) : x ∈ ((addDepends p k f m).get? k').getD [] := by
  unfold addDepends
  split
  · split
    · exact h
    · exact mem_updDep h
  · exact h

theorem accessors_deps {p : Params} {w : World} {bases : List Nat} {k k' x : Str} {l : Loop}
    (h : x ∈ (l.deps.get? k').getD []) : x ∈ ((accessors p w bases k l).deps.get? k').getD [] :=
  mem_addDepends (mem_addDepends (mem_addDepends h))

/-- What one round does. -/
theorem visit_cases {p : Params} {w : World} {d : Decl} {bases : List Nat} {k : Str} {ty : Ty} {l l' : Loop}
    (h : visit p w d bases k ty l = .ok l') : ∃ extra withDefault,
      l' = accessors p w bases k { l with
        attrs := l.attrs.erase (Names.cleanJsName k), methods := l.methods.erase (Names.cleanJsName k), extra := extra,
        withDefault := withDefault } ∧
      ((attrOf d k l = none ∧ extra = l.extra ∧ withDefault = l.withDefault) ∨
        ∃ v v', attrOf d k l = some v ∧ p.dflt ty v = some v' ∧ extra = l.extra.set k { ty.sch with default := v' } ∧
          withDefault = l.withDefault ++ [k]) := by
  simp only [visit] at h
  split at h
  · rename_i ha
    cases h
    exact ⟨_, _, rfl, .inl ⟨ha, rfl, rfl⟩⟩
  · rename_i v ha
    split at h
    · cases h
    · rename_i v' hv
      cases h
      exact ⟨_, _, rfl, .inr ⟨v, v', ha, hv, rfl, rfl⟩⟩

theorem visitAll_cons {p : Params} {w : World} {d : Decl} {bases : List Nat} {k : Str} {ty : Ty} {ps : AList Str Ty}
    {l l' : Loop} (h : visitAll p w d bases ((k, ty) :: ps) l = .ok l') :
    ∃ l1, visit p w d bases k ty l = .ok l1 ∧ visitAll p w d bases ps l1 = .ok l' := by
  simp only [visitAll] at h
  split at h
  · cases h
  · rename_i l1 h1; exact ⟨l1, h1, h⟩

/-- What the loop keeps. -/
theorem visitAll_keeps {p : Params} {w : World} {d : Decl} {bases : List Nat} {ps : AList Str Ty} {l l' : Loop}
    (h : visitAll p w d bases ps l = .ok l') :
    (l.extra.WF → l'.extra.WF) ∧
    (∀ k, k ∉ ps.keys → l'.extra.get? k = l.extra.get? k ∧ l'.funs.get? k = l.funs.get? k) ∧
    (∀ k x, x ∈ (l.deps.get? k).getD [] → x ∈ (l'.deps.get? k).getD []) ∧
    (∀ x, x ∈ l.withDefault → x ∈ l'.withDefault) ∧
    (∀ k, value? (l.attrs.get? (Names.cleanJsName k)) = none → k ∈ defKeys ∨ value? (d.keywords.get? k) = none →
      l'.extra.get? k = l.extra.get? k) := by
  induction ps generalizing l with
  | nil =>
    simp only [visitAll, Except.ok.injEq] at h
    subst h
    exact ⟨id, fun k _ => ⟨rfl, rfl⟩, fun k x hx => hx, fun x hx => hx, fun k _ _ => rfl⟩
  | cons q ps ih =>
    obtain ⟨k, ty⟩ := q
    obtain ⟨l1, h1, h2⟩ := visitAll_cons h
    obtain ⟨ex, wd, rfl, hc⟩ := visit_cases h1
    obtain ⟨i1, i2, i3, i4, i5⟩ := ih h2
    simp only [accessors_extra, accessors_attrs, accessors_withDefault] at i1 i2 i4 i5
    refine ⟨?_, ?_, ?_, ?_, ?_⟩
    · intro hw
      apply i1
      rcases hc with ⟨-, rfl, -⟩ | ⟨v, v', -, -, rfl, -⟩
      · exact hw
      · exact AList.wf_set hw _ _
    · intro k' hk'
      simp only [AList.keys_cons, List.mem_cons, not_or] at hk'
      have hne : k ≠ k' := fun h => hk'.1 h.symm
      obtain ⟨e1, e2⟩ := i2 k' hk'.2
      rw [accessors_funs_ne _ _ _ _ hne] at e2
      refine ⟨e1.trans ?_, e2⟩
      rcases hc with ⟨-, rfl, -⟩ | ⟨v, v', -, -, rfl, -⟩
      · rfl
      · rw [AList.get?_set_ne _ _ hne]
    · exact fun k' x hx => i3 k' x (accessors_deps hx)
    · intro x hx
      apply i4
      rcases hc with ⟨-, -, rfl⟩ | ⟨v, v', -, -, -, rfl⟩
      · exact hx
      · simp [hx]
    · intro k' ha hkw
      refine (i5 k' ?_ hkw).trans ?_
      · rw [AList.get?_erase]
        split
        · rfl
        · exact ha
      · rcases hc with ⟨-, rfl, -⟩ | ⟨v, v', hav, -, rfl, -⟩
        · rfl
        · by_cases hkk : k = k'
          · subst hkk
            simp only [attrOf, ha] at hav
            split at hav
            · cases hav
            · rename_i hd
              rw [hkw.resolve_left hd] at hav
              cases hav
          · rw [AList.get?_set_ne _ _ hkk]

/-- The accessors the loop finds for a property. -/
theorem visitAll_funs {p : Params} {w : World} {d : Decl} {bases : List Nat} {ps : AList Str Ty} {l l' : Loop}
    (h : visitAll p w d bases ps l = .ok l') (hw : ps.WF) {k : Str} (hk : k ∈ ps.keys) (hf : l.funs.get? k = none)
    (hn : ∀ k' ∈ ps.keys, ∀ pre ∈ ["get_", "set_", "del_"], Names.cleanJsName k' ≠ pre.toList ++ Names.cleanJsName k) :
    (l'.funs.get? k).getD {} = found w l.methods bases k := by
  induction ps generalizing l with
  | nil => simp [AList.keys] at hk
  | cons q ps ih =>
    obtain ⟨k1, ty⟩ := q
    obtain ⟨l1, h1, h2⟩ := visitAll_cons h
    obtain ⟨ex, wd, rfl, -⟩ := visit_cases h1
    simp only [AList.WF, AList.keys_cons, List.nodup_cons] at hw
    have herase : ∀ pre ∈ ["get_", "set_", "del_"],
        AList.get? (l.methods.erase (Names.cleanJsName k1)) (pre.toList ++ Names.cleanJsName k) =
          l.methods.get? (pre.toList ++ Names.cleanJsName k) := by
      intro pre hpre
      rw [AList.get?_erase, if_neg (fun hc => hn k1 (by simp [AList.keys]) pre hpre hc.symm)]
    have hfound : found w (l.methods.erase (Names.cleanJsName k1)) bases k = found w l.methods bases k := by
      simp only [found, accessor, herase "get_" (by simp), herase "set_" (by simp), herase "del_" (by simp)]
    by_cases hkk : k1 = k
    · subst hkk
      rw [((visitAll_keeps h2).2.1 k1 hw.1).2, accessors_funs_self]
      · exact hfound
      · exact hf
    · have hk' : k ∈ AList.keys ps := by
        simp only [AList.keys_cons, List.mem_cons] at hk
        exact hk.resolve_left (fun h => hkk h.symm)
      rw [ih h2 hw.2 hk' (by rw [accessors_funs_ne _ _ _ _ hkk]; exact hf)
        (fun k' hk' => hn k' (by simp only [AList.keys_cons, List.mem_cons]; exact .inr hk'))]
      exact hfound

/-- The redefinition the loop makes of a property. -/
theorem visitAll_extra {p : Params} {w : World} {d : Decl} {bases : List Nat} {ps : AList Str Ty} {l l' : Loop}
    (h : visitAll p w d bases ps l = .ok l') (hw : ps.WF) {k : Str} {ty : Ty} (hk : ps.get? k = some ty) {v : Val}
    (ha : attrOf d k l = some v)
    (hn : ∀ k' ∈ ps.keys, k' ≠ k → Names.cleanJsName k' ≠ Names.cleanJsName k) :
    ∃ v', p.dflt ty v = some v' ∧ l'.extra.get? k = some { ty.sch with default := v' } ∧ k ∈ l'.withDefault := by
  induction ps generalizing l with
  | nil => cases hk
  | cons q ps ih =>
    obtain ⟨k1, ty1⟩ := q
    obtain ⟨l1, h1, h2⟩ := visitAll_cons h
    obtain ⟨ex, wd, rfl, hc⟩ := visit_cases h1
    simp only [AList.WF, AList.keys_cons, List.nodup_cons] at hw
    by_cases hkk : k1 = k
    · subst hkk
      simp only [AList.get?, if_true, Option.some.injEq] at hk
      subst hk
      rcases hc with ⟨hnone, -⟩ | ⟨v1, v', hav, hd, rfl, rfl⟩
      · rw [ha] at hnone; cases hnone
      · rw [ha] at hav; cases hav
        obtain ⟨-, i2, -, i4, -⟩ := visitAll_keeps h2
        refine ⟨v', hd, ?_, i4 _ (by simp [accessors_withDefault])⟩
        rw [(i2 k1 hw.1).1, accessors_extra]
        exact AList.get?_set_self _ _ _
    · simp only [AList.get?, if_neg hkk] at hk
      refine ih h2 hw.2 hk ?_ (fun k' hk' => hn k' (by simp only [AList.keys_cons, List.mem_cons]; exact .inr hk'))
      rw [← ha]
      simp only [attrOf, accessors_attrs]
      rw [AList.get?_erase, if_neg (fun hc => hn k1 (by simp [AList.keys]) hkk hc.symm)]

/-! ### Descriptors -/

theorem get?_descriptors (o : Nat) (funs : AList Str Funs) (tys : AList Str Ty) (k : Str) :
    (descriptors o funs tys).get? k = (tys.get? k).map (fun t => ⟨o, t, (funs.get? k).getD {}⟩) := by
  unfold descriptors
  induction tys with
  | nil => rfl
  | cons q tys ih =>
    simp only [List.map_cons, AList.get?]
    split
    · rename_i h; subst h; rfl
    · exact ih

theorem wf_of_keys {α β : Type} {a : AList Str α} {b : AList Str β} (h : a.keys = b.keys) (hb : b.WF) : a.WF := by
  unfold AList.WF at *; rw [h]; exact hb

/-- The type of a property in the local types. -/
theorem types_get {p : Params} {w v : World} {i : Nat} {d : Decl} {c : Cls} {tys : AList Str Ty} {l : Loop}
    (hb : BuiltFacts p w v i d c tys l) (k : Str) :
    tys.get? k = ((buildTypes d.id d.props v.reg).1.get? k).or
      ((buildTypes d.id l.extra (buildTypes d.id d.props v.reg).2).1.get? k) := by
  have hwf : l.extra.WF := (visitAll_keeps hb.visit).1 AList.wf_nil
  have hwf2 := wf_of_keys (buildTypes_keys d.id l.extra (buildTypes d.id d.props v.reg).2) hwf
  rw [hb.types, AList.get?_update _ hwf2]
  cases h1 : (buildTypes d.id d.props v.reg).1.get? k with
  | none => simp
  | some t =>
    cases h2 : (buildTypes d.id l.extra (buildTypes d.id d.props v.reg).2).1.get? k with
    | none => simp
    | some t' =>
      have hk : k ∈ l.extra.keys := by
        rw [← buildTypes_keys d.id l.extra (buildTypes d.id d.props v.reg).2, ← AList.get?_isSome, h2]; rfl
      have := buildTypes_old d.id l.extra (buildTypes_reg d.id d.props v.reg h1) hk
      rw [h2] at this
      simp [this]

/-! ### The registry over a program -/

theorem build_reg_mono (p : Params) (w : World) (d : Decl) {x : Str} {t : Ty} (h : w.reg.get? x = some t) :
    (build p w d).2.get? x = some t := by
  simp only [build]
  split
  · exact buildTypes_mono _ _ h
  · split
    · exact buildTypes_mono _ _ (buildTypes_mono _ _ h)
    · exact buildTypes_mono _ _ (buildTypes_mono _ _ h)

theorem build_regKeys (p : Params) (w : World) (d : Decl) {x : Str} (h : x ∈ (build p w d).2.keys) :
    x ∈ w.reg.keys ∨ ∃ k, x = typeId d.id k := by
  have two : ∀ ps : AList Str Sch, x ∈ (buildTypes d.id ps (buildTypes d.id d.props w.reg).2).2.keys →
      x ∈ w.reg.keys ∨ ∃ k, x = typeId d.id k := by
    intro ps h
    rcases buildTypes_regKeys _ _ _ h with h | h
    · exact buildTypes_regKeys _ _ _ h
    · exact .inr h
  simp only [build] at h
  split at h
  · exact buildTypes_regKeys _ _ _ h
  · split at h
    · exact two _ h
    · exact two _ h

/-- The own descriptors of a class just built have the types registered. -/
theorem build_own_reg {p : Params} {w : World} {d : Decl} {c : Cls} {reg : AList Str Ty} (h : build p w d = (.ok c, reg))
    {k : Str} {D : Desc} (hD : c.own.get? k = some D) : reg.get? (typeId d.id k) = some D.ty := by
  simp only [build] at h
  split at h
  · cases h
  · rename_i l hl
    split at h
    · cases h
    · simp only [Prod.mk.injEq, Except.ok.injEq] at h
      obtain ⟨rfl, rfl⟩ := h
      simp only [get?_descriptors, Option.map_eq_some_iff] at hD
      obtain ⟨t, ht, rfl⟩ := hD
      have hwf : l.extra.WF := (visitAll_keeps hl).1 AList.wf_nil
      have hwf2 := wf_of_keys (buildTypes_keys d.id l.extra (buildTypes d.id d.props w.reg).2) hwf
      rw [AList.get?_update _ hwf2] at ht
      cases h2 : (buildTypes d.id l.extra (buildTypes d.id d.props w.reg).2).1.get? k with
      | some t' => rw [h2] at ht; cases ht; exact buildTypes_reg _ _ _ h2
      | none =>
        rw [h2, Option.none_or] at ht
        exact buildTypes_mono _ _ (buildTypes_reg _ _ _ ht)

theorem exec_cases (p : Params) (w : World) (it : Item) :
    (∃ reg, exec p w it = { w with reg } ∧ (reg = w.reg ∨ ∃ d, it = .built d ∧ reg = (build p w d).2)) ∨
    ∃ c reg, exec p w it = ⟨w.classes ++ [(it, c)], reg⟩ ∧
      ((∃ d, it = .built d ∧ build p w d = (.ok c, reg)) ∨ ((∃ bs ms, it = .plain bs ms) ∧ reg = w.reg)) := by
  unfold exec
  split
  · exact .inl ⟨w.reg, rfl, .inl rfl⟩
  · cases it with
    | built d =>
      simp only
      split
      · rename_i c reg hb; exact .inr ⟨c, reg, rfl, .inl ⟨d, rfl, hb⟩⟩
      · rename_i e reg hb; exact .inl ⟨reg, rfl, .inr ⟨d, rfl, by rw [hb]⟩⟩
    | plain bases methods =>
      simp only
      split
      · rename_i c hb; exact .inr ⟨c, w.reg, rfl, .inr ⟨⟨_, _, rfl⟩, rfl⟩⟩
      · exact .inl ⟨w.reg, rfl, .inl rfl⟩

/-- The own descriptors of all classes have the types registered. -/
def RegInv (w : World) : Prop := ∀ (i : Nat) (d : Decl) (c : Cls) (k : Str) (D : Desc), w.classes[i]? = some (Item.built d, c) → c.own.get? k = some D →
  w.reg.get? (typeId d.id k) = some D.ty

theorem regInv_exec (p : Params) (w : World) (it : Item) (h : RegInv w) : RegInv (exec p w it) := by
  rcases exec_cases p w it with ⟨reg, he, hr⟩ | ⟨c, reg, he, hr⟩
  · rw [he]
    intro i d c k D hi hD
    have h0 := h i d c k D hi hD
    rcases hr with rfl | ⟨d', -, rfl⟩
    · exact h0
    · exact build_reg_mono p w d' h0
  · rw [he]
    intro i d c' k D hi hD
    simp only at hi ⊢
    by_cases hl : i < w.classes.length
    · rw [List.getElem?_append_left hl] at hi
      have h0 := h i d c' k D hi hD
      rcases hr with ⟨d', -, hb⟩ | ⟨-, rfl⟩
      · have := build_reg_mono p w d' h0; rw [hb] at this; exact this
      · exact h0
    · have hl' : i = w.classes.length := by
        have := (List.getElem?_eq_some_iff.1 hi).1
        simp at this; omega
      subst hl'
      simp at hi
      obtain ⟨rfl, rfl⟩ := hi
      rcases hr with ⟨d', hd, hb⟩ | ⟨⟨_, _, hc⟩, -⟩
      · cases hd; exact build_own_reg hb hD
      · cases hc

theorem regInv_run (p : Params) (its : List Item) : RegInv (run p its) := by
  have : ∀ (its : List Item) (w : World), RegInv w → RegInv (its.foldl (exec p) w) := by
    intro its
    induction its with
    | nil => exact fun w h => h
    | cons it its ih => exact fun w h => ih _ (regInv_exec p w it h)
  exact this its {} (fun i d c k D hi => by simp at hi)

/-- Only the identifiers of definitions met so far are registered. -/
theorem regKeys_run (p : Params) (its : List Item) {x : Str} (h : x ∈ (run p its).reg.keys) :
    ∃ d k, Item.built d ∈ its ∧ x = typeId d.id k := by
  have : ∀ (its : List Item) (w : World), x ∈ (its.foldl (exec p) w).reg.keys →
      x ∈ w.reg.keys ∨ ∃ d k, Item.built d ∈ its ∧ x = typeId d.id k := by
    intro its
    induction its with
    | nil => exact fun w h => .inl h
    | cons it its ih =>
      intro w h
      rcases ih _ h with h | ⟨d, k, hd, hx⟩
      · have key : ∀ d, it = .built d → x ∈ (build p w d).2.keys →
            x ∈ w.reg.keys ∨ ∃ d k, Item.built d ∈ it :: its ∧ x = typeId d.id k := by
          rintro d rfl hx
          rcases build_regKeys p w d hx with h | ⟨k, h⟩
          · exact .inl h
          · exact .inr ⟨d, k, by simp, h⟩
        rcases exec_cases p w it with ⟨reg, he, hr⟩ | ⟨c, reg, he, hr⟩
        · rw [he] at h
          rcases hr with rfl | ⟨d', hd, rfl⟩
          · exact .inl h
          · exact key d' hd h
        · rw [he] at h
          rcases hr with ⟨d', hd, hb⟩ | ⟨-, rfl⟩
          · exact key d' hd (by rw [hb]; exact h)
          · exact .inl h
      · exact .inr ⟨d, k, by simp [hd], hx⟩
  rcases this its {} h with h | h
  · simp [AList.keys] at h
  · exact h

/-- When every definition succeeds the classes are those of the program. -/
theorem items_run (p : Params) (its : List Item) (h : (run p its).classes.length = its.length) :
    (run p its).items = its := by
  have hsub : ∀ (its : List Item) (w : World), ∃ sub, sub.Sublist its ∧ (its.foldl (exec p) w).items = w.items ++ sub := by
    intro its
    induction its with
    | nil => exact fun w => ⟨[], .slnil, by simp⟩
    | cons it its ih =>
      intro w
      obtain ⟨sub, hs, he⟩ := ih (exec p w it)
      rcases exec_cases p w it with ⟨reg, h1, -⟩ | ⟨c, reg, h1, -⟩
      · exact ⟨sub, hs.cons _, by rw [List.foldl_cons, he, h1]; rfl⟩
      · exact ⟨it :: sub, hs.cons_cons _, by rw [List.foldl_cons, he, h1]; simp [World.items]⟩
  obtain ⟨sub, hs, he⟩ := hsub its {}
  have he' : (run p its).items = sub := by
    unfold run; rw [he]; rfl
  have hl : sub.length = its.length := by rw [← he', World.items, List.length_map, h]
  rw [he', hs.eq_of_length hl]

/-! ### Dependencies -/

theorem mem_updDeps_old {m new : AList Str (List Str)} {k x : Str} (h : x ∈ (m.get? k).getD []) :
    x ∈ ((updDeps m new).get? k).getD [] := by
  unfold updDeps
  induction new generalizing m with
  | nil => exact h
  | cons q new ih => exact ih (mem_updDep h)

theorem mem_updDeps_new {m new : AList Str (List Str)} {k x : Str} (h : x ∈ (new.get? k).getD []) :
    x ∈ ((updDeps m new).get? k).getD [] := by
  unfold updDeps
  induction new generalizing m with
  | nil => simp [AList.get?] at h
  | cons q new ih =>
    simp only [List.foldl_cons]
    by_cases hq : q.1 = k
    · subst hq
      simp only [AList.get?, if_true, Option.getD_some] at h
      exact mem_updDeps_old (new := new) (by simp [updDep, AList.get?_set_self, h])
    · simp only [AList.get?, if_neg hq] at h
      exact ih h

theorem mem_depsBefore {w : World} {d : Decl} {k x : Str} (hk : k ≠ "identityKeys".toList)
    (h : x ∈ (d.deps.get? k).getD [] ∨ ∃ f ∈ infos w (protoBases w d), x ∈ (f.deps.get? k).getD []) :
    x ∈ ((depsBefore w d).get? k).getD [] := by
  have hfold : ∀ (fs : List Info) (m : AList Str (List Str)),
      (x ∈ (m.get? k).getD [] ∨ ∃ f ∈ fs, x ∈ (f.deps.get? k).getD []) →
      x ∈ ((fs.foldl (fun m i => updDeps m i.deps) m).get? k).getD [] := by
    intro fs
    induction fs with
    | nil => intro m h; simpa using h
    | cons f fs ih =>
      intro m h
      refine ih _ ?_
      rcases h with h | ⟨f', hf', h⟩
      · exact .inl (mem_updDeps_old h)
      · rcases List.mem_cons.1 hf' with rfl | hf'
        · exact .inl (mem_updDeps_new h)
        · exact .inr ⟨f', hf', h⟩
  have := hfold (infos w (protoBases w d)) (updDeps [] d.deps) (h.imp (fun h => mem_updDeps_new h) id)
  unfold depsBefore
  simp only
  split
  · exact this
  · rw [AList.get?_set_ne _ _ (fun h => hk h.symm)]; exact this

theorem depsBefore_earlier {v w : World} {i : Nat} (hv : v.classes = w.classes.take i) {d : Decl}
    (hd : ∀ x ∈ d.bases ++ d.exts, x < i) : depsBefore v d = depsBefore w d := by
  unfold depsBefore primaryKeysOf
  rw [setsOf_earlier hv hd]

end Verif.Classes
