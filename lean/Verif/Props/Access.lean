import Verif.Lemmas.Access
/-
Attributes of instances: C275-C280, C295, C336.
-/
namespace Verif.Access
open Obj (Out)

/-! ### A class used in the examples

`a` is a property and `r` a required one, `counter` an attribute given in the body of the class. -/

def demo (additional byName : Bool := false) : Cls where
  base := { props := ["a".toList, "r".toList], conv := fun _ v _ => .ok v, required := ["r".toList],
            additional := additional, reads := fun v => match v with | .str s => [s] | _ => [] }
  attrs := [("a".toList, .prop "a".toList), ("r".toList, .prop "r".toList), ("counter".toList, .plain (.int 0))]
  orig := ["counter".toList]
  byName := byName

def demoInst : Inst where
  obj := { data := [("a".toList, .int 1), ("r".toList, .int 2)],
           validated := [("a".toList, .int 1), ("r".toList, .int 2)],
           inputs := [("a".toList, []), ("r".toList, [])] }
  dict := [("_mine".toList, .int 9)]

theorem demo_unknown (x y : Bool) {name : Str} (h : name ∉ ["a".toList, "r".toList]) : Unknown (demo x y) name :=
  ⟨h, by simp [demo], by simp [demo], by simp [demo], by simp [demo], by simp [demo], by simp [demo]⟩

/-! ### C275: An attribute that was set is read back -/

/-- A private attribute that is not a property is given back, and no item changes. -/
theorem C275_private_partial (c : Cls) (n : Nat) (i : Inst) {name : Str} (v : Val) (u : Unknown c name)
    (hp : ¬ Public name) (ha : ∀ raw, c.attrs.get? name ≠ some (.prop raw)) :
    ∃ i', setattr c n name v i = (.ok (), i') ∧ getattr c n name i' = (.ok v, i') ∧ i'.obj = i.obj := by
  refine ⟨{ i with dict := i.dict.set name v }, ?_, ?_, rfl⟩
  · simp [setattr, isPrivate_true hp, not_allowed u]
  · have hg : (i.dict.set name v).get? name = some v := AList.get?_set_self ..
    simp only [getattr, lookup]
    cases h : c.attrs.get? name with
    | none => simp [ownOr, hg]
    | some a => cases a with
      | prop raw => exact absurd h (ha raw)
      | plain w => simp [ownOr, hg]

/-- An additional property is given back as it was assigned, if the class has no attribute of this name, does not load
lazily, and the value mentions no other item. -/
theorem C275_additional_partial (c : Cls) (n : Nat) (i : Inst) {name : Str} (v : Val) (u : Unknown c name)
    (hp : Public name) (had : c.base.additional = true) (ha : c.attrs.get? name = none) (ho : name ∉ c.orig)
    (hd : i.dict.get? name = none) (hl : c.base.lazy = false) (hr : c.base.reads v = [])
    (hdep : c.base.deps.get? name = none) :
    ∃ i', setattr c (n + 1) name v i = (.ok (), i') ∧ (getattr c (n + 1) name i').1 = .ok v := by
  refine ⟨{ i with obj := { i.obj with data := i.obj.data.set name v, validated := i.obj.validated.set name v } },
    ?_, ?_⟩
  · simp [setattr, isPrivate_false hp, setItem_unknown u, had]
  · have hg : ∀ (d : AList Str Val), (d.set name v).get? name = some v := fun d => AList.get?_set_self d name v
    have hcn : AList.contains (i.obj.data.set name v) name = true :=
      AList.contains_iff.2 ((AList.get?_isSome).1 (by rw [hg]; rfl))
    have hin : ∀ rd (o : Obj.Obj), o.data.get? name = some v → Obj.inputsOf c.base rd name o = (.ok [], o) := by
      intro rd o h
      simp only [Obj.inputsOf, Obj.depsOf, hdep, Option.getD_none, Obj.collect, h, hr]
      split <;> rfl
    have hch : ∀ rd (o : Obj.Obj), o.data.get? name = some v → o.inputs.get? name = some [] →
        Obj.inputsChanged c.base rd name o = (.ok false, o) := by
      intro rd o h h'
      simp [Obj.inputsChanged, hin rd o h, h', Obj.sameInputs]
    have hout : ∀ rd (o : Obj.Obj), o.data.get? name = some v → o.validated.get? name = some v →
        o.inputs.get? name = some [] → Obj.isOutdated c.base rd name o = (.ok false, o) := by
      intro rd o h1 h2 h3
      simp only [Obj.isOutdated, h1, h2]
      split
      · contradiction
      · rename_i e
        cases e
        exact hch rd o h1 h3
      · exact hch rd o h1 h3
    have ht : (c.base.translation.get? name).getD name = name := by
      rw [get?_none_of_fst u.clean]; rfl
    have hget : ∀ (o : Obj.Obj), o.data.get? name = some v → o.validated.get? name = some v →
        o.inputs.get? name = some [] → Obj.getItem c.base (n + 1) name o = (.ok v, o) := by
      intro o h1 h2 h3
      have hcn : AList.contains o.data name = true := AList.contains_iff.2 (AList.get?_isSome.1 (by rw [h1]; rfl))
      simp [Obj.getItem, unalias_unknown u, rawName_unknown u, had, hcn, u.prop, Obj.plainGet, hl, hout _ o h1 h2 h3,
        Obj.validatedOf, h2, Obj.through, op_unknown u]
    have hadd : ∀ (o : Obj.Obj), o.data.get? name = some v → o.validated.get? name = some v →
        (additional c.base (n + 1) name name o).1 = .ok v := by
      intro o h1 h2
      have h3 : ({ o with inputs := o.inputs.set name [] } : Obj.Obj).inputs.get? name = some [] :=
        AList.get?_set_self ..
      simp only [additional, hin _ o h1]
      rw [hget { o with inputs := o.inputs.set name [] } h1 h2 h3]
      simp [Obj.through, op_unknown u]
    have hf : (fallback c (n + 1) name
        { i.obj with data := i.obj.data.set name v, validated := i.obj.validated.set name v }).1 = .ok v := by
      rw [← hadd { i.obj with data := i.obj.data.set name v, validated := i.obj.validated.set name v } (hg _) (hg _)]
      simp [fallback, isPrivate_false hp, ho, unalias_unknown u, ht, u.prop, had, hcn]
    simp only [getattr, lookup, ha, ownOr, hd]
    exact hf

/-- Assigning the attribute of a declared property is assigning the item, and reading it is reading the item (see C66),
whether or not the name is a private one. -/
theorem C275_declared_partial (c : Cls) (n : Nat) (i : Inst) {name : Str} (v : Val) (hn : name ∈ c.base.props)
    (hr : name ∉ c.base.readOnly) (ha : c.attrs.get? name = some (.prop name))
    (hal : name ∉ c.base.aliases.map Prod.fst) (hneg : name ∉ c.base.negated.map Prod.fst) :
    (∀ o, Obj.setItem c.base n name v i.obj = (.ok (), o) → setattr c n name v i = (.ok (), { i with obj := o })) ∧
    (∀ o w, Obj.getItem c.base (n + 1) name i.obj = (.ok w, o) → getattr c n name i = (.ok w, { i with obj := o })) := by
  constructor
  · intro o h
    have hal : name ∈ allowed c.base := by
      simp only [allowed, List.mem_filter, List.mem_append]
      exact ⟨.inl (.inl (.inl (.inl (.inl hn)))), by simpa using hr⟩
    simp [setattr, hal, h]
  · intro o w h
    have hu : Obj.unalias c.base name = name := by
      simp [Obj.unalias, get?_none_of_fst hal, get?_none_of_fst hneg]
    have hop : ∀ x, Obj.op c.base name x = .ok x := by
      intro x
      have : AList.contains c.base.negated name = false := by
        cases h : AList.contains c.base.negated name with
        | false => rfl
        | true => exact absurd (AList.contains_iff.1 h) hneg
      simp [Obj.op, this]
    simp only [Obj.getItem, hu, Obj.rawName, if_pos hn] at h
    split at h
    · cases h
    · simp only [getattr, lookup, ha]
      simp only [Obj.through] at h
      split at h
      · rename_i x o' e
        rw [hop] at h
        cases h
        rw [e]
      · cases h

/-! ### C336: an error met in reading reaches the reader -/

/-- What the attribute of a declared property gives: what the item gives, unless that is an AttributeError, upon which
the item is read once more. -/
theorem C336_again_partial (c : Cls) (n : Nat) (i : Inst) {name : Str} (hn : name ∈ c.base.props) (hp : Public name)
    (ho : name ∉ c.orig) (ha : c.attrs.get? name = some (.prop name))
    (hal : name ∉ c.base.aliases.map Prod.fst) (hneg : name ∉ c.base.negated.map Prod.fst)
    (ht : name ∉ c.base.translation.map Prod.fst) (hd : (i.obj.data.get? name).isSome) :
    (∀ e o, Obj.getItem c.base (n + 1) name i.obj = (.error e, o) → e ≠ .attributeError →
      getattr c n name i = (.error e, { i with obj := o })) ∧
    (∀ o r o', Obj.getItem c.base (n + 1) name i.obj = (.error .attributeError, o) → (o.data.get? name).isSome →
      Obj.getItem c.base (n + 1) name o = (r, o') → getattr c n name i = (r, { i with obj := o' })) := by
  have hu : Obj.unalias c.base name = name := by
    simp [Obj.unalias, get?_none_of_fst hal, get?_none_of_fst hneg]
  have hop : ∀ x, Obj.op c.base name x = .ok x := by
    intro x
    have : AList.contains c.base.negated name = false := by
      cases h : AList.contains c.base.negated name with
      | false => rfl
      | true => exact absurd (AList.contains_iff.1 h) hneg
    simp [Obj.op, this]
  have hth : ∀ r : Out Val, Obj.through c.base name r = r := by
    intro r
    obtain ⟨r, o⟩ := r
    cases r with
    | error e => rfl
    | ok v => simp only [Obj.through, hop]
  have item : ∀ o : Obj.Obj, (o.data.get? name).isSome →
      Obj.getItem c.base (n + 1) name o = Obj.descGet c.base (Obj.getItem c.base n) name o := by
    intro o hd
    have : AList.contains o.data name = true := by
      rw [AList.contains_iff]
      exact AList.get?_isSome.1 hd
    simp only [Obj.getItem, hu, Obj.rawName, if_pos hn, this, hth]
    simp
  have fall : ∀ o : Obj.Obj, fallback c n name o = Obj.descGet c.base (Obj.getItem c.base n) name o := by
    intro o
    have : isPrivate name = false := isPrivate_false hp
    simp only [fallback, this, ho, decide_false, Bool.or_self, Bool.false_and, Bool.false_eq_true, if_false, hu,
      get?_none_of_fst ht, Option.getD_none, if_pos hn, hth]
  constructor
  · intro e o h hne
    rw [item _ hd] at h
    simp only [getattr, lookup, ha, h]
    split
    · rename_i r o' e'
      cases e'
      exact absurd rfl hne
    · rfl
  · intro o r o' h hd' h'
    rw [item _ hd] at h
    rw [item _ hd'] at h'
    simp only [getattr, lookup, ha, h, fall, h']

/-- A class whose property `a` is computed by a getter, which raises AttributeError. -/
def failing : Cls where
  base := { props := ["a".toList], conv := fun _ v _ => .ok v, getter := fun _ => some ⟨[], fun _ => .error .attributeError⟩ }
  attrs := [("a".toList, .prop "a".toList)]

example : (getattr failing 3 "a".toList ⟨⟨[("a".toList, .none)], [("a".toList, .none)], [("a".toList, [])]⟩, []⟩).1 =
    .error .attributeError ∧
    (Obj.getItem failing.base 4 "a".toList ⟨[("a".toList, .none)], [("a".toList, .none)], [("a".toList, [])]⟩).1 =
    .error .attributeError := by decide +kernel

/-- If the class has an attribute of this name (a method, a constant), then the value is stored as an item, and reading
the attribute still gives that of the class. -/
theorem C275_class_attribute_violated (c : Cls) (n : Nat) (i : Inst) {name : Str} (v w : Val) (u : Unknown c name)
    (hp : Public name) (had : c.base.additional = true) (ha : c.attrs.get? name = some (.plain w))
    (hd : i.dict.get? name = none) :
    ∃ i', setattr c n name v i = (.ok (), i') ∧ i'.obj.data.get? name = some v ∧
      getattr c n name i' = (.ok w, i') := by
  refine ⟨{ i with obj := { i.obj with data := i.obj.data.set name v, validated := i.obj.validated.set name v } },
    ?_, AList.get?_set_self .., ?_⟩
  · simp [setattr, isPrivate_false hp, setItem_unknown u, had]
  · simp [getattr, lookup, ha, ownOr, hd]

example : (getattr (demo true) 3 "counter".toList (setattr (demo true) 3 "counter".toList (.int 5) demoInst).2).1
    = .ok (.int 0) := by decide +kernel
example : (getattr (demo true) 3 "x".toList (setattr (demo true) 3 "x".toList (.int 5) demoInst).2).1
    = .ok (.int 5) := by decide +kernel
example : (setattr (demo true) 3 "a".toList (.int 5) demoInst).1 = .ok () ∧
    (getattr (demo true) 3 "a".toList (setattr (demo true) 3 "a".toList (.int 5) demoInst).2).1 = .ok (.int 5) := by
  decide +kernel
example : (getattr (demo true) 3 "_x".toList (setattr (demo true) 3 "_x".toList (.int 5) demoInst).2).1
    = .ok (.int 5) := by decide +kernel
example : ∃ i', setattr (demo true) 3 "counter".toList (.int 5) demoInst = (.ok (), i') ∧
    i'.obj.data.get? "counter".toList = some (.int 5) ∧ getattr (demo true) 3 "counter".toList i' = (.ok (.int 0), i') :=
  C275_class_attribute_violated (demo true) 3 demoInst (.int 5) (.int 0) (demo_unknown _ _ (by decide +kernel))
    (by decide +kernel) rfl (by decide +kernel) (by decide +kernel)
example : ∃ i', setattr (demo true) 3 "x".toList (.int 5) demoInst = (.ok (), i') ∧
    (getattr (demo true) 3 "x".toList i').1 = .ok (.int 5) :=
  C275_additional_partial (demo true) 2 demoInst (.int 5) (demo_unknown _ _ (by decide +kernel))
    (by decide +kernel) rfl (by decide +kernel) (by decide +kernel) (by decide +kernel) rfl rfl rfl

/-! ### C276: hasattr tells whether an object has an attribute -/

/-- In a class that allows no additional properties, a name that it does not declare is an attribute exactly if the
class or the instance has it, and asking changes nothing. -/
theorem C276_closed_partial (c : Cls) (n : Nat) (i : Inst) {name : Str} (u : Unknown c name)
    (had : c.base.additional = false) (hb : c.byName = false) (ha : ∀ raw, c.attrs.get? name ≠ some (.prop raw)) :
    hasattr c n name i = (.ok ((c.attrs.get? name).isSome || (i.dict.get? name).isSome), i) := by
  have ht : (c.base.translation.get? name).getD name = name := by
    rw [get?_none_of_fst u.clean]; rfl
  have hf : fallback c n name i.obj = (.error .attributeError, i.obj) := by
    simp only [fallback, unalias_unknown u, ht, u.prop, had, hb]
    split <;> simp
  simp only [hasattr, getattr, lookup]
  cases h : c.attrs.get? name with
  | none =>
    simp only [ownOr]
    cases hd : i.dict.get? name with
    | none => simp [hf]
    | some w => simp
  | some a => cases a with
    | prop raw => exact absurd h (ha raw)
    | plain w => simp only [ownOr]; cases hd : i.dict.get? name <;> simp

/-- If additional properties are allowed, as they are by default, an object has every public attribute one may ask for:
those that are nowhere are None. -/
theorem C276_anything_violated (c : Cls) (n : Nat) (i : Inst) {name : Str} (u : Unknown c name) (hp : Public name)
    (had : c.base.additional = true) (hb : c.byName = false) (ha : c.attrs.get? name = none) (ho : name ∉ c.orig)
    (hd : i.dict.get? name = none) (hi : i.obj.data.get? name = none) (hr : name ∉ c.base.required) :
    hasattr c n name i = (.ok true, i) ∧ getattr c n name i = (.ok .none, i) := by
  have ht : (c.base.translation.get? name).getD name = name := by
    rw [get?_none_of_fst u.clean]; rfl
  have hcn : AList.contains i.obj.data name = false := by
    cases h : AList.contains i.obj.data name with
    | false => rfl
    | true => exact absurd (AList.contains_iff.1 h) (AList.get?_eq_none.1 hi)
  have hg : getattr c n name i = (.ok .none, i) := by
    simp [getattr, lookup, ha, ownOr, hd, fallback, isPrivate_false hp, ho, unalias_unknown u, ht, u.prop, had, hcn,
      hb, hr]
  exact ⟨by simp [hasattr, hg], hg⟩

/-- After a declared property has been deleted, asking for it raises KeyError. -/
theorem C276_deleted_violated (c : Cls) (n : Nat) (i i' : Inst) {name raw : Str}
    (ha : c.attrs.get? name = some (.prop raw)) (hdel : delattr c name i = (.ok (), i')) :
    (hasattr c n name i').1 = .error .keyError := by
  have hv : i'.obj.validated.get? raw = none := by
    simp only [delattr, ha] at hdel
    have h1 : (Obj.descDel c.base raw i.obj).1 = .ok () := congrArg Prod.fst hdel
    have h2 : i'.obj = (Obj.descDel c.base raw i.obj).2 := congrArg (fun p => p.2.obj) hdel.symm
    rw [h2]
    revert h1
    by_cases hr : raw ∈ c.base.required
    · intro h; simp [Obj.descDel, hr] at h
    · cases h1 : AList.contains i.obj.data raw <;> cases h2 : AList.contains i.obj.validated raw <;>
        cases h3 : AList.contains i.obj.inputs raw <;>
        simp [Obj.descDel, hr, Obj.andThen, Obj.delData, Obj.delValidated, Obj.delInputs, h1, h2, h3, AList.get?_erase]
  simp [hasattr, getattr, lookup, ha, Obj.descGet, Obj.isOutdated, hv]

example : (hasattr (demo true) 3 "nothing".toList demoInst).1 = .ok true := by decide +kernel
example : (hasattr (demo false) 3 "nothing".toList demoInst).1 = .ok false := by decide +kernel
example : (hasattr (demo false) 3 "_mine".toList demoInst).1 = .ok true := by decide +kernel
example : (delattr (demo false) "a".toList demoInst).1 = .ok () ∧
    (hasattr (demo false) 3 "a".toList (delattr (demo false) "a".toList demoInst).2).1 = .error .keyError := by
  decide +kernel
example : hasattr (demo true) 3 "nothing".toList demoInst = (.ok true, demoInst) ∧
    getattr (demo true) 3 "nothing".toList demoInst = (.ok .none, demoInst) :=
  C276_anything_violated (demo true) 3 demoInst (demo_unknown _ _ (by decide +kernel)) (by decide +kernel) rfl rfl
    (by decide +kernel) (by decide +kernel) (by decide +kernel) (by decide +kernel) (by decide +kernel)
example : hasattr (demo false) 3 "counter".toList demoInst = (.ok true, demoInst) :=
  C276_closed_partial (demo false) 3 demoInst (demo_unknown _ _ (by decide +kernel)) rfl rfl
    (by intro raw h; exact absurd (by simpa [demo, AList.get?] using h) (by decide +kernel : ¬ (False)))

/-! ### C277: getattr with a default gives the default for what an object does not have -/

/-- So it does in a class that allows no additional properties. -/
theorem C277_closed_partial (c : Cls) (n : Nat) (i : Inst) {name : Str} (d : Val) (u : Unknown c name)
    (had : c.base.additional = false) (hb : c.byName = false) (ha : c.attrs.get? name = none)
    (hd : i.dict.get? name = none) : getattrOr c n name d i = (.ok d, i) := by
  have ht : (c.base.translation.get? name).getD name = name := by
    rw [get?_none_of_fst u.clean]; rfl
  have hf : fallback c n name i.obj = (.error .attributeError, i.obj) := by
    simp only [fallback, unalias_unknown u, ht, u.prop, had, hb]
    split <;> simp
  simp [getattrOr, getattr, lookup, ha, ownOr, hd, hf]

/-- And for a private name in every class. -/
theorem C277_private_partial (c : Cls) (n : Nat) (i : Inst) {name : Str} (d : Val) (u : Unknown c name)
    (hp : ¬ Public name) (ha : c.attrs.get? name = none) (hd : i.dict.get? name = none) :
    getattrOr c n name d i = (.ok d, i) := by
  simp [getattrOr, getattr, lookup, ha, ownOr, hd, fallback, isPrivate_true hp, not_allowed u]

/-- If additional properties are allowed it gives None instead, unless the name is a required one. -/
theorem C277_none_violated (c : Cls) (n : Nat) (i : Inst) {name : Str} (d : Val) (u : Unknown c name) (hp : Public name)
    (had : c.base.additional = true) (hb : c.byName = false) (ha : c.attrs.get? name = none) (ho : name ∉ c.orig)
    (hd : i.dict.get? name = none) (hi : i.obj.data.get? name = none) :
    getattrOr c n name d i = (.ok (if name ∈ c.base.required then d else .none), i) := by
  by_cases hr : name ∈ c.base.required
  · have ht : (c.base.translation.get? name).getD name = name := by
      rw [get?_none_of_fst u.clean]; rfl
    have hcn : AList.contains i.obj.data name = false := by
      cases h : AList.contains i.obj.data name with
      | false => rfl
      | true => exact absurd (AList.contains_iff.1 h) (AList.get?_eq_none.1 hi)
    simp [getattrOr, getattr, lookup, ha, ownOr, hd, fallback, isPrivate_false hp, ho, unalias_unknown u, ht, u.prop,
      had, hcn, hb, hr]
  · simp [getattrOr, (C276_anything_violated c n i u hp had hb ha ho hd hi hr).2, hr]

/-- If attributes are searched by name, what the search raises is raised. -/
theorem C277_by_name_violated (c : Cls) (n : Nat) (i : Inst) {name : Str} (d : Val) (u : Unknown c name)
    (hp : Public name) (had : c.base.additional = false) (hb : c.byName = true) (ha : c.attrs.get? name = none)
    (ho : name ∉ c.orig) (hd : i.dict.get? name = none) {e : Exc} (he : c.resolve name = .error e)
    (hne : e ≠ .attributeError) : getattrOr c n name d i = (.error e, i) := by
  have ht : (c.base.translation.get? name).getD name = name := by
    rw [get?_none_of_fst u.clean]; rfl
  have hg : getattr c n name i = (.error e, i) := by
    simp [getattr, lookup, ha, ownOr, hd, fallback, isPrivate_false hp, ho, unalias_unknown u, ht, u.prop, had, hb, he,
      Obj.through]
  simp only [getattrOr, hg]
  cases e <;> first | rfl | exact absurd rfl hne

/-- After a declared property has been deleted KeyError is raised. -/
theorem C277_deleted_violated (c : Cls) (n : Nat) (i i' : Inst) {name raw : Str} (d : Val)
    (ha : c.attrs.get? name = some (.prop raw)) (hdel : delattr c name i = (.ok (), i')) :
    (getattrOr c n name d i').1 = .error .keyError := by
  have h := C276_deleted_violated c n i i' ha hdel
  simp only [hasattr] at h
  simp only [getattrOr]
  split at h
  · cases h
  · cases h
  · rename_i e i'' hne hg
    simp only [hg]
    cases h
    rfl

example : (getattrOr (demo true) 3 "nothing".toList (.int 5) demoInst).1 = .ok .none := by decide +kernel
example : (getattrOr (demo false) 3 "nothing".toList (.int 5) demoInst).1 = .ok (.int 5) := by decide +kernel
example : (getattrOr (demo false true) 3 "nothing".toList (.int 5) demoInst).1 = .error .exception := by decide +kernel
example : (getattrOr (demo true) 3 "_nothing".toList (.int 5) demoInst).1 = .ok (.int 5) := by decide +kernel
example : (getattrOr (demo false) 3 "a".toList (.int 5) (delattr (demo false) "a".toList demoInst).2).1
    = .error .keyError := by decide +kernel

/-! ### C278: What was set as an attribute can be deleted -/

/-- A private attribute is gone after that. -/
theorem C278_private_partial (c : Cls) (n : Nat) (i : Inst) {name : Str} (v : Val) (u : Unknown c name)
    (hp : ¬ Public name) (ha : c.attrs.get? name = none) :
    ∃ i' i'', setattr c n name v i = (.ok (), i') ∧ delattr c name i' = (.ok (), i'') ∧ i''.obj = i.obj ∧
      (i.dict.WF → i''.dict.get? name = none) ∧ (hasattr c n name i').1 = .ok true := by
  have hg : (i.dict.set name v).get? name = some v := AList.get?_set_self ..
  have hcn : AList.contains (i.dict.set name v) name = true :=
    AList.contains_iff.2 ((AList.get?_isSome).1 (by rw [hg]; rfl))
  refine ⟨{ i with dict := i.dict.set name v }, { i with dict := (i.dict.set name v).erase name }, ?_, ?_, rfl, ?_, ?_⟩
  · simp [setattr, isPrivate_true hp, not_allowed u]
  · simp [delattr, ha, delOwn, hcn]
  · intro _; rw [AList.get?_erase]; simp
  · simp [hasattr, getattr, lookup, ha, ownOr, hg]

/-- A declared property that is not required and complete can be deleted after any assignment that succeeded, and it is
no item then. -/
theorem C278_declared_partial (c : Cls) (n : Nat) (i i' : Inst) {name raw : Str} (v : Val)
    (ha : c.attrs.get? name = some (.prop raw)) (hr : raw ∉ c.base.required) (hc : Complete i.obj raw)
    (hs : setattr c n name v i = (.ok (), i')) :
    ∃ i'', delattr c name i' = (.ok (), i'') ∧ i''.obj.data.get? raw = none ∧ i''.dict = i'.dict := by
  have hk : Kept i.obj i'.obj := by
    simp only [setattr] at hs
    split at hs
    · cases hs; exact .refl _
    · have h := kept_setItem c.base n name v i.obj
      split at hs <;> rename_i e <;> rw [e] at h <;> cases hs <;> exact h
  have h1 : AList.contains i'.obj.data raw = true := AList.contains_iff.2 (AList.get?_isSome.1 (hk.data _ hc.1))
  have h2 : AList.contains i'.obj.validated raw = true :=
    AList.contains_iff.2 (AList.get?_isSome.1 (hk.validated _ hc.2.1))
  have h3 : AList.contains i'.obj.inputs raw = true := AList.contains_iff.2 (AList.get?_isSome.1 (hk.inputs _ hc.2.2))
  refine ⟨{ i' with obj := ⟨i'.obj.data.erase raw, i'.obj.validated.erase raw, i'.obj.inputs.erase raw⟩ }, ?_, ?_, rfl⟩
  · simp [delattr, ha, Obj.descDel, hr, Obj.andThen, Obj.delData, Obj.delValidated, Obj.delInputs, h1, h2, h3]
  · simp [AList.get?_erase]

/-- An additional property cannot: AttributeError is raised, and it remains. -/
theorem C278_additional_violated (c : Cls) (n : Nat) (i : Inst) {name : Str} (v : Val) (u : Unknown c name)
    (hp : Public name) (had : c.base.additional = true) (ha : ∀ raw, c.attrs.get? name ≠ some (.prop raw))
    (hd : i.dict.get? name = none) :
    ∃ i', setattr c n name v i = (.ok (), i') ∧ delattr c name i' = (.error .attributeError, i') ∧
      i'.obj.data.get? name = some v := by
  refine ⟨{ i with obj := { i.obj with data := i.obj.data.set name v, validated := i.obj.validated.set name v } },
    ?_, ?_, AList.get?_set_self ..⟩
  · simp [setattr, isPrivate_false hp, setItem_unknown u, had]
  · have hcn : AList.contains i.dict name = false := by
      cases h : AList.contains i.dict name with
      | false => rfl
      | true => exact absurd (AList.contains_iff.1 h) (AList.get?_eq_none.1 hd)
    have hdo : ∀ j : Inst, delattr c name j = delOwn name j := by
      intro j
      cases h : c.attrs.get? name with
      | none => simp [delattr, h]
      | some a => cases a with
        | prop raw => exact absurd h (ha raw)
        | plain w => simp [delattr, h]
    simp [hdo, delOwn, hcn]

example : (delattr (demo true) "x".toList (setattr (demo true) 3 "x".toList (.int 5) demoInst).2).1
    = .error .attributeError := by decide +kernel
example : (delattr (demo true) "_x".toList (setattr (demo true) 3 "_x".toList (.int 5) demoInst).2)
    = (.ok (), demoInst) := by decide +kernel
example : ∃ i'', delattr (demo true) "a".toList (setattr (demo true) 3 "a".toList (.int 5) demoInst).2 = (.ok (), i'') ∧
    i''.obj.data.get? "a".toList = none ∧ i''.dict = demoInst.dict :=
  C278_declared_partial (demo true) 3 demoInst _ (.int 5) (by decide +kernel) (by decide +kernel)
    ⟨by decide +kernel, by decide +kernel, by decide +kernel⟩ (by decide +kernel)

/-! ### C279: A class without additional properties refuses unknown names -/

/-- A public name it does not declare can be neither assigned nor, unless it is an attribute of the class, read;
nothing changes. -/
theorem C279_closed (c : Cls) (n : Nat) (i : Inst) {name : Str} (v : Val) (u : Unknown c name) (hp : Public name)
    (had : c.base.additional = false) (hb : c.byName = false) (hd : i.dict.get? name = none) :
    setattr c n name v i = (.error .attributeError, i) ∧
      (c.attrs.get? name = none → getattr c n name i = (.error .attributeError, i) ∧
        delattr c name i = (.error .attributeError, i)) := by
  refine ⟨by simp [setattr, isPrivate_false hp, setItem_unknown u, had], fun ha => ?_⟩
  have ht : (c.base.translation.get? name).getD name = name := by
    rw [get?_none_of_fst u.clean]; rfl
  have hf : fallback c n name i.obj = (.error .attributeError, i.obj) := by
    simp only [fallback, unalias_unknown u, ht, u.prop, had, hb]
    split <;> simp
  have hcn : AList.contains i.dict name = false := by
    cases h : AList.contains i.dict name with
    | false => rfl
    | true => exact absurd (AList.contains_iff.1 h) (AList.get?_eq_none.1 hd)
  exact ⟨by simp [getattr, lookup, ha, ownOr, hd, hf], by simp [delattr, ha, delOwn, hcn]⟩

/-- A read-only property cannot be assigned either. -/
theorem C279_read_only (c : Cls) (n : Nat) (i : Inst) {name : Str} (v : Val) (hp : Public name)
    (hn : name ∈ c.base.props) (hr : name ∈ c.base.readOnly) (hneg : name ∉ c.base.negated.map Prod.fst) :
    setattr c n name v i = (.error .attributeError, i) := by
  have : AList.contains c.base.negated name = false := by
    cases h : AList.contains c.base.negated name with
    | false => rfl
    | true => exact absurd (AList.contains_iff.1 h) hneg
  simp [setattr, isPrivate_false hp, Obj.setItem, Obj.rawName, hn, Obj.op, this, Obj.descSet, hr]

example : setattr (demo false) 3 "x".toList (.int 5) demoInst = (.error .attributeError, demoInst) ∧
    setattr (demo false) 3 "counter".toList (.int 5) demoInst = (.error .attributeError, demoInst) ∧
    getattr (demo false) 3 "x".toList demoInst = (.error .attributeError, demoInst) := by decide +kernel

/-! ### C280: Reading and assigning take nothing away -/

/-- Whatever is read or assigned, and whatever is raised meanwhile, all the items remain. -/
theorem C280_nothing_lost (c : Cls) (n : Nat) (i : Inst) (name : Str) (v : Val) :
    Kept i.obj (getattr c n name i).2.obj ∧ Kept i.obj (hasattr c n name i).2.obj ∧
      Kept i.obj (setattr c n name v i).2.obj := by
  have hg : Kept i.obj (getattr c n name i).2.obj := kept_lookup c n name i
  refine ⟨hg, ?_, ?_⟩
  · have : (hasattr c n name i).2 = (getattr c n name i).2 := by
      simp only [hasattr]; split <;> rename_i e <;> rw [e]
    rw [this]; exact hg
  · simp only [setattr]
    split
    · exact .refl _
    · have h := kept_setItem c.base n name v i.obj
      split
      · rename_i o e; rw [e] at h; exact h
      · rename_i r o _ e; rw [e] at h; exact h

/-- The items of the object read or assigned by key likewise. -/
theorem C280_items (c : Obj.Cls) (n : Nat) (o : Obj.Obj) (key : Str) (v : Val) :
    Kept o (Obj.getItem c n key o).2 ∧ Kept o (Obj.setItem c n key v o).2 :=
  ⟨kept_getItem c n key o, kept_setItem c n key v o⟩

example : (setattr (demo true) 3 "x".toList (.int 5) demoInst).2.obj.data.keys
    = ["a".toList, "r".toList, "x".toList] := by decide +kernel

/-! ### C295: An attribute under an alias is that of the property -/

theorem isDunder_iff (name : Str) : isDunder name = true ↔ Special name := by
  unfold isDunder Special
  exact List.isPrefixOf_iff_prefix

theorem descGet_of_getItem {c : Obj.Cls} {n : Nat} {p : Str} {o o' : Obj.Obj} {w : Val} (hp : p ∈ c.props)
    (hal : p ∉ c.aliases.map Prod.fst) (hneg : p ∉ c.negated.map Prod.fst)
    (h : Obj.getItem c (n + 1) p o = (.ok w, o')) : Obj.through c p (Obj.descGet c (Obj.getItem c n) p o) = (.ok w, o') := by
  have hu : Obj.unalias c p = p := by
    simp [Obj.unalias, get?_none_of_fst hal, get?_none_of_fst hneg]
  simp only [Obj.getItem, hu, Obj.rawName, if_pos hp] at h
  split at h
  · cases h
  · exact h

theorem fallback_alias {c : Cls} {n : Nat} {name p : Str} {o : Obj.Obj} (hs : ¬ Special name)
    (hok : name ∈ allowed c.base ∨ Public name ∧ name ∉ c.orig) (hu : Obj.unalias c.base name = p) (hp : p ∈ c.base.props)
    (ht : c.base.translation.get? p = none) :
    fallback c n name o = Obj.through c.base p (Obj.descGet c.base (Obj.getItem c.base n) p o) := by
  have hd : isDunder name = false := by
    cases h : isDunder name with
    | false => rfl
    | true => exact absurd ((isDunder_iff name).1 h) hs
  have hc : ((isPrivate name || decide (name ∈ c.orig)) && (isDunder name || decide (name ∉ allowed c.base))) = false := by
    rcases hok with h | ⟨h1, h2⟩
    · simp [hd, h]
    · simp [isPrivate_false h1, h2]
  simp only [fallback, hc, hu, ht, Option.getD_none, if_pos hp]
  rfl

/-- Reading the attribute under an alias is reading the item of the property, assigning it is assigning the item under
the alias (see C69). -/
theorem C295_alias_partial (c : Cls) (n : Nat) (i : Inst) {name p : Str} (v : Val) (hs : ¬ Special name)
    (ha : c.attrs.get? name = none) (hd : i.dict.get? name = none) (hr : name ∉ c.base.readOnly)
    (hal : c.base.aliases.get? name = some p) (hneg : name ∉ c.base.negated.map Prod.fst)
    (hp : p ∈ c.base.props) (ht : c.base.translation.get? p = none) (hpa : p ∉ c.base.aliases.map Prod.fst)
    (hpn : p ∉ c.base.negated.map Prod.fst) :
    (∀ o w, Obj.getItem c.base (n + 1) p i.obj = (.ok w, o) → getattr c n name i = (.ok w, { i with obj := o })) ∧
    (∀ o, Obj.setItem c.base n name v i.obj = (.ok (), o) → setattr c n name v i = (.ok (), { i with obj := o })) := by
  have hall : name ∈ allowed c.base := by
    simp only [allowed, List.mem_filter, List.mem_append]
    have : name ∈ c.base.aliases.keys := by rw [← AList.get?_isSome, hal]; rfl
    exact ⟨.inl (.inl (.inl (.inl (.inr this)))), by simpa using hr⟩
  constructor
  · intro o w h
    have hu : Obj.unalias c.base name = p := by simp [Obj.unalias, get?_none_of_fst hneg, hal]
    have := fallback_alias (c := c) (n := n) (o := i.obj) hs (.inl hall) hu hp ht
    simp only [getattr, lookup, ha, ownOr, hd, this, descGet_of_getItem hp hpa hpn h]
  · intro o h
    simp [setattr, hall, h]

/-- An alias that begins with two underscores is not looked for, whatever it stands for. -/
theorem C295_special_violated (c : Cls) (n : Nat) (i : Inst) {name : Str} (hs : Special name)
    (ha : c.attrs.get? name = none) (hd : i.dict.get? name = none) : getattr c n name i = (.error .attributeError, i) := by
  have h1 := (isDunder_iff name).2 hs
  have h2 : isPrivate name = true := by
    obtain ⟨r, rfl⟩ := hs; rfl
  simp [getattr, lookup, ha, ownOr, hd, fallback, h1, h2]

/-- Under a negated alias the value is not negated. -/
theorem C295_negated_violated (c : Cls) (n : Nat) (i : Inst) {name p : Str} (hs : Public name) (ho : name ∉ c.orig)
    (ha : c.attrs.get? name = none) (hd : i.dict.get? name = none) (hneg : c.base.negated.get? name = some p)
    (hp : p ∈ c.base.props) (ht : c.base.translation.get? p = none) (hpa : p ∉ c.base.aliases.map Prod.fst)
    (hpn : p ∉ c.base.negated.map Prod.fst) (o : Obj.Obj) (w : Val)
    (h : Obj.getItem c.base (n + 1) p i.obj = (.ok w, o)) : getattr c n name i = (.ok w, { i with obj := o }) := by
  have hu : Obj.unalias c.base name = p := by
    simp [Obj.unalias, hneg, get?_none_of_fst hpa]
  have hns : ¬ Special name := by
    rintro ⟨r, rfl⟩; exact hs rfl
  have := fallback_alias (c := c) (n := n) (o := i.obj) hns (.inr ⟨hs, ho⟩) hu hp ht
  simp only [getattr, lookup, ha, ownOr, hd, this, descGet_of_getItem hp hpa hpn h]

/-- The class of the examples with aliases. -/
def aliased : Cls :=
  { demo with base := { demo.base with aliases := [("_b".toList, "a".toList), ("__b".toList, "a".toList)],
                                       negated := [("minus".toList, "a".toList)] } }

example : (getattr aliased 3 "_b".toList demoInst).1 = .ok (.int 1) ∧ (getattr aliased 3 "minus".toList demoInst).1 = .ok (.int 1) ∧
    (getattr aliased 3 "__b".toList demoInst).1 = .error .attributeError := by decide +kernel
example : ¬ Special "_b".toList ∧ aliased.base.aliases.get? "_b".toList = some "a".toList ∧ Special "__b".toList := by
  unfold Special; decide +kernel

end Verif.Access
