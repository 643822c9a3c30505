import Verif.Model.Show
import Verif.Spec.Show
/-
C230-C235: texts of instances, log messages, logged calls.
-/
namespace Verif.Show
open Spec.Show

/-! ### Lemmas -/

theorem cut_eq (t : Str) : Strings.shorten t maxStrl = cut t := by
  unfold Strings.shorten cut maxStrl
  by_cases h : t.length ≤ 40
  · rw [if_neg (by omega), if_pos h]
  · rw [if_pos (by omega), if_neg h]; rfl

theorem tail_eq (n : Nat) : tail (n - maxEl) = more n := by
  unfold tail more maxEl
  by_cases h : n ≤ 10
  · rw [if_pos (by omega), if_pos h]
  · rw [if_neg (by omega), if_neg h]; rfl

theorem range_filter (n m : Nat) : (List.range n).filter (· < m) = List.range (min n m) := by
  induction n with
  | zero => simp
  | succ n ih =>
    rw [List.range_succ, List.filter_append, ih]
    by_cases h : n < m
    · simp [h, Nat.min_eq_left (Nat.le_of_lt h), Nat.min_eq_left (Nat.succ_le_of_lt h), List.range_succ]
    · have h1 : min n m = m := by omega
      have h2 : min (n + 1) m = m := by omega
      simp [h, h1, h2]

theorem getAt_nat {α} (l : List α) (i : Nat) (x : α) (h : l[i]? = some x) : Arr.getAt l (i : Int) = .ok x := by
  have hi : i < l.length := by
    rcases List.getElem?_eq_some_iff.1 h with ⟨hi, _⟩; exact hi
  unfold Arr.getAt Arr.norm
  have h1 : (0 : Int) ≤ i := by omega
  have h2 : (i : Int) < l.length := by omega
  simp only [h1, h2, if_true, Int.toNat_natCast, h]

/-- A list of positions shown in turn. -/
theorem parts_eq (rep : Val → Str) (a : Arr.Arr) (f : Nat → Val) : ∀ (is : List Nat),
    (∀ i ∈ is, ∃ v d, a.validated[i]? = some v ∧ a.data[i]? = some d ∧ f i = orElse v d) →
    parts rep a is = .ok (is.map (fun i => cut (rep (f i))))
  | [], _ => rfl
  | i :: is, h => by
    rcases h i (by simp) with ⟨v, d, hv, hd, hf⟩
    have ih := parts_eq rep a f is (fun j hj => h j (by simp [hj]))
    have hw : (if v.truthy then (.ok v : Res Val) else Arr.getAt a.data (i : Int)) = .ok (f i) := by
      rw [hf, orElse, getAt_nat _ _ _ hd]; split <;> rfl
    simp only [parts, getAt_nat _ _ _ hv, hw, ih, cut_eq, List.map_cons]

theorem content_length : ∀ (vs ds : List Val), vs.length = ds.length → (content vs ds).length = ds.length
  | [], [], _ => rfl
  | v :: vs, d :: ds, h => by
    simp only [content, List.length_cons]
    rw [content_length vs ds (by simpa using h)]

theorem content_get : ∀ (vs ds : List Val) (i : Nat) (v d : Val), vs[i]? = some v → ds[i]? = some d →
    (content vs ds)[i]? = some (if v = .none then d else v)
  | [], _, i, v, d, h, _ => by simp at h
  | _ :: _, [], i, v, d, _, h => by simp at h
  | v' :: vs, d' :: ds, 0, v, d, hv, hd => by
    simp at hv hd
    simp [content, hv, hd]
  | v' :: vs, d' :: ds, i + 1, v, d, hv, hd => by
    simp only [content, List.getElem?_cons_succ] at *
    exact content_get vs ds i v d hv hd

theorem map_range_take (l : List Val) (f : Val → Str) (n : Nat) (h : n ≤ l.length) :
    (List.range n).map (fun i => f (l.getD i .none)) = (l.take n).map f := by
  apply List.ext_getElem?
  intro i
  simp only [List.getElem?_map, List.getElem?_range', List.getElem?_take]
  by_cases hi : i < n
  · have hl : i < l.length := by omega
    simp [hi, hl, List.getElem?_range hi]
  · have : (List.range n)[i]? = none := by simp; omega
    simp [hi, this]

/-! ### C230 arrays -/

/-- The first text of an array is made of its present values, provided the array is not longer than its list of types
and an item converted to something empty or zero is no template. -/
theorem C230_array_partial (rep : Val → Str) (types : Option Nat) (a : Arr.Arr)
    (hal : a.validated.length = a.data.length)
    (hty : ∀ m, types = some m → a.data.length ≤ m)
    (hz : ∀ (i : Nat) v d, a.validated[i]? = some v → a.data[i]? = some d → v ≠ .none → v.truthy = false → v = d) :
    (strList rep types { arr := a, str := none }).1 = .ok (arrayText rep (content a.validated a.data)) := by
  have hc : typeCount types a.data.length = a.data.length := by
    cases types with
    | none => rfl
    | some m => exact Nat.min_eq_right (hty m rfl)
  have hlen := content_length _ _ hal
  have hp := parts_eq rep a (fun i => (content a.validated a.data).getD i .none)
    (List.range (min a.data.length maxEl)) (by
      intro i hi
      have hi' : i < a.data.length := by
        have := List.mem_range.1 hi; omega
      have hv := List.getElem?_eq_getElem (l := a.validated) (i := i) (by omega)
      have hd := List.getElem?_eq_getElem (l := a.data) (i := i) hi'
      refine ⟨_, _, hv, hd, ?_⟩
      have hg := content_get _ _ _ _ _ hv hd
      rw [List.getD_eq_getElem?_getD, hg, Option.getD_some, orElse]
      by_cases hn : a.validated[i] = .none
      · rw [if_pos hn, hn]; rfl
      · rw [if_neg hn]
        by_cases ht : (a.validated[i]).truthy
        · rw [if_pos ht]
        · rw [if_neg ht]
          exact hz i _ _ hv hd hn (by simpa using ht))
  simp only [strList, hc, range_filter, hp, tail_eq]
  unfold arrayText
  rw [hlen, map_range_take (content a.validated a.data) (fun v => cut (rep v)) _ (by omega)]
  have hm : (content a.validated a.data).take (min a.data.length maxEl) = (content a.validated a.data).take 10 := by
    rw [← hlen]
    apply List.ext_getElem?
    intro i
    simp only [List.getElem?_take, maxEl]
    by_cases h : i < 10
    · by_cases h2 : i < (content a.validated a.data).length
      · rw [if_pos (by omega), if_pos h]
      · rw [if_neg (by omega), if_pos h, List.getElem?_eq_none (by omega)]
    · rw [if_neg (by omega), if_neg h]
  rw [hm]
  rfl

/-- Once made, the text of an array is never changed, whatever is done to the array. -/
theorem C230_array_kept_partial (rep : Val → Str) (types : Option Nat) (cfg : Arr.Cfg) (t : Str) : ∀ (ops : List AOp)
    (s : SArr), s.str = some t → (strList rep types (aRun rep types cfg ops s)).1 = .ok t
  | [], s, h => by simp only [aRun, strList, h]
  | o :: ops, s, h => by
    have h1 : (aStep rep types cfg o s).str = some t := by
      cases o with
      | op o => exact h
      | «show» => simp only [aStep, strList, h]
    exact C230_array_kept_partial rep types cfg t ops _ h1

/-- A concrete `repr`: of numbers and plain texts. -/
def rp : Val → Str
  | .int i => showInt i
  | .str s => '\'' :: (s ++ ['\''])
  | .none => "None".toList
  | _ => "?".toList

/-- Items are anything and kept as they are; the first character of a template is a back quote. -/
def plainCfg (lz : Bool) : Arr.Cfg :=
  { conv := fun _ v => .ok v, prim := fun _ => true, tpl := fun _ => false, lazy := lz,
    okItem := fun _ => none, okSelf := fun _ => none }

example : (strList rp none { arr := { data := [.int 1, .str "2".toList], validated := [.none, .int 2], inputs := [(), ()] },
                             str := none }).1 = .ok "[1, 2]".toList := by decide +kernel

/-- Assigning to an item, deleting one, appending one after the text was made: the text is the old one, though the
values are others. -/
theorem C230_array_violated :
    ∃ (s : SArr), s.arr.validated.length = s.arr.data.length ∧
      (strList rp none s).1 = .ok (arrayText rp (content s.arr.validated s.arr.data)) ∧
      ∀ o ∈ [Arr.Op.set 0 (.int 5), Arr.Op.del 0, Arr.Op.app (.str "x".toList)],
        let s' := aRun rp none (plainCfg false) [.show, .op o] s
        (strList rp none s').1 ≠ .ok (arrayText rp (content s'.arr.validated s'.arr.data)) ∧
        (strList rp none { s' with str := none }).1 = .ok (arrayText rp (content s'.arr.validated s'.arr.data)) :=
  ⟨{ arr := { data := [.int 1, .int 2], validated := [.int 1, .int 2], inputs := [(), ()] }, str := none },
   by decide +kernel⟩

/-- An expression whose value is zero is shown as the expression, where another value is shown. -/
theorem C230_template_violated :
    (strList rp none { arr := { data := [.str "`1-1`".toList, .str "`1+1`".toList], validated := [.int 0, .int 2],
                                inputs := [(), ()] }, str := none }).1 = .ok "['`1-1`', 2]".toList ∧
    arrayText rp (content [.int 0, .int 2] [.str "`1-1`".toList, .str "`1+1`".toList]) = "[0, 2]".toList := by
  decide +kernel

/-! ### C230 objects -/

/-- The values shown, in order. -/
def shownProps (o : Obj.Obj) (ks : List Str) : List (Str × Val) :=
  ks.map (fun k => (k, orElse ((o.validated.get? k).getD .none) ((o.data.get? k).getD .none)))

theorem entries_eq (rep : Val → Str) (eq : Str) (o : Obj.Obj) : ∀ (ks : List Str),
    (∀ k ∈ ks, k ∈ o.validated.keys ∧ k ∈ o.data.keys) →
    entries rep eq o ks = .ok ((shownProps o ks).map (fun p => p.1 ++ eq ++ cut (rep p.2)))
  | [], _ => rfl
  | k :: ks, h => by
    have ih := entries_eq rep eq o ks (fun j hj => h j (by simp [hj]))
    rcases h k (by simp) with ⟨h1, h2⟩
    have h1' : (o.validated.get? k).isSome := AList.get?_isSome.2 h1
    have h2' : (o.data.get? k).isSome := AList.get?_isSome.2 h2
    rcases Option.isSome_iff_exists.1 h1' with ⟨v, hv⟩
    rcases Option.isSome_iff_exists.1 h2' with ⟨d, hd⟩
    have hw : (if v.truthy then some v else some d) = some (orElse v d) := by
      rw [orElse]; split <;> rfl
    simp only [entries, hv, hw, ih, cut_eq, shownProps, List.map_cons, hd, Option.getD_some]

theorem shownProps_take (o : Obj.Obj) (ks : List Str) (n : Nat) :
    shownProps o (ks.take n) = (shownProps o ks).take n := by
  simp [shownProps, List.map_take]

/-- The first text of an object consists of the properties to be shown, each with its present value, provided a property
converted to something empty or zero is no template. -/
theorem C230_object_partial (rep : Val → Str) (ord : List Str → List Str) (d : Types.ObjDecl) (dflt : List Str)
    (o : Obj.Obj) (r : Option Str) (ks : List Str)
    (hks : (Types.objPrintOrder ord dflt d { noDefaults := true, noReadOnly := false } o.data).1 = .ok ks)
    (hin : ∀ k ∈ ks, k ∈ o.validated.keys ∧ k ∈ o.data.keys)
    (hz : ∀ k v d, o.validated.get? k = some v → o.data.get? k = some d → v ≠ .none → v.truthy = false → v = d) :
    (strOf rep ord d dflt { obj := o, str := none, repr := r }).1 =
      .ok (objectText rep (ks.map (fun k => (k, present o.validated o.data k)))) := by
  have hsp : shownProps o ks = ks.map (fun k => (k, present o.validated o.data k)) := by
    apply List.map_congr_left
    intro k hk
    rcases hin k hk with ⟨h1, h2⟩
    rcases Option.isSome_iff_exists.1 (AList.get?_isSome.2 h1) with ⟨v, hv⟩
    rcases Option.isSome_iff_exists.1 (AList.get?_isSome.2 h2) with ⟨w, hw⟩
    simp only [present, hv, hw, Option.getD_some, orElse]
    by_cases hn : v = .none
    · rw [if_pos hn, hn]; rfl
    · rw [if_neg hn]
      by_cases ht : v.truthy
      · rw [if_pos ht]
      · rw [if_neg ht, hz k v w hv hw hn (by simpa using ht)]
  rw [← hsp]
  have he := entries_eq rep [':', ' '] o (ks.take maxEl) (fun k hk => hin k (List.mem_of_mem_take hk))
  have hl : (shownProps o ks).length = ks.length := by simp [shownProps]
  cases h : Types.objPrintOrder ord dflt d { noDefaults := true, noReadOnly := false } o.data with
  | mk a b =>
    rw [h] at hks
    cases hks
    simp only [strOf, listing, h, he, tail_eq, shownProps_take]
    unfold objectText
    rw [hl]
    rfl

/-- Assigning a property so that its items are touched drops both texts. -/
theorem C230_object_touched_partial (c : Obj.Cls) (n : Nat) (k : Str) (v : Val) (s : SObj)
    (h : touches c k v s.obj = true) :
    (oStep c n (.set k v) s).str = none ∧ (oStep c n (.set k v) s).repr = none ∧
    (oStep c n (.set k v) s).obj = (Obj.setItem c n k v s.obj).2 := by
  simp [oStep, h]

/-- A declared property with a value, not read-only, is touched by the assignment of a different value. -/
theorem C230_object_declared_partial (c : Obj.Cls) (k : Str) (v old : Val) (o : Obj.Obj)
    (hp : k ∈ c.props) (hr : k ∉ c.readOnly) (hn : ∀ x, c.negated.get? k ≠ some x)
    (ho : o.data.get? k = some old) (hv : Query.pyEq v old = false) : touches c k v o = true := by
  have h1 : Obj.rawName c k = some k := by simp [Obj.rawName, hp]
  have h2 : Obj.op c k v = .ok v := by
    have : c.negated.contains k = false := by
      cases h : c.negated.contains k with
      | false => rfl
      | true =>
        have h3 := AList.contains_iff.1 h
        have h4 := AList.get?_isSome.2 h3
        rcases Option.isSome_iff_exists.1 h4 with ⟨x, hx⟩
        exact absurd hx (hn x)
    simp [Obj.op, this]
  simp [touches, h1, h2, hp, hr, ho, hv]

/-- Whatever does not touch items leaves the texts as they are. -/
theorem C230_object_kept_partial (rep : Val → Str) (ord : List Str → List Str) (d : Types.ObjDecl) (dflt : List Str)
    (c : Obj.Cls) (n : Nat) (op : Obj.Op) (s : SObj) (t : Str) (ht : s.str = some t)
    (h : ∀ k v, op = .set k v → touches c k v s.obj = false) :
    (strOf rep ord d dflt (oStep c n op s)).1 = .ok t := by
  have : (oStep c n op s).str = some t := by
    cases op with
    | set k v => simp [oStep, h k v rfl, ht]
    | get k => simp [oStep, ht]
    | del k => simp [oStep, ht]
    | delAttr k => simp [oStep, ht]
  simp [strOf, this]

/-- An assignment that is refused changes neither the object nor its texts: to a read-only property, or of what is no
number to the negative of a property. -/
theorem C230_object_refused_partial (c : Obj.Cls) (n : Nat) (k raw : Str) (v : Val) (s : SObj)
    (h : (k ∈ c.props ∧ k ∈ c.readOnly ∧ c.negated.get? k = none)
      ∨ (Obj.rawName c k = some raw ∧ raw ∈ c.props ∧ (∃ x, c.negated.get? k = some x) ∧ (∀ i, v ≠ .int i)
        ∧ ∀ b, v ≠ .bool b)) :
    oStep c n (.set k v) s = s := by
  rcases h with ⟨hp, hr, hn⟩ | ⟨hraw, hp, ⟨x, hx⟩, hi, hb⟩
  · have h1 : Obj.rawName c k = some k := by simp [Obj.rawName, hp]
    have h2 : Obj.op c k v = .ok v := by
      have : c.negated.contains k = false := by simp [AList.contains, hn]
      simp [Obj.op, this]
    have ht : touches c k v s.obj = false := by simp [touches, h1, h2, hp, hr]
    simp [oStep, ht, Obj.setItem, h1, h2, hp, hr, Obj.descSet]
  · have h2 : Obj.op c k v = .error .typeError := by
      have : c.negated.contains k = true := by simp [AList.contains, hx]
      simp only [Obj.op, this, if_true]
      cases v <;> simp_all [Types.negate]
    have ht : touches c k v s.obj = false := by simp [touches, hraw, h2, hp]
    simp [oStep, ht, Obj.setItem, hraw, h2, hp]

/-- A class with the declared properties a and b, both anything. -/
def plainCls : Obj.Cls := { props := ["a".toList, "b".toList], conv := fun _ v _ => .ok v }

/-- The same as declared for printing. -/
def plainDecl : Types.ObjDecl :=
  { props := [("a".toList, .none), ("b".toList, .none)], pattern := fun _ => false, additional := true, required := [],
    readOnly := [], negated := some [] }

/-- An instance with a = 1 and b = 2. -/
def plainObj : Obj.Obj :=
  { data := [("a".toList, .int 1), ("b".toList, .int 2)], validated := [("a".toList, .int 1), ("b".toList, .int 2)],
    inputs := [("a".toList, []), ("b".toList, [])] }

example : (strOf rp id plainDecl [] { obj := plainObj }).1 = .ok "{a: 1, b: 2}".toList := by decide +kernel
example : touches plainCls "a".toList (.int 5) plainObj = true := by decide +kernel
example : touches plainCls "c".toList (.int 5) plainObj = false := by decide +kernel

example : (oStep { plainCls with readOnly := ["a".toList] } 5 (.set "a".toList (.int 5))
      { obj := plainObj, str := some "x".toList }).str = some "x".toList
    ∧ (oStep { plainCls with negated := [("m".toList, "a".toList)] } 5 (.set "m".toList (.str "z".toList))
      { obj := plainObj, str := some "x".toList }).str = some "x".toList
    ∧ (oStep { plainCls with negated := [("m".toList, "a".toList)] } 5 (.set "m".toList (.int 7))
      { obj := plainObj, str := some "x".toList }).str = none := by decide +kernel

/-- The text of an object after an operation on it, the text having been asked for before (`again`) or not. -/
def textAfter (again : Bool) (op : Obj.Op) : Res Str :=
  let s0 : SObj := { obj := plainObj }
  let s1 := if again then (strOf rp id plainDecl [] s0).2.1 else s0
  (strOf rp id plainDecl [] (oStep plainCls 5 op s1)).1

/-- An additional property that was assigned, or a property that was deleted, after the text was made: the text is the
old one. -/
theorem C230_object_violated :
    textAfter false (.set "c".toList (.int 3)) = .ok "{a: 1, b: 2, c: 3}".toList ∧
    textAfter true (.set "c".toList (.int 3)) = .ok "{a: 1, b: 2}".toList ∧
    textAfter false (.delAttr "a".toList) = .ok "{b: 2}".toList ∧
    textAfter true (.delAttr "a".toList) = .ok "{a: 1, b: 2}".toList ∧
    textAfter false (.set "a".toList (.int 3)) = textAfter true (.set "a".toList (.int 3)) := by
  decide +kernel

/-! ### C231 -/

/-- `str` leaves the shared list as it is. -/
theorem C231_str_partial (rep : Val → Str) (ord : List Str → List Str) (d : Types.ObjDecl) (dflt : List Str) (s : SObj) :
    (strOf rep ord d dflt s).2.2 = dflt := by
  have h : (Types.objPrintOrder ord dflt d { noDefaults := true, noReadOnly := false } s.obj.data).2 = dflt := by
    simp [Types.objPrintOrder, Types.printOrder]
  cases hs : s.str with
  | some t => simp [strOf, hs]
  | none =>
    cases ho : Types.objPrintOrder ord dflt d { noDefaults := true, noReadOnly := false } s.obj.data with
    | mk a b =>
      rw [ho] at h
      subst h
      cases a with
      | error e => simp [strOf, listing, hs, ho]
      | ok ks =>
        simp only [strOf, listing, hs, ho]
        cases entries rep [':', ' '] s.obj (ks.take maxEl) <;> simp

/-- `repr` adds the read-only properties of its class to the shared list, and nothing else. -/
theorem C231_repr_partial (rep : Val → Str) (qn : Str) (ord : List Str → List Str) (d : Types.ObjDecl) (dflt : List Str)
    (o : Obj.Obj) (t : Option Str) :
    (reprOf rep qn ord d dflt { obj := o, str := t, repr := none }).2.2 = dflt ++ d.readOnly := by
  have h : (Types.objPrintOrder ord dflt d { noDefaults := true, noReadOnly := true } o.data).2 = dflt ++ d.readOnly := by
    simp [Types.objPrintOrder, Types.printOrder]
  cases ho : Types.objPrintOrder ord dflt d { noDefaults := true, noReadOnly := true } o.data with
  | mk a b =>
    rw [ho] at h
    subst h
    cases a with
    | error e => simp [reprOf, listing, ho]
    | ok ks =>
      simp only [reprOf, listing, ho]
      cases entries rep ['='] o (ks.take maxEl) <;> simp

/-- The text does not depend on the shared list when none of its names is the name of a property that is not
required. -/
theorem C231_unrelated_partial (rep : Val → Str) (ord : List Str → List Str) (d : Types.ObjDecl) (l l' : List Str)
    (s : SObj) (hord : ∀ m k, k ∈ ord m → k ∈ m)
    (h : ∀ k ∈ s.obj.data.keys, k ∉ d.required → (k ∈ l ↔ k ∈ l')) :
    (strOf rep ord d l s).1 = (strOf rep ord d l' s).1 := by
  have hp : (Types.objPrintOrder ord l d { noDefaults := true, noReadOnly := false } s.obj.data).1 =
      (Types.objPrintOrder ord l' d { noDefaults := true, noReadOnly := false } s.obj.data).1 := by
    have hq : (Types.printOrder ord l d { noDefaults := true, noReadOnly := false } s.obj.data).1 =
      (Types.printOrder ord l' d { noDefaults := true, noReadOnly := false } s.obj.data).1 := by
      simp only [Types.printOrder, Option.getD_none]
      apply List.filter_congr
      intro k hk
      have hkey : k ∈ s.obj.data.keys := by
        rcases List.mem_append.1 hk with hk | hk
        · exact (List.mem_filter.1 (hord _ _ hk)).1
        · exact (List.mem_filter.1 (hord _ _ hk)).1
      by_cases hr : k ∈ d.required
      · simp [hr]
      · have := h k hkey hr
        simp [hr, this]
    simp only [Types.objPrintOrder, if_true, hq]
  cases hs : s.str with
  | some t => simp [strOf, hs]
  | none =>
    cases h1 : Types.objPrintOrder ord l d { noDefaults := true, noReadOnly := false } s.obj.data with
    | mk a b =>
      cases h2 : Types.objPrintOrder ord l' d { noDefaults := true, noReadOnly := false } s.obj.data with
      | mk a' b' =>
        rw [h1, h2] at hp
        cases hp
        cases a with
        | error e => simp [strOf, listing, hs, h1, h2]
        | ok ks =>
          simp only [strOf, listing, hs, h1, h2]
          cases entries rep [':', ' '] s.obj (ks.take maxEl) <;> simp

/-- After `repr` of an instance of a class with a read-only property, the text of an instance of another class misses
its property of that name. -/
theorem C231_violated :
    let before := (strOf rp id plainDecl [] { obj := plainObj }).1
    let other := (reprOf rp "K".toList id { plainDecl with readOnly := ["a".toList] } [] { obj := plainObj })
    let after := (strOf rp id plainDecl other.2.2 { obj := plainObj }).1
    other.1 = .ok "K(b=2)".toList ∧ before = .ok "{a: 1, b: 2}".toList ∧ after = .ok "{b: 2}".toList := by
  decide +kernel

/-! ### C232 -/

/-- The text of an array whose lists are aligned can be made. It has an entry for each item, but ten at most, and then the
number of the others. -/
theorem C232_array_partial (rep : Val → Str) (a : Arr.Arr) (hal : a.validated.length = a.data.length) :
    ∃ l : List Str, l.length = min a.data.length 10 ∧ (∀ t ∈ l, t.length ≤ 43) ∧
      (strList rep none { arr := a, str := none }).1 =
        .ok ("[".toList ++ joinWith ", ".toList (l ++ more a.data.length) ++ "]".toList) := by
  have hp := parts_eq rep a (fun i => orElse (a.validated.getD i .none) (a.data.getD i .none))
    (List.range (min a.data.length maxEl)) (by
      intro i hi
      have hi' : i < a.data.length := by
        have := List.mem_range.1 hi; omega
      have hv := List.getElem?_eq_getElem (l := a.validated) (i := i) (by omega)
      have hd := List.getElem?_eq_getElem (l := a.data) (i := i) hi'
      refine ⟨_, _, hv, hd, ?_⟩
      simp only [List.getD_eq_getElem?_getD, hv, hd, Option.getD_some])
  refine ⟨_, ?_, ?_, by simp only [strList, typeCount, range_filter, hp, tail_eq]; rfl⟩
  · simp [maxEl]
  · intro t ht
    rcases List.mem_map.1 ht with ⟨i, _, rfl⟩
    unfold cut
    split
    · omega
    · simp; omega

/-- With a list of types, items beyond it are not shown, and not counted either. -/
theorem C232_types_violated :
    (strList rp (some 1) { arr := { data := [.int 1, .int 2], validated := [.int 1, .int 2], inputs := [(), ()] },
                           str := none }).1 = .ok "[1]".toList := by
  decide +kernel

/-- The text of an object has an entry for each property to be shown, but ten at most, and then the number of the
others. -/
theorem C232_object_partial (rep : Val → Str) (ord : List Str → List Str) (d : Types.ObjDecl) (dflt : List Str)
    (o : Obj.Obj) (r : Option Str) (ks : List Str)
    (hks : (Types.objPrintOrder ord dflt d { noDefaults := true, noReadOnly := false } o.data).1 = .ok ks)
    (hin : ∀ k ∈ ks, k ∈ o.validated.keys ∧ k ∈ o.data.keys) :
    ∃ l : List Str, l.length = min ks.length 10 ∧ (∀ i k, ks[i]? = some k → i < 10 → ∃ t, l[i]? = some (k ++ ": ".toList ++ t)
        ∧ t.length ≤ 43) ∧
      (strOf rep ord d dflt { obj := o, str := none, repr := r }).1 =
        .ok ("{".toList ++ joinWith ", ".toList (l ++ more ks.length) ++ "}".toList) := by
  have he := entries_eq rep [':', ' '] o (ks.take maxEl) (fun k hk => hin k (List.mem_of_mem_take hk))
  cases h : Types.objPrintOrder ord dflt d { noDefaults := true, noReadOnly := false } o.data with
  | mk a b =>
    rw [h] at hks
    cases hks
    refine ⟨_, ?_, ?_, by simp only [strOf, listing, h, he, tail_eq]; rfl⟩
    · simp [shownProps, maxEl, Nat.min_comm]
    · intro i k hk hi
      refine ⟨cut (rep (orElse ((o.validated.get? k).getD .none) ((o.data.get? k).getD .none))), ?_, ?_⟩
      · simp [shownProps, maxEl, List.getElem?_take, hi, hk]
      · unfold cut
        split
        · omega
        · simp; omega

example : (strList rp none { arr := { data := (List.range 12).map (fun (i : Nat) => Val.int i), validated := List.replicate 12 .none,
                                      inputs := List.replicate 12 () }, str := none }).1 =
    .ok "[0, 1, 2, 3, 4, 5, 6, 7, 8, 9, +2...]".toList := by decide +kernel

/-! ### C233 -/

/-- Every argument is no tuple and can be represented, and so can be the object. -/
def Plain (o : Owner) (c : Call) : Prop :=
  (∃ t, o.repr = .ok t) ∧ (∀ a ∈ c.args, ∃ t, a = .plain (.ok t)) ∧ (∀ p ∈ c.kwargs, ∃ t, p.2.repr = .ok t)

theorem allOk_ok {α β} (f : α → Res β) : ∀ (l : List α), (∀ a ∈ l, ∃ b, f a = .ok b) → ∃ r, allOk f l = .ok r
  | [], _ => ⟨[], rfl⟩
  | a :: l, h => by
    rcases h a (by simp) with ⟨b, hb⟩
    rcases allOk_ok f l (fun x hx => h x (by simp [hx])) with ⟨r, hr⟩
    exact ⟨b :: r, by simp [allOk, hb, hr]⟩

theorem ownerMsg_ok (o : Owner) (c : Call) (h : Plain o c) : ∃ m, ownerMsg o c = .ok m := by
  rcases h with ⟨⟨t, ht⟩, ha, hk⟩
  rcases allOk_ok percentR c.args (fun a h => by rcases ha a h with ⟨t, rfl⟩; exact ⟨t, rfl⟩) with ⟨r, hr⟩
  rcases allOk_ok keyword c.kwargs (fun p h => by
    rcases hk p h with ⟨t, ht⟩; exact ⟨_, by simp only [keyword, ht]; rfl⟩) with ⟨k, hk⟩
  exact ⟨_, by simp only [ownerMsg, ht, callMsg, hr, hk]; rfl⟩

/-- A logged method gives the result, raises the exception and has the effect of the method itself, when it is called on
an object (or with a first argument) and the message can be made, or there is no logger. -/
theorem C233_transparent_partial {σ α} (method : σ → Res α × σ) (c : Call) (s : σ) (o : Owner)
    (ho : c.owner = some o ∨ (c.owner = none ∧ c.first = some o)) (h : o.logger = false ∨ Plain o c) :
    Transparent method (logExceptions method c) s := by
  have ho' : subject c = some o := by
    rcases ho with h | ⟨h, h'⟩ <;> simp [subject, h, *]
  unfold Transparent logExceptions
  rw [ho']
  cases hl : o.logger with
  | false =>
    simp only [debugEntry, handle, hl]
    cases method s with
    | mk r s1 => cases r <;> simp
  | true =>
    rcases h with h | h
    · rw [hl] at h; cases h
    · rcases ownerMsg_ok o c h with ⟨m, hm⟩
      simp only [debugEntry, handle, hl, hm, if_true]
      cases method s with
      | mk r s1 => cases r <;> simp

/-- The log of such a call: the call, and the exception if one is raised. -/
theorem C233_log_partial {σ α} (method : σ → Res α × σ) (c : Call) (s : σ) (o : Owner)
    (ho : c.owner = some o) (hl : o.logger = true) (h : Plain o c) :
    ∃ m, (logExceptions method c s).2.2 = match (method s).1 with
      | .ok _ => [.debug m]
      | .error e => [.debug m, .error m e] := by
  rcases ownerMsg_ok o c h with ⟨m, hm⟩
  refine ⟨m, ?_⟩
  simp only [logExceptions, subject, ho, debugEntry, handle, hl, hm, if_true]
  cases method s with
  | mk r s1 => cases r <;> simp

theorem allOk_error {α β} (f : α → Res β) (e : Exc) : ∀ (l : List α), (∃ a ∈ l, f a = .error e) →
    (∀ a ∈ l, ∀ e', f a = .error e' → e' = e) → allOk f l = .error e
  | [], h, _ => by rcases h with ⟨a, ha, _⟩; cases ha
  | a :: l, h, hu => by
    cases hf : f a with
    | error e' => simp [allOk, hf, hu a (by simp) e' hf]
    | ok b =>
      have : ∃ x ∈ l, f x = .error e := by
        rcases h with ⟨x, hx, he⟩
        rcases List.mem_cons.1 hx with rfl | hx
        · rw [hf] at he; cases he
        · exact ⟨x, hx, he⟩
      simp [allOk, hf, allOk_error f e l this (fun x hx => hu x (by simp [hx]))]

/-- A tuple among the arguments, unless it has one item: the method is not run at all, TypeError is raised and nothing is
logged, if there is a logger. -/
theorem C233_tuple_violated {σ α} (method : σ → Res α × σ) (c : Call) (s : σ) (o : Owner) (t : Str) (l : List Arg)
    (ho : c.owner = some o) (hl : o.logger = true) (hr : o.repr = .ok t)
    (ht : .tuple l ∈ c.args) (h1 : l.length ≠ 1)
    (hu : ∀ a ∈ c.args, ∀ e, percentR a = .error e → e = .typeError) :
    logExceptions method c s = (.error .typeError, s, []) := by
  have hp : percentR (.tuple l) = .error .typeError := by
    match l, h1 with
    | [], _ => rfl
    | _ :: _ :: _, _ => rfl
    | [_], h => simp at h
  have hm : ownerMsg o c = .error .typeError := by
    simp only [ownerMsg, hr, callMsg, allOk_error percentR .typeError c.args ⟨_, ht, hp⟩ hu]
  simp only [logExceptions, subject, ho, debugEntry, handle, hl, hm, if_true]

/-- A plain function called without positional arguments is not run either. -/
theorem C233_function_violated {σ α} (method : σ → Res α × σ) (c : Call) (s : σ) (ho : c.owner = none)
    (hf : c.first = none) : logExceptions method c s = (.error .indexError, s, []) := by
  simp only [logExceptions, subject, ho, hf]

/-- The same for a logged initialisation. -/
theorem C233_init_partial {σ α} (init : σ → Res α × σ) (name : Str) (args : List Arg) (kwargs : List (Str × Arg)) (s : σ)
    (ha : ∀ a ∈ args, ∃ t, a = .plain (.ok t)) (hk : ∀ p ∈ kwargs, ∃ t, p.2.repr = .ok t) :
    Transparent init (logInit init true name args kwargs) s := by
  rcases allOk_ok percentR args (fun a h => by rcases ha a h with ⟨t, rfl⟩; exact ⟨t, rfl⟩) with ⟨r, hr⟩
  rcases allOk_ok keyword kwargs (fun p h => by
    rcases hk p h with ⟨t, ht⟩; exact ⟨_, by simp only [keyword, ht]; rfl⟩) with ⟨k, hk⟩
  unfold Transparent
  simp only [logInit, callMsg, hr, hk, if_true]
  cases init s with
  | mk r s1 => cases r <;> simp

/-- A tuple given to a logged initialisation: the object is not initialised. -/
theorem C233_init_violated {σ α} (init : σ → Res α × σ) (name : Str) (kwargs : List (Str × Arg)) (s : σ) :
    logInit init true name [.tuple []] kwargs s = (.error .typeError, s, []) := rfl

/-- A call with a number and a keyword. -/
def sampleCall : Call :=
  { owner := some { repr := .ok "o".toList, logger := true }, first := none, name := "f".toList,
    args := [.plain (.ok "1".toList)], kwargs := [("k".toList, .tuple [])] }

example : logExceptions (fun s => (.ok 7, s + 1)) sampleCall 0 = ((.ok 7 : Res Nat), 1, [.debug "o.f(1, k=())".toList]) := by
  rfl
example : logExceptions (fun s => ((.error .valueError : Res Nat), s + 1)) sampleCall 0 =
    (.error .valueError, 1, [.debug "o.f(1, k=())".toList, .error "o.f(1, k=())".toList .valueError]) := by
  rfl
example : logExceptions (fun s => (.ok 7, s + 1)) { sampleCall with args := [.tuple [.plain (.ok []), .plain (.ok [])]] } 0 =
    ((.error .typeError : Res Nat), 0, []) := by rfl

/-! ### C234 -/

/-- A message with nothing to be shortened is the same whenever it is printed. -/
theorem C234_plain_partial (shown lf : Val → Str) (z : Lazy) (h : z.toFormat = []) :
    (lazyStr shown lf z).2 = z := by
  cases z with
  | mk f a t =>
    have h : t = [] := h
    subst h
    rfl

theorem reformat_length (lf : Val → Str) : ∀ (t : List Nat) (args args' : List Val),
    reformat lf t args = .ok args' → args'.length = args.length
  | [], args, args', h => by cases h; rfl
  | a :: t, args, args', h => by
    simp only [reformat] at h
    cases ha : args[a]? with
    | none => rw [ha] at h; cases h
    | some v =>
      rw [ha] at h
      have := reformat_length lf t _ _ h
      simpa using this

/-- A message fails or not whatever was printed before: its arguments keep their number. -/
theorem C234_number_partial (shown lf : Val → Str) (z : Lazy) : (lazyStr shown lf z).2.args.length = z.args.length := by
  unfold lazyStr
  cases h : reformat lf z.toFormat z.args with
  | error e => rfl
  | ok args => exact reformat_length lf _ _ _ h

/-- A message with one argument to be shortened, when the text of a text is longer than itself, as it has quotes: printed
again, it is different. -/
theorem C234_violated (shown lf : Val → Str) (hs : ∀ s, shown (.str s) = s)
    (hq : ∀ s : Str, s.length < 40 → s.length < (lf (.str s)).length) (v : Val) (hv : (lf v).length < 40) :
    let z : Lazy := { fmt := [.arg 0], args := [v], toFormat := [0] }
    (lazyStr shown lf z).1 = .ok (lf v) ∧
    (lazyStr shown lf (lazyStr shown lf z).2).1 ≠ (lazyStr shown lf z).1 := by
  have h1 : lazyStr shown lf { fmt := [.arg 0], args := [v], toFormat := [0] } =
      (.ok (lf v), { fmt := [.arg 0], args := [.str (lf v)], toFormat := [0] }) := by
    simp [lazyStr, reformat, fill, hs]
  have h2 : ∀ w, (lazyStr shown lf { fmt := [.arg 0], args := [w], toFormat := [0] }).1 = .ok (lf w) := by
    intro w; simp [lazyStr, reformat, fill, hs]
  refine ⟨by rw [h1], ?_⟩
  rw [h1]
  show (lazyStr shown lf { fmt := [.arg 0], args := [.str (lf v)], toFormat := [0] }).1 ≠ .ok (lf v)
  rw [h2]
  intro h
  have h3 := hq (lf v) hv
  injection h with h
  rw [h] at h3
  omega

example : let z : Lazy := { fmt := [.lit "got ".toList, .arg 0], args := [.str "a".toList], toFormat := [0] }
    (lazyStr (fun | .str s => s | v => rp v) rp z).1 = .ok "got 'a'".toList ∧
    (lazyStr (fun | .str s => s | v => rp v) rp (lazyStr (fun | .str s => s | v => rp v) rp z).2).1 =
      .ok "got ''a''".toList := by decide +kernel

/-! ### C235 -/

/-- A text of less than forty characters is printed in full. -/
theorem C235_short_partial (rep : Val → Str) (s : Str) (h : s.length < 40) : logFormat rep (.text s) = .ok (rep (.str s)) := by
  simp only [logFormat, maxStrl]
  rw [if_neg (by omega)]

/-- Of a longer one the first forty characters, and the number of the others. -/
theorem C235_long_partial (rep : Val → Str) (s : Str) (h : 40 < s.length) :
    ∃ hd tl : Str, s = hd ++ tl ∧ hd.length = 40 ∧
      logFormat rep (.text s) = .ok (rep (.str (hd ++ "+".toList ++ showNat tl.length ++ "...".toList))) := by
  refine ⟨s.take 40, s.drop 40, (List.take_append_drop 40 s).symm, by simp; omega, ?_⟩
  simp only [logFormat, maxStrl, plus, List.length_drop]
  rw [if_pos (by omega)]
  simp

/-- A text of forty characters fits, but is marked as if something were missing. -/
theorem C235_text_violated (rep : Val → Str) (s : Str) (h : s.length = 40) :
    logFormat rep (.text s) = .ok (rep (.str (s ++ "+0...".toList))) := by
  have : s.take 40 = s := List.take_of_length_le (by omega)
  simp only [logFormat, maxStrl, h, Nat.le_refl, if_true, this, plus]
  rfl

theorem cutLast_close (close : Char) (body : Str) : Strings.cutLast [close] (body ++ [close]) = some (body, []) := by
  induction body with
  | nil => simp [Strings.cutLast, List.isPrefixOf]
  | cons c cs ih => simp [Strings.cutLast, ih]

theorem rreplace_close (close : Char) (body new : Str) :
    Strings.rreplace (body ++ [close]) [close] new 1 = .ok (body ++ new) := by
  simp [Strings.rreplace, Strings.rsplit, cutLast_close, joinWith]

/-- A list of less than ten items, or a mapping of less than ten entries, with a text that is not too long, is printed in
full. -/
theorem C235_small_partial (rep : Val → Str) (l : List Val) (d : List (Str × Val)) :
    (l.length < 10 → (rep (.list l)).length < 1200 → logFormat rep (.list l) = .ok (rep (.list l))) ∧
    (d.length < 10 → (rep (.dict d)).length < 1200 → logFormat rep (.dict d) = .ok (rep (.dict d))) := by
  constructor
  · intro h h2
    have ht : l.take 10 = l := List.take_of_length_le (by omega)
    simp only [logFormat, cutColl, maxEl, maxStrl, maxColl, ht]
    rw [if_neg (by omega)]
    simp only
    rw [if_neg (by omega)]
  · intro h h2
    have ht : d.take 10 = d := List.take_of_length_le (by omega)
    simp only [logFormat, cutColl, maxEl, maxStrl, maxColl, ht]
    rw [if_neg (by omega)]
    simp only
    rw [if_neg (by omega)]

/-- Of a longer list the first ten items, and the number of the others. -/
theorem C235_list_partial (rep : Val → Str) (l : List Val) (body : Str) (h : 10 < l.length)
    (hr : rep (.list (l.take 10)) = body ++ "]".toList)
    (hb : (body ++ "+".toList ++ showNat (l.length - 10) ++ "...]".toList).length < 1200) :
    logFormat rep (.list l) = .ok (body ++ "+".toList ++ showNat (l.length - 10) ++ "...]".toList) := by
  have e : ("]".toList : Str) = [']'] := rfl
  rw [e] at hr
  simp only [logFormat, cutColl, maxEl, hr]
  rw [if_pos (by omega), rreplace_close]
  have e2 : body ++ (plus (l.length - 10) ++ [']']) = body ++ "+".toList ++ showNat (l.length - 10) ++ "...]".toList := by
    simp [plus]
  rw [e2]
  simp only [maxColl, maxEl, maxStrl]
  rw [if_neg (by omega)]

/-- A list of ten items fits, but is marked as if something were missing. -/
theorem C235_list_violated (rep : Val → Str) (l : List Val) (body : Str) (h : l.length = 10)
    (hr : rep (.list l) = body ++ "]".toList) (hb : body.length < 1194) :
    logFormat rep (.list l) = .ok (body ++ "+0...]".toList) := by
  have e : ("]".toList : Str) = [']'] := rfl
  have ht : l.take 10 = l := List.take_of_length_le (by omega)
  rw [e] at hr
  simp only [logFormat, cutColl, maxEl, ht, hr, h, Nat.le_refl, if_true, rreplace_close]
  have e2 : body ++ (plus (10 - 10) ++ [']']) = body ++ "+0...]".toList := rfl
  rw [e2]
  simp only [maxColl, maxEl, maxStrl]
  rw [if_neg (by simp; omega)]

/-- However long the texts of the items are, the text of a collection has 1204 characters at most. -/
theorem C235_bounded_partial (rep : Val → Str) (x : Logged) (t : Str) (hx : ∀ s, x ≠ .text s)
    (h : logFormat rep x = .ok t) : t.length ≤ 1204 := by
  have hc : ∀ close len r, cutColl close len r = .ok t → t.length ≤ 1204 := by
    intro close len r h
    unfold cutColl at h
    split at h
    · cases h
    · cases h
      split
      · simp [maxColl, maxEl, maxStrl]; omega
      · simp only [maxColl, maxEl, maxStrl] at *; omega
  cases x with
  | text s => exact absurd rfl (hx s)
  | list l => exact hc _ _ _ h
  | dict d => exact hc _ _ _ h
  | set l => cases h

/-- A text of 1300 characters. -/
def rpx (_ : Val) : Str := List.replicate 1300 'x'

/-- Of a list whose text is longer the first 1200 characters, three dots and the closing bracket. -/
theorem C235_cut_partial (rep : Val → Str) (l : List Val) (h : l.length < 10) (hr : 1200 ≤ (rep (.list l)).length) :
    ∃ hd tl : Str, rep (.list l) = hd ++ tl ∧ hd.length = 1200 ∧ logFormat rep (.list l) = .ok (hd ++ "...]".toList) := by
  have ht : l.take 10 = l := List.take_of_length_le (by omega)
  refine ⟨(rep (.list l)).take 1200, (rep (.list l)).drop 1200, (List.take_append_drop _ _).symm, by simp; omega, ?_⟩
  simp only [logFormat, cutColl, maxEl, maxStrl, maxColl, ht]
  rw [if_neg (by omega)]
  simp only
  rw [if_pos (by omega)]
  rfl

example : (rpx (.list [.int 1])).length = 1300 ∧
    logFormat rpx (.list [.int 1]) = .ok (List.replicate 1200 'x' ++ "...]".toList) := by decide +kernel

/-- A set is not printed at all. -/
theorem C235_set_violated (rep : Val → Str) (l : List Val) : logFormat rep (.set l) = .error .typeError := rfl

/-- The text of a list of numbers. -/
def rpl : Val → Str
  | .list l => '[' :: (commas (l.map rp) ++ [']'])
  | v => rp v

example : logFormat rpl (.list [.int 1, .int 2]) = .ok "[1, 2]".toList := by decide +kernel
example : logFormat rpl (.list ((List.range 13).map (fun (i : Nat) => Val.int i))) =
    .ok "[0, 1, 2, 3, 4, 5, 6, 7, 8, 9+3...]".toList := by decide +kernel
example : logFormat rpl (.list ((List.range 10).map (fun (i : Nat) => Val.int i))) =
    .ok "[0, 1, 2, 3, 4, 5, 6, 7, 8, 9+0...]".toList := by decide +kernel

end Verif.Show
