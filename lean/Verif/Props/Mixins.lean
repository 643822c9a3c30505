import Verif.Lemmas.Mixins
import Verif.Props.Array
/-
C236-C246: the methods inherited from `collections.abc`.
-/
namespace Verif.Mixins
open Verif.Arr (Arr Cfg exCfg exConv exConv_idem)
open Verif.Arr.Spec (Uniform Idempotent)
open Verif.Mixins.Spec
open Query (pyEq)

/-- The array `['4', 1, '7']` of integers after `insert(1, '4')`, `insert(9, 5)` and `del arr[0]`. -/
def exArr (lz : Bool) : Arr :=
  match Arr.create (exCfg lz) [.str ['4'], .int 1, .str ['7']] with
  | .ok s => Arr.run (exCfg lz) [.ins 1 (.str ['4']), .ins 9 (.int 5), .del 0] s
  | .error _ => { data := [], validated := [], inputs := [] }

def exRaw : List Val := [.str ['4'], .int 1, .str ['7'], .int 5]
def exVals : List Val := [.int 4, .int 1, .int 7, .int 5]

theorem exUniform (lz : Bool) : Uniform (exCfg lz) exConv := fun _ _ => rfl

theorem exReached (lz : Bool) : Reached (exCfg lz) exConv exRaw (exArr lz) := by
  cases h : Arr.create (exCfg lz) [.str ['4'], .int 1, .str ['7']] with
  | error e => cases lz <;> cases h
  | ok s =>
    refine ⟨_, s, [.ins 1 (.str ['4']), .ins 9 (.int 5), .del 0], h, Or.inr (by simp), ?_, by decide +kernel, ?_⟩
    · intro i v hm; simp at hm
    · simp only [exArr, h]

theorem exConverted : Converted exConv exRaw exVals := by unfold Converted; decide +kernel

/-- Integers; the text `b` makes the conversion look at a missing position. -/
def exIdx : Val → Res Val
  | .int n => .ok (.int n)
  | .str ['b'] => .error .indexError
  | _ => .error .conversionError

def exIdxCfg : Cfg :=
  { conv := fun _ => exIdx, prim := fun _ => true, tpl := fun _ => false, lazy := true, okItem := fun _ => none,
    okSelf := fun _ => none }

theorem exIdx_idem : Idempotent exIdx := by
  intro x y h
  unfold exIdx at h
  split at h <;> cases h <;> rfl

theorem lazyReached {cfg : Cfg} {c : Val → Res Val} {data : List Val} {s : Arr} (h : Arr.create cfg data = .ok s) :
    Reached cfg c data s := ⟨data, s, [], h, Or.inr (by simp), (fun i v hm => by simp at hm), rfl, rfl⟩

/-! ### C236 -/

/-- C236, for one item type: iterating over an array gives the conversions of all its items, in order; when there is
an item that cannot be converted, the exception of the first such item comes out. But when this exception is an
IndexError, the iteration ends without exception, with the items before it. -/
theorem C236_iteration_partial (cfg : Cfg) (c : Val → Res Val) (hu : Uniform cfg c) (hid : Idempotent c)
    (raw : List Val) (s : Arr) (h : Reached cfg c raw s) :
    (∀ vs, Converted c raw vs → (items cfg s).1 = .ok vs) ∧
    (∀ good r rest vs e, raw = good ++ r :: rest → Converted c good vs → c r = .error e →
      (items cfg s).1 = if e = .indexError then .ok vs else .error e) := by
  have hr := reached_rel hu hid h
  refine ⟨fun vs hv => (items_rel hu hid hr hv).1, ?_⟩
  intro good r rest vs e hraw hv he
  have := (iterFrom_ok (cfg := cfg) hu hid (r :: rest) good vs 0 s hr (by simpa using hraw)
    (by rw [hraw]; simp) hv (by intro r' rs hrs; cases hrs; exact ⟨e, he⟩)).1
  have hlen : good.length + (r :: rest).length + 1 = s.data.length + 1 := by
    rw [rel_len hr, hraw]; simp
  rw [hlen] at this
  unfold items
  rw [this]
  simp only [he]
  cases e <;> rfl

example : Reached (exCfg true) exConv exRaw (exArr true) ∧ Converted exConv exRaw exVals ∧
    (items (exCfg true) (exArr true)).1 = .ok exVals ∧ (items (exCfg false) (exArr false)).1 = .ok exVals :=
  ⟨exReached true, exConverted, by decide +kernel, by decide +kernel⟩

/-- C236 is violated: the list of the items of an array can be shorter than the array, without an exception. -/
theorem C236_iteration_violated :
    ¬ ∀ (cfg : Cfg) (c : Val → Res Val) (raw : List Val) (s : Arr), Uniform cfg c → Idempotent c →
      Reached cfg c raw s → ∀ vs, (items cfg s).1 = .ok vs → vs.length = s.data.length := by
  intro h
  have := h exIdxCfg exIdx [.int 1, .str ['b'], .int 2] _ (fun _ _ => rfl) exIdx_idem (lazyReached rfl) [.int 1]
    (by decide +kernel)
  revert this
  decide +kernel

/-! ### C237 -/

/-- C237, for one item type and items that can be converted: `x in arr` says whether some converted item equals `x`,
`arr.index(x)` is the number of the first one or raises ValueError, `arr.count(x)` is their number; none of them
changes what the array reads as. -/
theorem C237_search_partial (cfg : Cfg) (c : Val → Res Val) (hu : Uniform cfg c) (hid : Idempotent c)
    (raw vs : List Val) (s : Arr) (h : Reached cfg c raw s) (hv : Converted c raw vs) (x : Val) :
    (contains cfg x s).1 = .ok (vs.any (fun v => pyEq v x)) ∧
    (∀ k, (index cfg x s).1 = .ok k ↔ ∃ v, vs[k]? = some v ∧ pyEq v x = true ∧
      ∀ j, j < k → ∀ w, vs[j]? = some w → pyEq w x = false) ∧
    ((index cfg x s).1 = .error .valueError ↔ vs.any (fun v => pyEq v x) = false) ∧
    (count cfg x s).1 = .ok (vs.countP (fun v => pyEq v x)) ∧
    ReadsAs cfg c raw (contains cfg x s).2 ∧ ReadsAs cfg c raw (index cfg x s).2 ∧
    ReadsAs cfg c raw (count cfg x s).2 := by
  have hr := reached_rel hu hid h
  obtain ⟨h1, h2, h3, h4⟩ := indexFrom_rel (cfg := cfg) hu hid x raw vs 0 s hr (by simp) hv
  rw [← rel_len hr] at h1 h2 h3 h4
  obtain ⟨i1, i2⟩ := items_rel (cfg := cfg) hu hid hr hv
  have hcnt : count cfg x s = (.ok (vs.countP (fun v => pyEq v x)), (items cfg s).2) := by
    unfold count
    cases hi : items cfg s with
    | mk a b => rw [hi] at i1; simp only at i1; subst i1; rfl
  refine ⟨h3, ?_, ?_, by rw [hcnt], rel_reads hu hid h4, rel_reads hu hid h2, by rw [hcnt]; exact rel_reads hu hid i2⟩
  · intro k
    have hidx : (index cfg x s).1 = _ := h1
    rw [hidx]
    cases hf : vs.findIdx? (fun v => pyEq v x) with
    | none =>
      simp only [reduceCtorEq, false_iff]
      rintro ⟨v, hv1, hv2, _⟩
      rw [List.findIdx?_eq_none_iff] at hf
      have := hf v (List.mem_of_getElem? hv1)
      simp [hv2] at this
    | some j =>
      rw [List.findIdx?_eq_some_iff_getElem] at hf
      obtain ⟨hj, hj1, hj2⟩ := hf
      simp only [Nat.zero_add, Except.ok.injEq]
      constructor
      · rintro rfl
        refine ⟨vs[j], List.getElem?_eq_getElem hj, hj1, ?_⟩
        intro i hi w hw
        have := hj2 i hi
        rw [List.getElem?_eq_getElem (by omega)] at hw
        cases hw
        simpa using this
      · rintro ⟨v, hv1, hv2, hv3⟩
        rcases Nat.lt_trichotomy j k with hlt | heq | hgt
        · have := hv3 j hlt vs[j] (List.getElem?_eq_getElem hj)
          rw [hj1] at this; cases this
        · exact heq
        · have := hj2 k hgt
          rw [List.getElem?_eq_getElem (by omega)] at hv1
          cases hv1
          simp [hv2] at this
  · have hidx : (index cfg x s).1 = _ := h1
    rw [hidx]
    cases hf : vs.findIdx? (fun v => pyEq v x) with
    | none =>
      rw [List.findIdx?_eq_none_iff] at hf
      simpa using hf
    | some j =>
      rw [List.findIdx?_eq_some_iff_getElem] at hf
      obtain ⟨hj, hj1, _⟩ := hf
      simp only [reduceCtorEq, false_iff]
      intro hany
      rw [List.any_eq_false] at hany
      exact hany vs[j] (List.getElem_mem hj) hj1

example : (index (exCfg true) (.int 7) (exArr true)).1 = .ok 2 ∧
    (index (exCfg true) (.int 9) (exArr true)).1 = .error .valueError ∧
    (contains (exCfg false) (.bool true) (exArr false)).1 = .ok true ∧
    (count (exCfg false) (.int 5) (exArr false)).1 = .ok 1 := by decide +kernel

/-- C237 is violated: `x in arr` can be false although reading an item of the array gives `x`. -/
theorem C237_search_violated :
    ¬ ∀ (cfg : Cfg) (c : Val → Res Val) (raw : List Val) (s : Arr) (i : Int) (x : Val), Uniform cfg c → Idempotent c →
      Reached cfg c raw s → (Arr.getitem cfg i s).1 = .ok x → (contains cfg x s).1 ≠ .ok false := by
  intro h
  exact h exIdxCfg exIdx [.int 1, .str ['b'], .int 2] _ 2 (.int 2) (fun _ _ => rfl) exIdx_idem (lazyReached rfl)
    (by decide +kernel) (by decide +kernel)

/-! ### C238 -/

/-- C238, for one item type and a class without checks of the whole array: `arr.pop(i)` gives what `arr[i]` gives; the
item is gone, and the others have moved up; when it raises, nothing has changed. -/
theorem C238_pop (cfg : Cfg) (c : Val → Res Val) (hu : Uniform cfg c) (hid : Idempotent c)
    (hs : ∀ s, cfg.okSelf s = none) (raw : List Val) (s : Arr) (h : Reached cfg c raw s) (i : Int) :
    (pop cfg i s).1 = (Arr.getitem cfg i s).1 ∧
    (∀ v, (pop cfg i s).1 = .ok v →
      ReadsAs cfg c (raw.eraseIdx (if i < 0 then i + raw.length else i).toNat) (pop cfg i s).2) ∧
    (∀ e, (pop cfg i s).1 = .error e → ReadsAs cfg c raw (pop cfg i s).2) := by
  have hr := reached_rel hu hid h
  obtain ⟨h1, h2, h3⟩ := pop_rel (cfg := cfg) hu hid hs hr i
  rw [(Arr.getitem_rel (cfg := cfg) hu hid hr i).1]
  refine ⟨h1, ?_, ?_⟩
  · intro v hv
    rw [h1] at hv
    have hin := read_ok_inside hv
    have := rel_reads (cfg := cfg) hu hid (h2 v hv)
    simp only [Arr.Spec.step] at this
    rw [if_pos hin] at this
    exact this
  · intro e he
    rw [h1] at he
    exact rel_reads hu hid (h3 e he)

example : (pop (exCfg true) (-2) (exArr true)).1 = .ok (.int 7) ∧
    (items (exCfg true) (pop (exCfg true) (-2) (exArr true)).2).1 = .ok [.int 4, .int 1, .int 5] ∧
    (pop (exCfg true) 4 (exArr true)).1 = .error .indexError := by decide +kernel

/-- C238 is violated by a class that checks the whole array (`contains`, `anyOf`, ...): when the check refuses what is left
after the deletion, `pop` raises, and the item is gone all the same. -/
theorem C238_refused_violated (cfg : Cfg) (c : Val → Res Val) (hu : Uniform cfg c) (hid : Idempotent c) (raw : List Val)
    (s : Arr) (h : Reached cfg c raw s) (i : Int) (v : Val) (e : Exc) (hv : (Arr.getitem cfg i s).1 = .ok v)
    (he : cfg.okSelf (pop cfg i s).2 = some e) :
    (pop cfg i s).1 = .error e ∧
      ReadsAs cfg c (raw.eraseIdx (if i < 0 then i + raw.length else i).toNat) (pop cfg i s).2 := by
  have hr := reached_rel hu hid h
  obtain ⟨hg1, hg2⟩ := Arr.getitem_rel (cfg := cfg) hu hid hr i
  rw [hv] at hg1
  have hin := read_ok_inside hg1.symm
  have hd2 := Arr.delitem_rel (cfg := cfg) hg2 i
  have hs : (pop cfg i s).2 = (Arr.delitem cfg i (Arr.getitem cfg i s).2).2 ∧
      (∀ x, (Arr.delitem cfg i (Arr.getitem cfg i s).2).1 = .error x → (pop cfg i s).1 = .error x) := by
    unfold pop
    cases hgi : Arr.getitem cfg i s with
    | mk a b =>
      rw [hgi] at hv
      simp only at hv
      subst hv
      simp only [next]
      cases Arr.delitem cfg i b with
      | mk x y => cases x <;> simp
  rw [hs.1] at he ⊢
  refine ⟨hs.2 _ (delitem_refused hg2 i hin he), ?_⟩
  have := rel_reads (cfg := cfg) hu hid hd2
  simp only [Arr.Spec.step] at this
  rw [if_pos hin] at this
  exact this

/-- Integers, at least one of them: `contains: {}`. -/
def exContains : Cfg := { exCfg true with okSelf := fun s => if s.data = [] then some .invalidValue else none }

example : ∃ s, Arr.create exContains [.int 3] = .ok s ∧ (pop exContains 0 s).1 = .error .invalidValue ∧
    (items exContains (pop exContains 0 s).2).1 = .ok [] := ⟨_, rfl, by decide +kernel, by decide +kernel⟩

/-- C238, `remove`, for items that can be converted: the first item equal to `x` is gone, or ValueError is raised. -/
theorem C238_remove (cfg : Cfg) (c : Val → Res Val) (hu : Uniform cfg c) (hid : Idempotent c)
    (hs : ∀ s, cfg.okSelf s = none) (raw vs : List Val) (s : Arr) (h : Reached cfg c raw s) (hv : Converted c raw vs)
    (x : Val) :
    (∀ pre v post, vs = pre ++ v :: post → pyEq v x = true → (∀ w ∈ pre, pyEq w x = false) →
      (remove cfg x s).1 = .ok () ∧ (items cfg (remove cfg x s).2).1 = .ok (pre ++ post)) ∧
    ((∀ w ∈ vs, pyEq w x = false) →
      (remove cfg x s).1 = .error .valueError ∧ (items cfg (remove cfg x s).2).1 = .ok vs) := by
  have hr := reached_rel hu hid h
  obtain ⟨h1, h2, _, _⟩ := indexFrom_rel (cfg := cfg) hu hid x raw vs 0 s hr (by simp) hv
  rw [← rel_len hr] at h1 h2
  have hi1 : (index cfg x s).1 = _ := h1
  have hi2 : Arr.Rel c raw (index cfg x s).2 := h2
  unfold remove
  cases hi : index cfg x s with
  | mk a b =>
    rw [hi] at hi1 hi2
    simp only at hi1 hi2
    constructor
    · intro pre v post hvs hvx hpre
      have hf : vs.findIdx? (fun v => pyEq v x) = some pre.length := by
        rw [List.findIdx?_eq_some_iff_getElem]
        refine ⟨by rw [hvs]; simp, by simp [hvs, hvx], ?_⟩
        intro j hj
        have : vs[j]'(by rw [hvs]; simp; omega) = pre[j] := by
          simp only [hvs]; exact List.getElem_append_left hj
        simp [this, hpre pre[j] (List.getElem_mem hj)]
      rw [hf] at hi1
      simp only [Nat.zero_add] at hi1
      subst hi1
      simp only [next]
      have hlt : pre.length < raw.length := by rw [converted_len hv, hvs]; simp
      have hplace : Arr.Spec.place raw.length (pre.length : Int) = pre.length := by
        unfold Arr.Spec.place; split <;> omega
      have hin : Arr.Spec.inside raw.length (pre.length : Int) := by
        unfold Arr.Spec.inside; rw [hplace]; omega
      have hd1 := delitem_fst (cfg := cfg) hs hi2 (pre.length : Int) hin
      have hd2 := Arr.delitem_rel (cfg := cfg) hi2 (pre.length : Int)
      simp only [Arr.Spec.step] at hd2
      rw [if_pos hin, hplace] at hd2
      refine ⟨hd1, (items_rel hu hid hd2 ?_).1⟩
      have : vs.eraseIdx pre.length = pre ++ post := by
        rw [hvs, List.eraseIdx_append_of_length_le (Nat.le_refl _)]; simp
      rw [← this]
      simp only [Converted, Int.toNat_natCast, Arr.map_eraseIdx'] at hv ⊢
      rw [hv]
    · intro hno
      have hf : vs.findIdx? (fun v => pyEq v x) = none := by
        rw [List.findIdx?_eq_none_iff]; exact hno
      rw [hf] at hi1
      simp only at hi1
      subst hi1
      exact ⟨rfl, (items_rel hu hid hi2 hv).1⟩

example : (remove (exCfg false) (.int 1) (exArr false)).1 = .ok () ∧
    (items (exCfg false) (remove (exCfg false) (.int 1) (exArr false)).2).1 = .ok [.int 4, .int 7, .int 5] ∧
    (remove (exCfg false) (.str ['4']) (exArr false)).1 = .error .valueError := by decide +kernel

/-! ### C239 -/

/-- C239, for one item type and a class without checks of the whole array: `arr.clear()` empties an array whose items
can be converted. If one cannot, the last such item and those before it stay; the exception comes out, unless it is an
IndexError. -/
theorem C239_clear_partial (cfg : Cfg) (c : Val → Res Val) (hu : Uniform cfg c) (hid : Idempotent c)
    (hs : ∀ s, cfg.okSelf s = none) (raw : List Val) (s : Arr) (h : Reached cfg c raw s) :
    (∀ vs, Converted c raw vs → (clear cfg s).1 = .ok () ∧ (clear cfg s).2.data = []) ∧
    (∀ pre r post vs e, raw = pre ++ r :: post → Converted c post vs → c r = .error e →
      (clear cfg s).1 = (if e = .indexError then .ok () else .error e) ∧
      ReadsAs cfg c (pre ++ [r]) (clear cfg s).2) := by
  have hr := reached_rel hu hid h
  constructor
  · intro vs hv
    have := clearLoop_rel (cfg := cfg) hu hid hs [] raw.length raw vs s (s.data.length + 1) rfl (by simpa using hr) hv
      (by rw [rel_len hr]; exact Nat.le_refl _) (by intro q r hq; simp at hq)
    refine ⟨this.1, ?_⟩
    have hl := rel_len this.2
    simpa [clear] using hl
  · intro pre r post vs e hraw hv he
    have := clearLoop_rel (cfg := cfg) hu hid hs (pre ++ [r]) post.length post vs s (s.data.length + 1) rfl
      (by simpa [hraw] using hr) hv (by rw [rel_len hr, hraw]; simp; omega)
      (by
        intro q r' hq
        have := List.append_inj' hq rfl
        simp at this
        exact ⟨e, this.2 ▸ he⟩)
    refine ⟨?_, rel_reads hu hid this.2⟩
    have h1 : (clear cfg s).1 = _ := this.1
    rw [h1]
    simp only [List.getLast?_append, List.getLast?_singleton, Option.some_or, he]
    cases e <;> rfl

example : (clear (exCfg true) (exArr true)) = (.ok (), { data := [], validated := [], inputs := [] }) := by
  decide +kernel

/-- C239 is violated: `clear` can end without exception and leave items. -/
theorem C239_clear_violated :
    ¬ ∀ (cfg : Cfg) (c : Val → Res Val) (raw : List Val) (s : Arr), Uniform cfg c → Idempotent c →
      (∀ s, cfg.okSelf s = none) → Reached cfg c raw s → (clear cfg s).1 = .ok () → (clear cfg s).2.data = [] := by
  intro h
  have := h exIdxCfg exIdx [.int 1, .str ['b'], .int 2] _ (fun _ _ => rfl) exIdx_idem (fun _ => rfl) (lazyReached rfl)
    (by decide +kernel)
  revert this
  decide +kernel

/-! ### C240 -/

/-- C240, for one item type, without lazy loading, for items that can be converted: after `arr.reverse()` the items
are the same in the opposite order. -/
theorem C240_reverse_partial (cfg : Cfg) (c : Val → Res Val) (hu : Uniform cfg c) (hid : Idempotent c)
    (hl : cfg.lazy = false) (raw vs : List Val) (s : Arr) (h : Reached cfg c raw s) (hv : Converted c raw vs) :
    (reverse cfg s).1 = .ok () ∧ (items cfg (reverse cfg s).2).1 = .ok vs.reverse := by
  obtain ⟨raw', s', e, r, c'⟩ := reverse_rel (cfg := cfg) hu hid hl (reached_rel hu hid h) hv
  rw [e]
  exact ⟨rfl, (items_rel hu hid r c').1⟩

example : (items (exCfg false) (reverse (exCfg false) (exArr false)).2).1 =
    .ok [.int 5, .int 7, .int 1, .int 4] := by decide +kernel

/-- C240 is violated with lazy loading: `reverse` changes nothing that is read. -/
theorem C240_reverse_violated :
    ¬ ∀ (cfg : Cfg) (c : Val → Res Val) (raw vs : List Val) (s : Arr), Uniform cfg c → Idempotent c →
      Reached cfg c raw s → Converted c raw vs → (items cfg (reverse cfg s).2).1 = .ok vs.reverse := by
  intro h
  have := h (exCfg true) exConv exRaw exVals (exArr true) (exUniform true) exConv_idem (exReached true) exConverted
  revert this
  decide +kernel

/-! ### C241 -/

/-- C241, what is missing: only values that are themselves lists or texts can be added (array_protocol.py 84). For such
values of the item type, `arr.extend(ws)` adds them all at the end. -/
theorem C241_extend_partial (cfg : Cfg) (c : Val → Res Val) (hu : Uniform cfg c) (hid : Idempotent c)
    (hok : ∀ x, cfg.okItem x = none) (raw : List Val) (s : Arr) (h : Reached cfg c raw s) (ws : List Val)
    (hw : ∀ v ∈ ws, Arr.sequence v = true ∧ ∃ w, c v = .ok w) :
    (extend cfg ws s).1 = .ok () ∧ ReadsAs cfg c (raw ++ ws) (extend cfg ws s).2 := by
  obtain ⟨h1, h2⟩ := extend_rel (cfg := cfg) hu hid hok ws (reached_rel hu hid h) hw
  exact ⟨h1, rel_reads hu hid h2⟩

example : (items (exCfg true) (extend (exCfg true) [.str ['7'], .str ['4']] (exArr true)).2).1 =
    .ok [.int 4, .int 1, .int 7, .int 5, .int 7, .int 4] := by decide +kernel

/-- C241, the other values: the first one is added, InvalidValue is raised, and the rest is not added. -/
theorem C241_extend_stops (cfg : Cfg) (c : Val → Res Val) (hu : Uniform cfg c) (hid : Idempotent c)
    (hok : ∀ x, cfg.okItem x = none) (raw : List Val) (s : Arr) (h : Reached cfg c raw s) (v : Val) (ws : List Val)
    (hq : Arr.sequence v = false) (hv : ∃ w, c v = .ok w) :
    (extend cfg (v :: ws) s).1 = .error .invalidValue ∧ ReadsAs cfg c (raw ++ [v]) (extend cfg (v :: ws) s).2 := by
  have hr := reached_rel hu hid h
  obtain ⟨w, hv⟩ := hv
  have h1 := append_fst (cfg := cfg) hu hid hok hr hv
  have h2 := append_rel (cfg := cfg) hu hid hr v
  simp only [hq] at h1
  unfold extend
  cases ha : Arr.append cfg v s with
  | mk a b =>
    rw [ha] at h1 h2
    simp only [Bool.false_eq_true, if_false] at h1
    subst h1
    exact ⟨rfl, rel_reads hu hid h2⟩

/-- C241 is violated: extending an array of integers by two integers raises, and adds one of them. -/
theorem C241_extend_violated :
    ¬ ∀ (cfg : Cfg) (c : Val → Res Val) (raw : List Val) (s : Arr) (ws : List Val), Uniform cfg c → Idempotent c →
      (∀ x, cfg.okItem x = none) → Reached cfg c raw s → (∀ v ∈ ws, ∃ w, c v = .ok w) →
      ReadsAs cfg c (raw ++ ws) (extend cfg ws s).2 := by
  intro h
  have := (h (exCfg false) exConv exRaw (exArr false) [.int 1, .int 2] (exUniform false) exConv_idem (fun _ => rfl)
    (exReached false) (by intro v hv; simp at hv; rcases hv with rfl | rfl <;> exact ⟨_, rfl⟩)).1
  revert this
  decide +kernel

/-! ### Objects -/

open Verif.Obj (Obj Cls getItem setItem)

/-- Properties `a` (integers, digits allowed) and `b`; other keys are allowed. -/
def exCls : Cls :=
  { props := [['a'], ['b']], conv := fun _ v _ => exConv v }

theorem exPlain : Plain exCls := by constructor <;> intros <;> rfl

def exData : AList Str Val := [(['a'], .str ['4']), (['b'], .none), (['z'], .int 3)]

def exG (_ : Str) (v : Val) : Val := match exConv v with | .ok w => w | .error _ => .none

theorem exConverts : Converts exCls exG exData := by
  refine ⟨?_, fun _ => rfl, fun _ _ => Or.inr rfl⟩
  intro k v ρ hk hv
  have hm := AList.mem_of_get? hk
  simp [exData] at hm
  rcases hm with ⟨_, rfl⟩ | ⟨_, rfl⟩ | ⟨_, rfl⟩
  · exact ⟨rfl, by simp [exG, exConv]⟩
  · exact absurd rfl hv
  · exact ⟨rfl, by simp [exG, exConv]⟩

/-- The instance made from `exData`. -/
def exObj : Obj :=
  { data := [(['a'], .int 4), (['b'], .none), (['z'], .int 3)],
    validated := [(['a'], .int 4), (['b'], .none), (['z'], .int 3)],
    inputs := [(['a'], []), (['b'], []), (['z'], [])] }

theorem exCreated : Obj.create exCls 5 exData = (.ok (), exObj) := by decide +kernel

theorem exHolds : Holds exCls exObj.validated exObj ∧ Recorded exObj := by
  obtain ⟨s, e, h, r, _⟩ := create_holds exPlain (g := exG) (data := exData) (by unfold AList.WF; decide) exConverts 4
  rw [exCreated] at e
  cases e
  exact ⟨h, r⟩

/-- The hypotheses on objects below are met by what creation gives: for a class without computed properties, aliases,
translated names, dependencies or lazy loading, and data whose items can be converted, the instance holds the
conversions, and the inputs of every item are recorded. -/
theorem C242_created (c : Cls) (hp : Plain c) (data : AList Str Val) (g : Str → Val → Val) (hw : data.WF)
    (hg : Converts c g data) (n : Nat) :
    ∃ s, Obj.create c (n + 1) data = (.ok (), s) ∧ Holds c s.validated s ∧ Recorded s ∧
      s.validated.keys = data.keys ∧ ∀ k, s.validated.get? k = (data.get? k).map (g k) :=
  create_holds hp hw hg n

example : Obj.create exCls 5 exData = (.ok (), exObj) := exCreated

/-! ### C242 -/

/-- C242, for a class without computed properties, aliases, translated names, dependencies or lazy loading: `key in obj`
says whether `key` is among the keys over which `obj` iterates, and changes nothing. -/
theorem C242_in_partial (c : Cls) (hp : Plain c) (m : AList Str Val) (s : Obj) (h : Holds c m s) (n : Nat) (k : Str) :
    has c (n + 1) k s = (.ok (decide (k ∈ s.validated.keys)), s) := by
  unfold has
  rw [getItem_holds hp h, h.values]
  cases hk : m.get? k with
  | none =>
    have : k ∉ m.keys := AList.get?_eq_none.1 hk
    simp [this]
  | some v =>
    have : k ∈ m.keys := AList.get?_isSome.1 (by rw [hk]; rfl)
    simp [this]

example : has exCls 5 ['b'] exObj = (.ok true, exObj) ∧ has exCls 5 ['y'] exObj = (.ok false, exObj) := by
  decide +kernel

/-- The class above, loaded lazily. -/
def exLazy : Cls := { exCls with lazy := true }
/-- The class above, `c` being an alias of `a`. -/
def exAlias : Cls := { exCls with aliases := [(['c'], ['a'])] }

/-- C242 is violated: `key in obj` raises the exception of the conversion for a key that is there. -/
theorem C242_in_raises_violated :
    ¬ ∀ (c : Cls) (n : Nat) (data : AList Str Val) (s : Obj) (k : Str), 0 < n → Obj.create c n data = (.ok (), s) →
      k ∈ s.validated.keys → ∃ b, (has c n k s).1 = .ok b := by
  intro h
  obtain ⟨b, hb⟩ := h exLazy 5 [(['a'], .str ['x']), (['b'], .none)] _ ['a'] (by decide) rfl (by decide +kernel)
  have he : (has exLazy 5 ['a'] (Obj.touched [(['a'], .str ['x']), (['b'], .none)])).1 =
      .error .conversionError := by decide +kernel
  have hb' : (has exLazy 5 ['a'] (Obj.touched [(['a'], .str ['x']), (['b'], .none)])).1 = .ok b := hb
  rw [he] at hb'
  cases hb'

/-- C242 is violated: an alias is `in` an object that does not iterate over it. -/
theorem C242_in_alias_violated :
    ¬ ∀ (c : Cls) (n : Nat) (data : AList Str Val) (s : Obj) (k : Str), 0 < n → Obj.create c n data = (.ok (), s) →
      (has c n k s).1 = .ok true → k ∈ s.validated.keys := by
  intro h
  have := h exAlias 5 exData exObj ['c'] (by decide) (by decide +kernel) (by decide +kernel)
  revert this
  decide +kernel

/-! ### C243 -/

/-- C243, for the same classes: `obj.get(key, default)` is the value, if there is one that is not None, and otherwise
the default; nothing changes. -/
theorem C243_get_partial (c : Cls) (hp : Plain c) (m : AList Str Val) (s : Obj) (h : Holds c m s) (n : Nat) (k : Str)
    (d : Val) :
    (∀ v, s.validated.get? k = some v → v ≠ .none → get c (n + 1) k d s = (.ok v, s)) ∧
    (s.validated.get? k = none ∨ s.validated.get? k = some .none → get c (n + 1) k d s = (.ok d, s)) := by
  unfold get
  rw [getItem_holds hp h, h.values]
  constructor
  · intro v hv hne
    rw [hv]
    cases v <;> first | rfl | exact absurd rfl hne
  · rintro (hk | hk) <;> rw [hk]

example : get exCls 5 ['a'] (.int 0) exObj = (.ok (.int 4), exObj) ∧ get exCls 5 ['b'] (.int 0) exObj = (.ok (.int 0), exObj) ∧
    get exCls 5 ['y'] (.int 0) exObj = (.ok (.int 0), exObj) := by decide +kernel

/-- C243 is violated: `obj.get(key, default)` raises when the value cannot be converted. -/
theorem C243_get_violated :
    ¬ ∀ (c : Cls) (n : Nat) (data : AList Str Val) (s : Obj) (k : Str) (d : Val), 0 < n →
      Obj.create c n data = (.ok (), s) → ∃ v, (get c n k d s).1 = .ok v := by
  intro h
  obtain ⟨v, hv⟩ := h exLazy 5 [(['a'], .str ['x']), (['b'], .none)] _ ['a'] (.int 0) (by decide) rfl
  have he : (get exLazy 5 ['a'] (.int 0) (Obj.touched [(['a'], .str ['x']), (['b'], .none)])).1 =
      .error .conversionError := by decide +kernel
  have hv' : (get exLazy 5 ['a'] (.int 0) (Obj.touched [(['a'], .str ['x']), (['b'], .none)])).1 = .ok v := hv
  rw [he] at hv'
  cases hv'

/-! ### C244 -/

/-- C244, for the same classes: `obj.setdefault(key, default)` gives the value of a key that is there, and changes
nothing; for a key that is not there and is not declared, it gives the default, and the object then holds it, the
other entries being the same. -/
theorem C244_setdefault_partial (c : Cls) (hp : Plain c) (m : AList Str Val) (s : Obj) (h : Holds c m s) (n : Nat)
    (k : Str) (d : Val) :
    (∀ v, s.validated.get? k = some v → setdefault c (n + 1) k d s = (.ok v, s)) ∧
    (s.validated.get? k = none → k ∉ c.props → c.additional = true →
      (setdefault c (n + 1) k d s).1 = .ok d ∧
      ∀ x, getItem c (n + 1) x (setdefault c (n + 1) k d s).2 =
        (if x = k then .ok d else (getItem c (n + 1) x s).1, (setdefault c (n + 1) k d s).2)) := by
  have hg := getItem_holds hp h n k
  rw [h.values]
  constructor
  · intro v hv
    rw [hv] at hg
    simp only [setdefault, hg]
  · intro hk hnp ha
    rw [hk] at hg
    obtain ⟨s', e, h'⟩ := setItem_new hp h (n + 1) d hnp ha
    have hs : setdefault c (n + 1) k d s = (.ok d, s') := by simp only [setdefault, hg, e, next]
    rw [hs]
    refine ⟨rfl, fun x => ?_⟩
    rw [getItem_holds hp h', getItem_holds hp h, AList.get?_set]
    by_cases hx : x = k
    · subst hx; simp
    · rw [if_neg (Ne.symm hx), if_neg hx]
      cases m.get? x <;> rfl

example : (setdefault exCls 5 ['y'] (.int 8) exObj).1 = .ok (.int 8) ∧
    (getItem exCls 5 ['y'] (setdefault exCls 5 ['y'] (.int 8) exObj).2).1 = .ok (.int 8) ∧
    setdefault exCls 5 ['a'] (.int 8) exObj = (.ok (.int 4), exObj) := by decide +kernel

/-- C244 is violated: `setdefault` does not give what `get` gives with the same default. A declared property that was
not given is there with the value None: it keeps it. -/
theorem C244_setdefault_violated :
    ¬ ∀ (c : Cls) (n : Nat) (data : AList Str Val) (s : Obj) (k : Str) (d : Val), 0 < n →
      Obj.create c n data = (.ok (), s) → (setdefault c n k d s).1 = (get c n k d s).1 := by
  intro h
  have := h exCls 5 exData exObj ['b'] (.int 8) (by decide) exCreated
  revert this
  decide +kernel

/-! ### C245 -/

/-- C245, for the same classes, when the inputs of every item are recorded: `obj.pop(key)` gives the value and the
key is gone, the other entries being the same; for a missing key it gives the default, or raises KeyError. `popitem`
does it for the first key, and raises KeyError on an empty object. -/
theorem C245_pop_partial (c : Cls) (hp : Plain c) (m : AList Str Val) (s : Obj) (h : Holds c m s) (hr : Recorded s)
    (n : Nat) :
    (∀ k v d, m.get? k = some v → ∃ s', popKey c (n + 1) k d s = (.ok v, s') ∧ Holds c (m.erase k) s' ∧ Recorded s') ∧
    (∀ k, m.get? k = none → popKey c (n + 1) k none s = (.error .keyError, s) ∧
      ∀ d, popKey c (n + 1) k (some d) s = (.ok d, s)) ∧
    (∀ k v m', m = (k, v) :: m' → ∃ s', popitem c (n + 1) s = (.ok (k, v), s') ∧ Holds c m' s' ∧ Recorded s') ∧
    (m = [] → popitem c (n + 1) s = (.error .keyError, s)) := by
  refine ⟨?_, ?_, ?_, ?_⟩
  · intro k v d hk
    have hg := getItem_holds hp h n k
    rw [hk] at hg
    obtain ⟨s', e, h', r'⟩ := delItem_holds hp h hr (k := k) (AList.get?_isSome.1 (by rw [hk]; rfl))
    exact ⟨s', by simp only [popKey, hg, next, e], h', r'⟩
  · intro k hk
    have hg := getItem_holds hp h n k
    rw [hk] at hg
    exact ⟨by simp only [popKey, hg], fun d => by simp only [popKey, hg]⟩
  · rintro k v m' rfl
    exact popitem_holds hp h hr n
  · rintro rfl
    simp only [popitem, h.values]

example : Plain exCls ∧ Holds exCls exObj.validated exObj ∧ Recorded exObj ∧
    (popKey exCls 5 ['z'] none exObj).1 = .ok (.int 3) ∧
    (popKey exCls 5 ['z'] none exObj).2.validated = [(['a'], .int 4), (['b'], .none)] :=
  ⟨exPlain, exHolds.1, exHolds.2, by decide +kernel, by decide +kernel⟩

/-- The object after `obj['y'] = 8`: no inputs are recorded for it. -/
def exSet : Obj := (setItem exCls 5 ['y'] (.int 8) exObj).2

/-- C245 is violated: `obj.pop(key)` raises KeyError for a key that can be read, and removes it half-way: the object
still iterates over it. -/
theorem C245_pop_violated :
    ¬ ∀ (c : Cls) (n : Nat) (data : AList Str Val) (s : Obj) (k x : Str) (w v : Val), 0 < n → Plain c →
      Obj.create c n data = (.ok (), s) → (setItem c n x w s).1 = .ok () →
      (getItem c n k (setItem c n x w s).2).1 = .ok v → (popKey c n k none (setItem c n x w s).2).1 = .ok v := by
  intro h
  have := h exCls 5 exData exObj ['y'] ['y'] (.int 8) (.int 8) (by decide) exPlain exCreated (by decide +kernel)
    (by decide +kernel)
  revert this
  decide +kernel

example : (popKey exCls 5 ['y'] none exSet).1 = .error .keyError ∧
    ['y'] ∈ (popKey exCls 5 ['y'] none exSet).2.validated.keys ∧
    ['y'] ∉ (popKey exCls 5 ['y'] none exSet).2.data.keys := by decide +kernel

/-- C245 is violated: popping an alias raises KeyError although the alias can be read. -/
theorem C245_pop_alias_violated :
    ¬ ∀ (c : Cls) (n : Nat) (data : AList Str Val) (s : Obj) (k : Str) (v : Val), 0 < n →
      Obj.create c n data = (.ok (), s) → (getItem c n k s).1 = .ok v → (popKey c n k none s).1 = .ok v := by
  intro h
  have := h exAlias 5 exData exObj ['c'] (.int 4) (by decide) (by decide +kernel) (by decide +kernel)
  revert this
  decide +kernel

/-! ### C246 -/

/-- C246, for the same classes, when the inputs of every item are recorded: `obj.clear()` leaves no entry. -/
theorem C246_clear_partial (c : Cls) (hp : Plain c) (m : AList Str Val) (s : Obj) (h : Holds c m s) (hr : Recorded s)
    (n : Nat) :
    (wipe c (n + 1) s).1 = .ok () ∧ (wipe c (n + 1) s).2.validated = [] ∧
    ∀ k, getItem c (n + 1) k (wipe c (n + 1) s).2 = (.error .keyError, (wipe c (n + 1) s).2) := by
  obtain ⟨s', e, h'⟩ := wipeLoop_holds hp n m s (s.validated.length + 1) h hr (by rw [h.values]; exact Nat.lt_succ_self _)
  have : wipe c (n + 1) s = (.ok (), s') := e
  rw [this]
  exact ⟨rfl, h'.values, fun k => by rw [getItem_holds hp h']; rfl⟩

example : wipe exCls 5 exObj = (.ok (), { data := [], validated := [], inputs := [] }) := by decide +kernel

/-- C246 is violated: after an assignment of a key that is not declared, `clear` ends without exception and leaves
that key and all that come after it. -/
theorem C246_clear_violated :
    ¬ ∀ (c : Cls) (n : Nat) (data : AList Str Val) (s : Obj) (x : Str) (w : Val), 0 < n → Plain c →
      Obj.create c n data = (.ok (), s) → (setItem c n x w s).1 = .ok () →
      (wipe c n (setItem c n x w s).2).1 = .ok () → (wipe c n (setItem c n x w s).2).2.validated = [] := by
  intro h
  have := h exCls 5 exData exObj ['y'] (.int 8) (by decide) exPlain exCreated (by decide +kernel) (by decide +kernel)
  revert this
  decide +kernel

/-- The class above with `b` required and reached as `b_`. -/
def exRequired : Cls := { exCls with required := [['b']], translation := [(['b', '_'], ['b'])] }

/-- C246, a required property with a translated name: AttributeError is raised, and the keys before it are gone. -/
example : (wipe exRequired 5 exObj).1 = .error .attributeError ∧
    (wipe exRequired 5 exObj).2.validated.keys = [['b'], ['z']] := by decide +kernel

end Verif.Mixins
