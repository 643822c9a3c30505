import Verif.Lemmas.ChainMap
/-
C01-C05: chained mappings and contexts.
-/
set_option linter.unusedSectionVars false

namespace Verif.ChainMap
variable {κ υ : Type} [DecidableEq κ]

/-! ### C01 -/

/-- Lookup returns `v` exactly when the first map having `k` binds it to `v`. -/
theorem C01_lookup_first_hit {c : Chain κ υ} (wf : c.WF) (k : κ) (v : υ) :
    c.getItem k = .ok v ↔ Binds c k v := getItem_ok_iff wf k v

/-- Lookup raises exactly when no map has the key, and then raises `KeyError`. -/
theorem C01_lookup_keyError (c : Chain κ υ) (k : κ) :
    (¬ HasKey c k ↔ c.getItem k = .error .keyError) ∧
    (∀ e, c.getItem k = .error e → e = .keyError) := by
  have h := getItem_total c k
  refine ⟨⟨h.2, fun he hk => ?_⟩, fun e he => ?_⟩
  · obtain ⟨v, hv⟩ := h.1 hk; rw [hv] at he; cases he
  · by_cases hk : HasKey c k
    · obtain ⟨v, hv⟩ := h.1 hk; rw [hv] at he; cases he
    · rw [h.2 hk] at he; cases he; rfl

/-- Membership agrees with lookup. -/
theorem C01_contains_iff_lookup (c : Chain κ υ) (k : κ) :
    (c.contains k = true ↔ HasKey c k) ∧ (c.contains k = true ↔ ∃ v, c.getItem k = .ok v) := by
  have h := getItem_total c k
  refine ⟨contains_iff c k, (contains_iff c k).trans ⟨h.1, ?_⟩⟩
  rintro ⟨v, hv⟩
  exact Classical.byContradiction fun hk => by rw [h.2 hk] at hv; cases hv

/-- A three-level chain with shadowing at two levels. -/
def exChain : Chain Nat String :=
  .chain [.dict [], .chain [.dict [(1, "inner")], .dict [(2, "x")]], .dict [(1, "outer"), (3, "y")]]

theorem exChain_wf : exChain.WF := by
  refine .chain ?_
  intro m hm
  simp only [List.mem_cons, List.not_mem_nil, or_false] at hm
  rcases hm with rfl | rfl | rfl
  · exact .dict (by decide)
  · refine .chain ?_
    intro m hm
    simp only [List.mem_cons, List.not_mem_nil, or_false] at hm
    rcases hm with rfl | rfl <;> exact .dict (by decide)
  · exact .dict (by decide)

example : exChain.WF ∧ exChain.getItem 1 = .ok "inner" ∧ exChain.getItem 3 = .ok "y"
    ∧ exChain.getItem 4 = .error .keyError := ⟨exChain_wf, rfl, rfl, rfl⟩

/-! ### C02 -/

/-- Iteration yields every visible key once. -/
theorem C02_iter_each_key_once {c : Chain κ υ} (wf : c.WF) :
    c.iter.Nodup ∧ ∀ k, k ∈ c.iter ↔ HasKey c k := ⟨nodup_iter wf, mem_iter c⟩

/-- ... in order of first appearance over the maps from first to last. -/
theorem C02_iter_first_seen_order (ms : List (Chain κ υ)) :
    (Chain.chain ms).iter = (ms.flatMap Chain.iter).eraseDups := by
  rw [Chain.iter, yieldNew_eq, iters_eq, List.filter_eq_self.2 (by simp)]

/-- `len` is the number of keys iterated. -/
theorem C02_len {c : Chain κ υ} (wf : c.WF) : c.len = c.iter.length := len_eq wf

/-- `reversed_keys` yields the same keys, each once, first seen from the last map to the first. -/
theorem C02_reversed_keys {c : Chain κ υ} (wf : c.WF) :
    c.reversedKeys.Perm c.iter ∧
    ∀ ms, c = .chain ms → c.reversedKeys = (ms.reverse.flatMap Chain.reversedKeys).eraseDups := by
  refine ⟨(List.perm_ext_iff_of_nodup (nodup_reversedKeys wf) (nodup_iter wf)).2 fun k => ?_, ?_⟩
  · rw [mem_reversedKeys, mem_iter]
  · rintro ms rfl; rw [Chain.reversedKeys, yieldNew_eq, reversedKeysL_eq, List.filter_eq_self.2 (by simp)]

/-- `.merged` never fails and is a dictionary with exactly the chain's bindings, whatever the
iteration order of the sets it uses. -/
theorem C02_merged (ord : List κ → List κ) (hord : ∀ l, (ord l).Perm l)
    {c : Chain κ υ} (wf : c.WF) :
    ∃ d, c.merged ord = .ok d ∧ d.keys.Nodup ∧ (∀ k v, (k, v) ∈ d ↔ Binds c k v) ∧
      d.keys.Perm c.iter := by
  have fin : ∀ d : AList κ υ, d.WF → (∀ k v, d.get? k = some v ↔ c.getItem k = .ok v) →
      d.keys.Nodup ∧ (∀ k v, (k, v) ∈ d ↔ Binds c k v) ∧ d.keys.Perm c.iter := by
    intro d hd h
    refine ⟨hd, fun k v => by rw [← AList.get?_iff_mem hd, h, getItem_ok_iff wf],
      (List.perm_ext_iff_of_nodup hd (nodup_iter wf)).2 fun k => ?_⟩
    rw [mem_iter, ← AList.get?_isSome, Option.isSome_iff_exists]
    constructor
    · rintro ⟨v, hv⟩; rw [h] at hv; exact binds_hasKey ((getItem_ok_iff wf k v).1 hv)
    · intro hk; obtain ⟨v, hv⟩ := (getItem_total c k).1 hk; exact ⟨v, (h k v).2 hv⟩
  cases c with
  | dict d =>
    have hd : d.WF := by cases wf; assumption
    refine ⟨d, rfl, fin d hd fun k v => ?_⟩
    rw [Chain.getItem]; cases d.get? k <;> simp
  | chain ms =>
    obtain ⟨d, h1, h2, h3⟩ := merge_spec ord hord ms [] AList.wf_nil
    refine ⟨d, h1, fin d h2 fun k v => ?_⟩
    rw [h3]; simp [AList.get?, AList.keys, Chain.getItem]

example : exChain.iter = [1, 2, 3] ∧ exChain.len = 3 ∧ exChain.reversedKeys = [1, 3, 2] ∧
    exChain.merged List.reverse = .ok [(2, "x"), (1, "inner"), (3, "y")] := by decide +kernel

/-! ### C03 -/

/-- The flat list of plain dictionaries, first hit wins, resolves every key as the nested chain. -/
theorem C03_flattened_same_lookup (c : Chain κ υ) (k : κ) :
    (Chain.chain (c.flattened.map .dict)).getItem k = c.getItem k := by
  rw [Chain.getItem, flattened_getItems]

/-- ... and binds exactly the same values in the sense of the specification. -/
theorem C03_flattened_same_bindings {c : Chain κ υ} (wf : c.WF)
    (wf' : ∀ d ∈ c.flattened, d.keys.Nodup) (k : κ) (v : υ) :
    Binds (.chain (c.flattened.map .dict)) k v ↔ Binds c k v := by
  rw [← getItem_ok_iff wf, ← getItem_ok_iff, C03_flattened_same_lookup]
  refine .chain fun m hm => ?_
  obtain ⟨d, hd, rfl⟩ := List.mem_map.1 hm; exact .dict (wf' d hd)

example : exChain.flattened = [[], [(1, "inner")], [(2, "x")], [(1, "outer"), (3, "y")]] := rfl

/-! ### C82: the flattened view of a context that is extended later -/

/-- The full statement: reading the flattened view of a context, then prepending a map, then reading
it again gives a view that resolves every key as the context does. -/
def FlattenedStaysCurrent (κ υ : Type) [DecidableEq κ] : Prop :=
  ∀ (c : Ctx κ υ) (m : Chain κ υ) (k : κ),
    let c' := c.flattened.2.prepend m
    Chain.getItems (c'.flattened.1.map .dict) k = c'.getItem k

/-- The code memoises the view for ever: a map prepended after the first read is not seen. -/
theorem C82_flattened_stays_current_violated : ¬ FlattenedStaysCurrent Nat Nat := by
  intro h
  have := h ⟨[], none⟩ (.dict [(0, 7)]) 0
  revert this; decide

/-- What holds: until the view is first read, prepends and appends in any number are all seen. -/
theorem C82_flattened_current_before_first_read_partial (c : Ctx κ υ) (hc : c.flat = none)
    (pre app : List (Chain κ υ)) (k : κ) :
    let c' := app.foldl Ctx.append (pre.foldl Ctx.prepend c)
    Chain.getItems (c'.flattened.1.map .dict) k = c'.getItem k := by
  intro c'
  have h1 : c'.flat = none := by
    have hp : ∀ (l : List (Chain κ υ)) (c : Ctx κ υ), (l.foldl Ctx.prepend c).flat = c.flat := by
      intro l; induction l with
      | nil => intro c; rfl
      | cons a l ih => intro c; rw [List.foldl_cons, ih]; rfl
    have ha : ∀ (l : List (Chain κ υ)) (c : Ctx κ υ), (l.foldl Ctx.append c).flat = c.flat := by
      intro l; induction l with
      | nil => intro c; rfl
      | cons a l ih => intro c; rw [List.foldl_cons, ih]; rfl
    rw [ha, hp, hc]
  have := flattened_getItems (.chain c'.maps) k
  rw [Chain.flattened, Chain.getItem] at this
  simp only [Ctx.flattened, h1, this, Ctx.getItem]

/-! ### C04 -/

/-- Looking a name up in a child: `local`, then `parents` in order, then the context itself. -/
theorem C04_child_scoping (c : Ctx κ υ) (ps : List (Chain κ υ)) (loc : AList κ υ)
    (wf : (Chain.chain (.dict loc :: ps ++ [.chain c.maps])).WF) (k : κ) (v : υ) :
    (c.createChild ps loc).getItem k = .ok v ↔
      Binds (.chain (.dict loc :: ps ++ [.chain c.maps])) k v := by
  rw [createChild_getItem, getItem_ok_iff wf]

/-- The three cases spelled out. -/
theorem C04_child_cases (c : Ctx κ υ) (ps : List (Chain κ υ)) (loc : AList κ υ) (k : κ) :
    (∀ v, loc.get? k = some v → (c.createChild ps loc).getItem k = .ok v) ∧
    (k ∉ loc.keys → ∀ v, (Chain.chain ps).getItem k = .ok v →
      (c.createChild ps loc).getItem k = .ok v) ∧
    (k ∉ loc.keys → ¬ HasKey (.chain ps) k → (c.createChild ps loc).getItem k = c.getItem k) := by
  have h := createChild_getItem c ps loc k
  have hn := AList.get?_eq_none (d := loc) (k := k)
  rw [Chain.getItem, List.cons_append, Chain.getItems, Chain.getItem, getItems_append] at h
  refine ⟨fun v hv => by rw [h, hv], fun hk v hv => ?_, fun hk hp => ?_⟩
  · rw [h, hn.2 hk]; rw [Chain.getItem] at hv; simp [hv]
  · have := (getItem_total (.chain ps) k).2 hp
    rw [Chain.getItem] at this
    rw [h, hn.2 hk, this]
    simp only [Chain.getItems, Chain.getItem, Ctx.getItem]
    cases he : Chain.getItems c.maps k with
    | ok v => rfl
    | error e => rw [getItems_error _ _ he]

/-- With no arguments `create_child` returns the very same context. -/
theorem C04_child_no_args (c : Ctx κ υ) : c.createChild [] [] = c := rfl

/-- Nested children, any number of levels: innermost wins. -/
theorem C04_nested_children (c : Ctx κ υ) (layers : List (List (Chain κ υ) × AList κ υ)) (k : κ) :
    (layers.foldl (fun c l => c.createChild l.1 l.2) c).getItem k =
      (Chain.chain (layers.reverse.map (fun l => .chain (.dict l.2 :: l.1)) ++ [.chain c.maps])).getItem k := by
  induction layers generalizing c with
  | nil =>
    simp only [List.foldl_nil, List.reverse_nil, List.map_nil, List.nil_append, Chain.getItem,
      Chain.getItems, Ctx.getItem]
    cases he : Chain.getItems c.maps k with
    | ok v => rfl
    | error e => rw [getItems_error _ _ he]
  | cons l layers ih =>
    rw [List.foldl_cons, ih, Chain.getItem, Chain.getItem, getItems_append, List.reverse_cons,
      List.map_append, List.append_assoc, getItems_append]
    have h := createChild_getItem c l.1 l.2 k
    rw [Ctx.getItem] at h
    simp only [List.map_cons, List.map_nil, Chain.getItems, Chain.getItem, h, List.cons_append,
      List.nil_append]
    cases Chain.getItems (layers.reverse.map fun l => .chain (.dict l.2 :: l.1)) k with
    | ok v => rfl
    | error _ =>
      simp only [getItems_append, Chain.getItems, Chain.getItem]
      cases l.2.get? k <;> cases Chain.getItems l.1 k <;> cases Chain.getItems c.maps k <;> rfl

/-- Creating or altering any other context leaves a context's maps, hence all its answers, as they
were: over any sequence of operations none of which prepends/appends to context `i`. -/
theorem C04_others_isolated (w : List (Ctx κ υ)) (ops : List (Op κ υ)) (i : Nat) (c : Ctx κ υ)
    (hi : w[i]? = some c)
    (hops : ∀ op ∈ ops, (∀ m, op ≠ .prepend i m) ∧ (∀ m, op ≠ .append i m)) :
    (ops.foldl step w)[i]? = some c := by
  induction ops generalizing w with
  | nil => exact hi
  | cons op ops ih =>
    refine ih _ ?_ (fun o ho => hops o (by simp [ho]))
    have hop := hops op (by simp)
    cases op with
    | child j ps loc =>
      simp only [step]; split
      · rw [List.getElem?_append_left]; exact hi; exact (List.getElem?_eq_some_iff.1 hi).1
      · exact hi
    | prepend j m =>
      simp only [step]; split
      · have : j ≠ i := by rintro rfl; exact hop.1 m rfl
        rw [List.getElem?_set_ne this]; exact hi
      · exact hi
    | append j m =>
      simp only [step]; split
      · have : j ≠ i := by rintro rfl; exact hop.2 m rfl
        rw [List.getElem?_set_ne this]; exact hi
      · exact hi

example : (Ctx.createChild (κ := Nat) (υ := String) ⟨[.dict [(1, "a"), (2, "b"), (3, "c")]], none⟩
    [.dict [(2, "p")]] [(1, "l")]).getItem 1 = .ok "l" ∧
    (Ctx.createChild (κ := Nat) (υ := String) ⟨[.dict [(1, "a"), (2, "b"), (3, "c")]], none⟩
    [.dict [(2, "p")]] [(1, "l")]).getItem 2 = .ok "p" ∧
    (Ctx.createChild (κ := Nat) (υ := String) ⟨[.dict [(1, "a"), (2, "b"), (3, "c")]], none⟩
    [.dict [(2, "p")]] [(1, "l")]).getItem 3 = .ok "c" := ⟨rfl, rfl, rfl⟩

/-! ### C05 -/

/-- `some m`: prepend `m`; the other side: append. -/
inductive PA (κ υ : Type) where
  | pre (m : Chain κ υ)
  | app (m : Chain κ υ)

/-- Running one of them. -/
def PA.run (c : Ctx κ υ) : PA κ υ → Ctx κ υ
  | .pre m => c.prepend m
  | .app m => c.append m

/-- The prepended maps, most recent first. -/
def prepended (ops : List (PA κ υ)) : List (Chain κ υ) :=
  ops.reverse.filterMap fun | .pre m => some m | .app _ => none
/-- The appended maps, earliest first. -/
def appended (ops : List (PA κ υ)) : List (Chain κ υ) :=
  ops.filterMap fun | .app m => some m | .pre _ => none

/-- After any history: most recently prepended first, then the original maps, then the appended
ones from earliest to latest. -/
theorem C05_prepend_append (c : Ctx κ υ) (ops : List (PA κ υ)) (k : κ) :
    (ops.foldl PA.run c).getItem k =
      (Chain.chain (prepended ops ++ [.chain c.maps] ++ appended ops)).getItem k := by
  have maps : ∀ c : Ctx κ υ,
      (ops.foldl PA.run c).maps = prepended ops ++ c.maps ++ appended ops := by
    induction ops with
    | nil => simp [prepended, appended]
    | cons op ops ih =>
      intro c
      rw [List.foldl_cons, ih]
      cases op <;> simp [PA.run, Ctx.prepend, Ctx.append, prepended, appended]
  rw [Ctx.getItem, maps, Chain.getItem, List.append_assoc _ [_] _, List.singleton_append,
    getItems_nested]

/-- ... stated with the specification's bindings. -/
theorem C05_prepend_append_binds (c : Ctx κ υ) (ops : List (PA κ υ)) (k : κ) (v : υ)
    (wf : (Chain.chain (prepended ops ++ [.chain c.maps] ++ appended ops)).WF) :
    (ops.foldl PA.run c).getItem k = .ok v ↔
      Binds (.chain (prepended ops ++ [.chain c.maps] ++ appended ops)) k v := by
  rw [C05_prepend_append, getItem_ok_iff wf]

example : ([PA.pre (.dict [(1, "p1")]), .app (.dict [(1, "a"), (2, "a")]),
    .pre (.dict [(1, "p2")])].foldl PA.run
      (⟨[.dict [(0, "o")]], none⟩ : Ctx Nat String)).getItem 1 = .ok "p2" := rfl

end Verif.ChainMap
