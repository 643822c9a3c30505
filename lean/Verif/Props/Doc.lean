import Verif.Lemmas.Doc
/-
C15 paging; C18, C19 paths; C20, C21, C84 key filtering; C22 flattening.
-/
namespace Verif.Doc

/-! ### C15 -/

/-- Pages put end to end are the items; every page but the last is full, the last is not; and the number
of pages. -/
theorem C15_grouper {α} (n : Nat) (hn : 1 ≤ n) (items : List α) :
    (grouper n items).flatten = items ∧
    (∀ i page, i + 1 < (grouper n items).length → (grouper n items)[i]? = some page → page.length = n) ∧
    (∃ last, (grouper n items).getLast? = some last ∧ last.length < n) ∧
    (grouper n items).length = items.length / n + 1 := by
  obtain ⟨h1, h2, h3, h4⟩ := grouperLoop_spec n hn items [] (by simp; omega)
  refine ⟨by simpa [grouper] using h1, ?_, h3, by simpa [grouper] using h4⟩
  intro i page hi hp
  have := h2 i hi
  simp only [grouper] at hp
  simpa [hp] using this

example : grouper 2 [1, 2, 3, 4] = [[1, 2], [3, 4], []] := by decide +kernel

/-! ### C18 -/

/-- The full statement: a path leads to the value reached by following it, `None` if there is none. -/
def DescendantStatement : Prop :=
  ∀ (obj : Val) (ks : List Key), ks ≠ [] →
    (∀ w, Follow obj ks w → getDescendant obj ks = .ok w) ∧
    ((∀ w, ¬ Follow obj ks w) → getDescendant obj ks = .ok .none)

/-- It fails: the path a, b in {a: {}} gives {} instead of None. -/
theorem C18_descendant_violated : ¬ DescendantStatement := by
  intro h
  have := (h (.dict [(['a'], .dict [])]) [.name ['a'], .name ['b']] (by simp)).2 (by
    intro w hw
    obtain ⟨v, hv, ht⟩ := (follow_cons_iff _ _ _ _).1 hw
    have : v = .dict [] := by
      have : getItem (.dict [(['a'], .dict [])]) (.name ['a']) = some (.dict []) := by decide +kernel
      rw [this] at hv; simpa using hv.symm
    subst this
    obtain ⟨v, hv, _⟩ := (follow_cons_iff _ _ _ _).1 ht
    cases hv)
  revert this; decide +kernel

/-- What holds: it never raises on a non-empty path; it returns the value the path leads to; and when
the path leads nowhere the result is `None`, or the value that counts as false on which the path got
stuck. -/
theorem C18_descendant_partial (obj : Val) (ks : List Key) (hne : ks ≠ []) :
    (∀ w, Follow obj ks w → getDescendant obj ks = .ok w) ∧
    ((∀ w, ¬ Follow obj ks w) →
      getDescendant obj ks = .ok .none ∨
      ∃ pre suf w, ks = pre ++ suf ∧ pre ≠ [] ∧ suf ≠ [] ∧ Follow obj pre w ∧ w.truthy = false ∧
        getDescendant obj ks = .ok w) :=
  ⟨fun w h => getDescendant_follow ks hne obj w h, fun h => getDescendant_nofollow ks hne obj h⟩

/-- When no value on the way counts as false, the full statement holds. -/
theorem C18_descendant_truthy_partial (obj : Val) (ks : List Key) (hne : ks ≠ [])
    (htr : ∀ pre suf w, ks = pre ++ suf → pre ≠ [] → suf ≠ [] → Follow obj pre w → w.truthy = true)
    (hno : ∀ w, ¬ Follow obj ks w) : getDescendant obj ks = .ok .none := by
  rcases getDescendant_nofollow ks hne obj hno with h | ⟨pre, suf, w, e, hp, hs, hf, hw, _⟩
  · exact h
  · rw [htr pre suf w e hp hs hf] at hw; cases hw

/-- The path is empty only for an empty list of keys, which is refused. -/
theorem C18_empty_path (obj : Val) : getDescendant obj [] = .error .indexError := rfl

example : getDescendant (.dict [(['a'], .list [.int 1, .dict [(['b'], .int 7)]])])
    [.name ['a'], .index (-1), .name ['b']] = .ok (.int 7) := by decide +kernel

/-! ### C19 -/

/-- A dotted path is the list of its names. -/
theorem C19_dotted_partial (obj : Val) (names : List Str) (hne : names ≠ [])
    (h : ∀ n ∈ names, '.' ∉ n ∧ '[' ∉ n ∧ ']' ∉ n) :
    getDescendantPath obj (joinWith ['.'] names) = getDescendant obj (names.map Key.name) := by
  have : splitPath (joinWith ['.'] names) = names.map Key.name := by
    rw [splitPath, splitOn_joinWith names hne (fun n hn => (h n hn).1)]
    clear hne
    induction names with
    | nil => rfl
    | cons n ns ih =>
      rw [List.flatMap_cons, ih (fun m hm => h m (by simp [hm])), List.map_cons]
      have h1 := h n (by simp)
      rw [splitOn_of_notMem h1.2.1, List.map_singleton, strip_of_notMem]
      · rfl
      · intro c hc
        simp only [Bool.or_eq_false_iff, beq_eq_false_iff_ne, ne_eq]
        exact ⟨fun e => h1.2.1 (e ▸ hc), fun e => h1.2.2 (e ▸ hc)⟩
  rw [getDescendantPath, this]

/-- The full statement for an index in a path: 'a[2]' is the key a, then the index 2. -/
def IndexedPath : Prop :=
  ∀ (obj : Val) (name digits : Str) (n : Nat), '.' ∉ name ∧ '[' ∉ name ∧ ']' ∉ name →
    digits = (Nat.repr n).toList →
    getDescendantPath obj (name ++ ['['] ++ digits ++ [']']) =
      getDescendant obj [.name name, .index n]

/-- It fails: 'a[0]' in {a: [7]} gives None, since the index stays a string. -/
theorem C19_indexed_violated : ¬ IndexedPath := by
  intro h
  have := h (.dict [(['a'], .list [.int 7])]) ['a'] ['0'] 0 (by decide) (by decide +kernel)
  revert this; decide +kernel

/-- Whatever the path string, no key of it is an index: an element of a list is never reached. -/
theorem C19_no_index_partial (path : Str) : ∀ k ∈ splitPath path, ∃ s, k = Key.name s := by
  intro k hk
  simp only [splitPath, List.mem_flatMap, List.mem_map] at hk
  obtain ⟨_, _, _, _, rfl⟩ := hk
  exact ⟨_, rfl⟩

example : getDescendantPath (.dict [(['a'], .dict [(['b'], .int 7)])]) ['a', '.', 'b'] = .ok (.int 7) := by
  decide +kernel

/-! ### C20 -/

/-- Excluding keys: exactly the other entries, in order, in a copy; the argument is untouched. -/
theorem C20_but (d : List (Str × Val)) (hd : (d.map Prod.fst).Nodup) (but : List Str) (hb : but ≠ [])
    (recursive : Bool) :
    filterCollection (.dict d) [] but recursive =
      .ok ⟨.dict d, .dict (d.filter (fun kv => decide (kv.1 ∉ but))), false⟩ := by
  have hb' : but.isEmpty = false := by simpa using hb
  simp only [filterCollection, List.isEmpty_nil, hb', Bool.and_false, Bool.false_eq_true, if_false,
    if_true, filterKeys]
  rw [foldl_erase _ _ hd]
  congr 3
  apply List.filter_congr
  intro kv hkv
  have : kv.1 ∈ d.map Prod.fst := List.mem_map.2 ⟨kv, hkv, rfl⟩
  have hc : AList.contains d kv.1 = true := AList.contains_iff.2 this
  simp [hc]

/-- With nothing to keep or exclude, the argument itself is returned. -/
theorem C20_identity (v : Val) (recursive : Bool) :
    filterCollection v [] [] recursive = .ok ⟨v, v, true⟩ := rfl

/-- The argument is never modified, whatever is asked. -/
theorem C20_argument_untouched (v : Val) (only but : List Str) (recursive : Bool) (out : Filtered)
    (h : filterCollection v only but recursive = .ok out) : out.arg = v := by
  grind [filterCollection]

example : filterCollection (.dict [(['a'], .int 1), (['b'], .int 2)]) [] [['a'], ['z']] false =
    .ok ⟨.dict [(['a'], .int 1), (['b'], .int 2)], .dict [(['b'], .int 2)], false⟩ := by decide +kernel

/-! ### C21 -/

/-- The full statement: exactly the selected keys are kept. -/
def OnlyStatement : Prop :=
  ∀ (d : List (Str × Val)) (only : List Str), (d.map Prod.fst).Nodup → only ≠ [] →
    ∃ out, filterCollection (.dict d) only [] false = .ok out ∧
      out.ret = .dict (d.filter (fun kv => decide (kv.1 ∈ only)))

/-- It fails: selecting `a` in {a: 1, b: 2} keeps both. -/
theorem C21_only_violated : ¬ OnlyStatement := by
  intro h
  obtain ⟨out, h1, h2⟩ := h [(['a'], .int 1), (['b'], .int 2)] [['a']] (by decide) (by decide)
  have : filterCollection (.dict [(['a'], .int 1), (['b'], .int 2)]) [['a']] [] false =
      .ok ⟨.dict [(['a'], .int 1), (['b'], .int 2)], .dict [(['a'], .int 1), (['b'], .int 2)], false⟩ := by
    decide +kernel
  rw [this] at h1; cases h1; revert h2; decide +kernel

/-- What selecting does: nothing, except fail when it is recursive and a selected key is present. -/
theorem C21_only_partial (d : List (Str × Val)) (only : List Str) (ho : only ≠ []) (recursive : Bool) :
    filterCollection (.dict d) only [] recursive =
      if recursive = true ∧ ∃ k ∈ only, k ∈ d.map Prod.fst then .error .typeError
      else .ok ⟨.dict d, .dict d, false⟩ := by
  have ho' : only.isEmpty = false := by simpa using ho
  have hiff : ((only.filter (fun k => AList.contains d k)).isEmpty = false) ↔
      ∃ k ∈ only, k ∈ d.map Prod.fst := by
    rw [← Bool.not_eq_true, List.isEmpty_iff, List.filter_eq_nil_iff]
    simp only [Bool.not_eq_true]
    constructor
    · intro h
      apply Classical.byContradiction
      intro hn
      apply h
      intro k hk
      rw [← Bool.not_eq_true, AList.contains_iff]
      exact fun hm => hn ⟨k, hk, hm⟩
    · rintro ⟨k, hk, hm⟩ h
      have := h k hk
      rw [← Bool.not_eq_true, AList.contains_iff] at this
      exact this hm
  simp only [filterCollection, ho', Bool.false_and, Bool.false_eq_true, if_false, filterKeys,
    List.isEmpty_nil, if_true]
  by_cases hr : recursive = true
  · subst hr
    by_cases hk : ∃ k ∈ only, k ∈ d.map Prod.fst
    · have := hiff.2 hk
      simp only [this, Bool.true_and, Bool.not_false, if_true, hk, and_self]
    · have : (only.filter (fun k => AList.contains d k)).isEmpty = true := by
        cases he : (only.filter (fun k => AList.contains d k)).isEmpty
        · exact absurd (hiff.1 he) hk
        · rfl
      simp only [this, Bool.not_true, Bool.and_false, Bool.false_eq_true, if_false, hk, and_false]
  · simp only [Bool.not_eq_true] at hr; subst hr; simp

example : filterCollection (.dict [(['a'], .dict [])]) [['a']] [] true = .error .typeError := by
  decide +kernel

/-! ### C84 -/

/-- The full statement: keys are excluded in the dictionaries of a list. -/
def ListFilter : Prop :=
  ∀ (l : List Val) (but : List Str), but ≠ [] →
    ∃ out, filterCollection (.list l) [] but false = .ok out

/-- Filtering any non-empty list fails with TypeError. -/
theorem C84_list_violated : ¬ ListFilter := by
  intro h
  obtain ⟨out, ho⟩ := h [.dict [(['a'], .int 1)]] [['a']] (by decide)
  have : filterCollection (.list [.dict [(['a'], .int 1)]]) [] [['a']] false = .error .typeError := by
    decide +kernel
  rw [this] at ho; cases ho

/-- Exactly the empty list is accepted (unless nothing is asked). -/
theorem C84_list_partial (l : List Val) (only but : List Str) (h : only ≠ [] ∨ but ≠ [])
    (recursive : Bool) :
    filterCollection (.list l) only but recursive =
      if l = [] then .ok ⟨.list [], .list [], false⟩ else .error .typeError := by
  cases only <;> cases but <;> cases l <;> simp_all [filterCollection, filterKeys]

example : filterCollection (.list []) [] [['a']] false = .ok ⟨.list [], .list [], false⟩ := by
  decide +kernel

/-! ### C22 -/

/-- The list of leaves is complete, without repetition, whatever the dictionary. -/
theorem C22_leaves_complete (d : List (Str × Val)) (h : Proper (.dict d)) :
    (∀ p v, (p, v) ∈ leaves d ↔ Leaf d p v) ∧ ((leaves d).map Prod.fst).Nodup :=
  ⟨leaves_sound d, leaves_nodup d h⟩

/-- The full statement: one pair per leaf, depth first, named by the joined keys. -/
def FlattenStatement (separator : Str) : Prop :=
  ∀ d : List (Str × Val),
    nestedDictIter separator d = (leaves d).map (fun pv => (joinWith separator pv.1, pv.2))

/-- It holds for the default separator. -/
theorem C22_flatten_default_partial : FlattenStatement ['.'] := by
  intro d
  rw [nested_val (.dict d) d rfl]
  apply List.map_congr_left
  intro pv hpv
  obtain ⟨p, v⟩ := pv
  cases p with
  | nil => rfl
  | cons a p => cases p <;> simp [nameOf, joinWith]

/-- It fails for every other separator: below the second level the default one is used. -/
theorem C22_flatten_separator_violated (separator : Str) (h : separator ≠ ['.']) :
    ¬ FlattenStatement separator := by
  intro hs
  have := hs [([], .dict [([], .dict [([], .none)])])]
  simp only [nestedDictIter, nestedItem, leaves, leavesItem, List.map_cons, List.map_nil, joinWith,
    List.append_nil, List.nil_append, List.cons.injEq, Prod.mk.injEq, and_true] at this
  have h2 := List.append_cancel_left this
  exact h h2.symm

/-- What holds for every separator: the leaves, their order and their values; and the names of the
leaves at most two levels deep. -/
theorem C22_flatten_partial (separator : Str) (d : List (Str × Val)) :
    (nestedDictIter separator d).map Prod.snd = (leaves d).map Prod.snd ∧
    ∀ (i : Nat) (p : List Str) (v : Val), (leaves d)[i]? = some (p, v) → p.length ≤ 2 →
      (nestedDictIter separator d)[i]? = some (joinWith separator p, v) := by
  rw [nested_val (.dict d) d rfl]
  refine ⟨by simp [Function.comp_def], ?_⟩
  intro i p v hi hp
  rw [List.getElem?_map, hi]
  simp only [Option.map_some, Option.some.injEq, Prod.mk.injEq, and_true]
  match p, hp with
  | [], _ => rfl
  | [a], _ => rfl
  | [a, b], _ => simp [nameOf, joinWith]

example : nestedDictIter ['.'] [(['a'], .dict [(['b'], .dict [(['c'], .int 1)]), (['d'], .list [])]),
    (['e'], .dict [])] = [(['a', '.', 'b', '.', 'c'], .int 1), (['a', '.', 'd'], .list [])] := by
  decide +kernel

end Verif.Doc
