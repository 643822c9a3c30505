import Verif.Lemmas.Walk
/-
C247-C252: going through nested collections and the ancestors of schemas.
-/
namespace Verif.Walk

/-! ### C247: each nested item is visited once -/

/-- A function that changes nothing is called for every position below the collection, for each once, for a position
before those below it, in the order of the collection that holds it, with that collection, its key and its depth. -/
theorem C247_each_once (v : Val) (hs : Sound v) :
    ∃ tr : List (List Key × Call),
      (∀ t ∈ tr, CallFor v t.1 t.2) ∧
      (tr.map Prod.fst).Pairwise (fun p q => ¬ q <+: p) ∧
      (∀ p, p ∈ tr.map Prod.fst ↔ p ≠ [] ∧ ∃ x, At v p x) ∧
      (∀ q x, At v q x → below q (tr.map Prod.fst) = (keysOf x).map (q ++ [·])) ∧
      Gives (fun n => walk look n 0 v) (v, tr.map Prod.snd) := by
  obtain ⟨N, tr, h1, h2, h3, h5, h4⟩ := seen v hs 0
  refine ⟨tr, fun t ht => ?_, h2, h3, h5, N, h4⟩
  obtain ⟨q, k, a, b, c, d⟩ := h1 t ht
  exact ⟨q, k, a, b, c, by rw [d, Nat.zero_add]⟩

example : Sound (.dict [(['a'], .list [.int 1, .dict [(['b'], .none)]]), (['c'], .int 2)]) :=
  soundB_sound _ (by decide +kernel)

example : walk look 20 0 (.dict [(['a'], .list [.int 1, .dict [(['b'], .none)]]), (['c'], .int 2)]) =
    .ok (.dict [(['a'], .list [.int 1, .dict [(['b'], .none)]]), (['c'], .int 2)],
      [(.dict [(['a'], .list [.int 1, .dict [(['b'], .none)]]), (['c'], .int 2)], .name ['a'], 0),
       (.list [.int 1, .dict [(['b'], .none)]], .pos 0, 1),
       (.list [.int 1, .dict [(['b'], .none)]], .pos 1, 1),
       (.dict [(['b'], .none)], .name ['b'], 2),
       (.dict [(['a'], .list [.int 1, .dict [(['b'], .none)]]), (['c'], .int 2)], .name ['c'], 0)]) := by
  decide +kernel

/-! ### C248: replacing items -/

/-- Replacing leaves by leaves ends, replaces every leaf once, and changes nothing else. -/
theorem C248_leaves_partial (g : Key → Val → Val) (hg : ∀ k v, Atom v → Atom (g k v)) (v : Val) (hs : Sound v) :
    ∃ w c, Gives (fun n => walk (assign (leafwise g)) n 0 v) (w, c) ∧ SameShape v w ∧
      (∀ q k x, At v (q ++ [k]) x → Atom x → At w (q ++ [k]) (g k x)) ∧
      (∀ p y, At w p y → ∃ x, At v p x) := by
  obtain ⟨w, t⟩ := leaf_exists hg v hs
  obtain ⟨N, c, h⟩ := through_ends (local_assign _) t 0
  exact ⟨w, c, ⟨N, h⟩, leaf_shape t, fun q k x => leaf_values hg q t, fun p y => leaf_back hg p t⟩

/-- A replacement is itself gone through: the result is the one in which items are replaced before what is in them. -/
theorem C248_replacements_partial (h : Key → Val → Res Val) (v w : Val) (t : Through h v w) :
    ∃ c, Gives (fun n => walk (assign h) n 0 v) (w, c) := by
  obtain ⟨N, c, e⟩ := through_ends (local_assign h) t 0
  exact ⟨c, N, e⟩

/-- Putting each item into a list never ends: "func can modify the collection on the fly". -/
theorem C248_endless_violated :
    ∀ n, walk (assign (fun _ v => .ok (.list [v]))) n 0 (.list [.int 1]) = .error .recursionError := by
  have key : ∀ n lv x,
      walk (assign (fun _ v => .ok (.list [v]))) n lv (.list [x]) = .error .recursionError := by
    intro n
    induction n using Nat.strongRecOn with
    | ind n ih =>
      intro lv x
      match n with
      | 0 => rw [walk]
      | 1 => rw [walk, walkList]
      | n + 2 =>
        rw [walk, walkList, if_pos (by simp)]
        have := ih n (by omega) (lv + 1) x
        simp only [assign, List.getElem?_cons_zero, List.set_cons_zero] at this ⊢
        rw [this]
  intro n
  exact key n 0 (.int 1)

example : Gives (fun n => walk (assign (leafwise fun _ _ => .int 7)) n 0
    (.list [.none, .dict [(['a'], .int 1)]]) |>.map Prod.fst) (.list [.int 7, .dict [(['a'], .int 7)]]) := by
  have t : Through (leafwise fun _ _ => .int 7) (.list [.none, .dict [(['a'], .int 1)]])
      (.list [.int 7, .dict [(['a'], .int 7)]]) := by
    refine .list rfl (fun i => if i = 0 then .int 7 else .dict [(['a'], .int 1)]) ?_ ?_
    · intro i a h
      match i, h with
      | 0, h => cases h; rfl
      | 1, h => cases h; rfl
    · intro i b h
      match i, h with
      | 0, h => cases h; exact .atom ⟨by simp, by simp⟩
      | 1, h =>
        cases h
        refine .dict (by simp) rfl (fun _ => .int 7) (fun k a h => ?_) (fun k b h => ?_)
        · simp only [AList.get?] at h
          split at h
          · cases h; rfl
          · cases h
        · simp only [AList.get?] at h
          split at h
          · cases h; exact .atom ⟨by simp, by simp⟩
          · cases h
  obtain ⟨N, c, e⟩ := through_ends (local_assign _) t 0
  exact ⟨N, fun n hn => by simp only [e n hn]; rfl⟩

/-! ### C249: reducing deletes the empty items -/

/-- A dictionary of leaves keeps those that are true, in their order. -/
theorem C249_flat_dict_partial (m : AList Str Val) (nd : (m.map Prod.fst).Nodup) (ha : ∀ p ∈ m, Atom p.2) :
    Gives (fun n => reduceColl n (.dict m)) (.dict (m.filter (fun p => p.2.truthy)), .none) := by
  obtain ⟨N, c, h⟩ := reduce_dict 0 m [] nd ha
  refine ⟨N + 1, fun n hn => ?_⟩
  obtain ⟨n, rfl⟩ : ∃ k, n = k + 1 := ⟨n - 1, by omega⟩
  have := h n (by omega)
  simp only [List.nil_append] at this
  simp only [reduceColl]
  rw [walk, this]

example : reduceColl 9 (.dict [(['a'], .none), (['b'], .int 2), (['c'], .str [])]) =
    .ok (.dict [(['b'], .int 2)], .none) := by decide +kernel

theorem filled_reduces : ∀ v, Sound v → Filled v → ∀ lv, ∃ w N c, TruePart v w ∧
    ∀ n, N ≤ n → walk doReduce n lv v = .ok (w, c) := by
  have leaf : ∀ v, Atom v → ∀ lv, ∃ w N c, TruePart v w ∧ ∀ n, N ≤ n → walk doReduce n lv v = .ok (w, c) := by
    intro v a lv
    refine ⟨v, 1, [], ⟨fun p x _ _ h => h, fun p d h _ => ?_⟩, fun n hn => ?_⟩
    · cases h with
      | here => exact absurd rfl (a.2 d)
      | list h t => exact absurd rfl (a.1 _)
      | dict h t => exact absurd rfl (a.2 _)
    · obtain ⟨n, rfl⟩ : ∃ k, n = k + 1 := ⟨n - 1, by omega⟩
      exact walk_atom a
  intro v
  induction v using Val.induct with
  | none => exact fun _ _ => leaf _ ⟨by simp, by simp⟩
  | bool b => exact fun _ _ => leaf _ ⟨by simp, by simp⟩
  | int b => exact fun _ _ => leaf _ ⟨by simp, by simp⟩
  | str b => exact fun _ _ => leaf _ ⟨by simp, by simp⟩
  | list l ih => exact fun _ hf => absurd (At.here _) (hf.1 [] l)
  | dict m ih =>
    intro hs hf lv
    have nd : (AList.keys m).Nodup := hs [] m (.here _)
    have down : ∀ p ∈ m, ∀ q x, At p.2 q x → At (.dict m) (.name p.1 :: q) x := fun p hp q x h =>
      .dict (AList.get?_of_mem nd hp) h
    obtain ⟨w, N, c, hk, hq, h⟩ := reduce_entries TruePart lv m [] nd (by
      intro p hp
      have sub := down p hp
      by_cases ht : p.2.truthy = true
      · right
        refine ⟨ht, ?_, ?_⟩
        · match hv : p.2 with
          | .list l => exact absurd (sub [] (.list l) (hv ▸ .here _)) (hf.1 _ _)
          | .dict d =>
            have := hf.2 _ d (by simp) (sub [] (.dict d) (hv ▸ .here _)) (by
              rintro rfl
              rw [hv] at ht
              exact absurd ht (by decide))
            simp only [reduced]
            rw [if_pos (List.any_eq_true.2 this)]
          | .none => rfl
          | .bool _ => rfl
          | .int _ => rfl
          | .str _ => rfl
        · obtain ⟨b, N, c, h1, h2⟩ := ih p hp (fun q d h => hs _ d (sub q _ h))
            ⟨fun q l h => hf.1 _ l (sub q _ h), fun q d _ h => hf.2 _ d (by simp) (sub q _ h)⟩ (lv + 1)
          exact ⟨b, N, c, h1, h2⟩
      · left
        have ht := Bool.eq_false_iff.2 ht
        refine ⟨ht, ?_⟩
        match hv : p.2 with
        | .list l => exact absurd (sub [] (.list l) (hv ▸ .here _)) (hf.1 _ _)
        | .dict [] => rfl
        | .dict (e :: d) => rw [hv] at ht; cases ht
        | .none => rfl
        | .bool b => rw [hv] at ht; exact ht
        | .int b => rw [hv] at ht; exact ht
        | .str b => rw [hv] at ht; exact ht)
    have ndw : (AList.keys w).Nodup := by
      simp only [AList.keys]
      rw [hk]
      exact List.Nodup.sublist (List.Sublist.map _ List.filter_sublist) nd
    have found : ∀ k a, AList.get? m k = some a → a.truthy = true → ∃ b, AList.get? w k = some b ∧ TruePart a b := by
      intro k a ha ht
      have hmem : k ∈ w.map Prod.fst := by
        rw [hk]
        exact List.mem_map.2 ⟨(k, a), List.mem_filter.2 ⟨AList.mem_of_get? ha, ht⟩, rfl⟩
      obtain ⟨q, hqw, rfl⟩ := List.mem_map.1 hmem
      obtain ⟨a', h1, h2⟩ := hq q hqw
      have := AList.get?_of_mem nd h1
      rw [ha] at this
      cases this
      exact ⟨q.2, AList.get?_of_mem ndw hqw, h2⟩
    refine ⟨.dict w, N + 1, c, ⟨fun p x ax hx h => ?_, fun p d h hd => ?_⟩, fun n hn => ?_⟩
    · cases h with
      | here => exact absurd rfl (ax.2 m)
      | @dict _ k a q _ hg t =>
        have hxt : x.truthy = true := hx.resolve_left (by simp)
        have ht : a.truthy = true := by
          cases t with
          | here => exact hxt
          | @list l _ _ _ _ _ _ => exact absurd (At.dict hg (.here _)) (hf.1 _ l)
          | @dict d' _ _ _ _ hg' _ =>
            cases d' with
            | nil => cases hg'
            | cons => rfl
        obtain ⟨b, hb, tp⟩ := found k a hg ht
        exact .dict hb (tp.1 q x ax (.inr hxt) t)
    · cases h with
      | here => exact ⟨w, .here _, hk⟩
      | @dict _ k a q _ hg t =>
        have hne : d ≠ [] := hd.resolve_left (by simp)
        have ht : a.truthy = true := by
          cases t with
          | here =>
            cases d with
            | nil => exact absurd rfl hne
            | cons => rfl
          | @list l _ _ _ _ _ _ => exact absurd (At.dict hg (.here _)) (hf.1 _ l)
          | @dict d' _ _ _ _ hg' _ =>
            cases d' with
            | nil => cases hg'
            | cons => rfl
        obtain ⟨b, hb, tp⟩ := found k a hg ht
        obtain ⟨d', h1, h2⟩ := tp.2 q d t (.inr hne)
        exact ⟨d', .dict hb h1, h2⟩
    · obtain ⟨n, rfl⟩ : ∃ k, n = k + 1 := ⟨n - 1, by omega⟩
      have := h n (by omega)
      simp only [List.nil_append] at this
      rw [walk, this]

/-- Mappings in mappings keep their true entries, at any depth, when no mapping below the first has only false ones. -/
theorem C249_nested_partial (m : AList Str Val) (hs : Sound (.dict m)) (hf : Filled (.dict m)) :
    ∃ w, Gives (fun n => reduceColl n (.dict m)) (w, .none) ∧ TruePart (.dict m) w := by
  obtain ⟨w, N, c, h1, h2⟩ := filled_reduces _ hs hf 0
  refine ⟨w, ⟨N, fun n hn => ?_⟩, h1⟩
  simp only [reduceColl, h2 n hn]

example : reduceColl 9 (.dict [(['a'], .dict [(['b'], .none), (['c'], .dict [(['d'], .int 1), (['e'], .dict [])])]),
    (['f'], .dict [])]) = .ok (.dict [(['a'], .dict [(['c'], .dict [(['d'], .int 1)])])], .none) := by decide +kernel

example : Sound (.dict [(['a'], .dict [(['b'], .none), (['c'], .int 1)])]) ∧
    Filled (.dict [(['a'], .dict [(['b'], .none), (['c'], .int 1)])]) := by
  have at_ : ∀ p x, At (.dict [(['a'], .dict [(['b'], .none), (['c'], .int 1)])]) p x →
      x = .none ∨ x = .int 1 ∨ x = .dict [(['b'], .none), (['c'], .int 1)] ∨
      p = [] ∧ x = .dict [(['a'], .dict [(['b'], .none), (['c'], .int 1)])] := by
    intro p x h
    cases h with
    | here => simp
    | dict h t =>
      simp only [AList.get?] at h
      split at h <;> cases h
      cases t with
      | here => simp
      | dict h t =>
        simp only [AList.get?] at h
        split at h
        · cases h; cases t; simp
        · split at h <;> cases h
          cases t; simp
  refine ⟨fun p m h => ?_, fun p l h => ?_, fun p d hp h _ => ?_⟩
  · rcases at_ p _ h with e | e | e | ⟨_, e⟩ <;> cases e <;> decide
  · rcases at_ p _ h with e | e | e | ⟨_, e⟩ <;> cases e
  · rcases at_ p _ h with e | e | e | ⟨e', e⟩
    · cases e
    · cases e
    · cases e; exact ⟨_, List.mem_cons_of_mem _ (List.mem_singleton_self _), rfl⟩
    · exact absurd e' hp

/-- A mapping with entries that are all false is not deleted, nor is it a mapping any more: the view of its keys stands
in its place. -/
theorem C249_keys_violated (k : Str) (d : AList Str Val) (hne : d ≠ []) (hf : ∀ e ∈ d, e.2.truthy = false) :
    ∃ x, Gives (fun n => reduceColl n (.dict [(k, .dict d)])) (.dict [(k, x)], .none) ∧ ∀ d', x ≠ .dict d' := by
  have hr : reduced (.dict d) = .int d.length := by
    simp only [reduced]
    rw [if_neg]
    rw [List.any_eq_true]
    rintro ⟨e, he, ht⟩
    rw [hf e he] at ht
    cases ht
  have ht : (Val.int d.length).truthy = true := by
    cases d with
    | nil => exact absurd rfl hne
    | cons e d =>
      simp only [Val.truthy, List.length_cons]
      rw [bne_iff_ne]; omega
  refine ⟨.int d.length, ⟨4, fun n hn => ?_⟩, by simp⟩
  obtain ⟨n, rfl⟩ : ∃ k, n = k + 4 := ⟨n - 4, by omega⟩
  simp only [reduceColl, walk, walkDict, AList.keys, List.map_cons, List.map_nil, doReduce, AList.get?, if_true,
    hr, ht, AList.set]

example : ([(['b'], .none)] : AList Str Val) ≠ [] ∧ ∀ e ∈ ([(['b'], .none)] : AList Str Val), e.2.truthy = false := by
  decide +kernel

/-- A list of leaves loses those that are false, save the ones that come after a deleted one. -/
theorem C249_flat_list_partial (l : List Val) (ha : ∀ v ∈ l, Atom v) :
    Gives (fun n => reduceColl n (.list l)) (.list (skipping l), .none) := by
  obtain ⟨N, c, h⟩ := reduce_list 0 l.length l [] (Nat.le_refl _) ha
  refine ⟨N + 1, fun n hn => ?_⟩
  obtain ⟨n, rfl⟩ : ∃ k, n = k + 1 := ⟨n - 1, by omega⟩
  have := h n (by omega)
  simp only [List.nil_append, List.length_nil] at this
  simp only [reduceColl]
  rw [walk, this]

theorem reduce_entry (a : Val) (ha : Flat a) :
    staying a = none ∧ (reduced a).truthy = false ∨
    ∃ b, staying a = some b ∧ (reduced a).truthy = true ∧
      ∀ lv, ∃ N c, ∀ n, N ≤ n → walk doReduce n lv (reduced a) = .ok (b, c) := by
  have atom : ∀ v, Atom v → ∀ lv, ∃ N c, ∀ n, N ≤ n → walk doReduce n lv v = .ok (v, c) := by
    intro v hv lv
    refine ⟨1, [], fun n hn => ?_⟩
    obtain ⟨n, rfl⟩ : ∃ k, n = k + 1 := ⟨n - 1, by omega⟩
    cases v with
    | list l => exact absurd rfl (hv.1 l)
    | dict m => exact absurd rfl (hv.2 m)
    | _ => rw [walk] <;> simp
  rcases ha with ha | ⟨l, rfl, hl⟩
  · have hr : reduced a = a := by
      cases a with
      | list l => exact absurd rfl (ha.1 l)
      | dict m => exact absurd rfl (ha.2 m)
      | _ => rfl
    have hs : staying a = if a.truthy then some a else none := by
      cases a with
      | list l => exact absurd rfl (ha.1 l)
      | _ => rfl
    rw [hr, hs]
    cases ht : a.truthy with
    | false => exact .inl ⟨rfl, rfl⟩
    | true => exact .inr ⟨a, rfl, rfl, atom a ha⟩
  · match l, hl with
    | [], _ => exact .inl ⟨rfl, rfl⟩
    | [x], hl =>
      simp only [staying, reduced, single]
      cases ht : x.truthy with
      | false => exact .inl ⟨rfl, rfl⟩
      | true => exact .inr ⟨x, rfl, rfl, atom x (hl x (by simp))⟩
    | x :: y :: l, hl =>
      refine .inr ⟨.list (skipping (x :: y :: l)), rfl, rfl, fun lv => ?_⟩
      obtain ⟨N, c, h⟩ := reduce_list lv (x :: y :: l).length (x :: y :: l) [] (Nat.le_refl _) hl
      refine ⟨N + 1, c, fun n hn => ?_⟩
      obtain ⟨n, rfl⟩ : ∃ k, n = k + 1 := ⟨n - 1, by omega⟩
      have := h n (by omega)
      simp only [List.nil_append, List.length_nil] at this
      simp only [reduced, single]
      rw [walk, this]

theorem reduce_flat_entries (lv : Nat) (r : AList Str Val) : ∀ d : AList Str Val, ((d ++ r).map Prod.fst).Nodup →
    (∀ p ∈ r, Flat p.2) → ∃ N c, ∀ n, N ≤ n → walkDict doReduce n lv (AList.keys r) (d ++ r)
      = .ok (d ++ r.filterMap (fun p => (staying p.2).map (fun b => (p.1, b))), c) := by
  induction r with
  | nil =>
    intro d _ _
    refine ⟨1, [], fun n hn => ?_⟩
    obtain ⟨n, rfl⟩ : ∃ k, n = k + 1 := ⟨n - 1, by omega⟩
    rw [AList.keys_nil, walkDict]
    simp
  | cons p r ih =>
    obtain ⟨k, a⟩ := p
    intro d hn ha
    have hnd : k ∉ AList.keys d := by
      simp only [AList.keys, List.map_append, List.map_cons, List.nodup_append] at hn ⊢
      exact fun hm => hn.2.2 k hm k (by simp) rfl
    rcases reduce_entry a (ha (k, a) (by simp)) with ⟨hs, hr⟩ | ⟨b, hs, ht, hw⟩
    · obtain ⟨N, c, h⟩ := ih d (by
          simp only [List.map_append, List.map_cons, List.nodup_append, List.nodup_cons] at hn ⊢
          exact ⟨hn.1, hn.2.1.2, fun x hx y hy => hn.2.2 x hx y (List.mem_cons_of_mem _ hy)⟩)
        (fun p hp => ha p (List.mem_cons_of_mem _ hp))
      have hgr : AList.get? (d ++ r) k = none := by
        rw [AList.get?_eq_none]
        simp only [List.map_append, List.map_cons, List.nodup_append, List.nodup_cons] at hn
        simp only [AList.keys, List.map_append, List.mem_append, not_or]
        exact ⟨hnd, hn.2.1.1⟩
      refine ⟨N + 1, (.dict (d ++ (k, a) :: r), .name k, lv) :: c, fun n hn' => ?_⟩
      obtain ⟨n, rfl⟩ : ∃ k, n = k + 1 := ⟨n - 1, by omega⟩
      have h' := h n (by omega)
      rw [AList.keys_cons, walkDict]
      simp only [doReduce, get_mid hnd, hr, erase_mid hn]
      simp only [Bool.false_eq_true, if_false, hgr]
      simp only [doReduce] at h'
      rw [h']
      simp [hs]
    · obtain ⟨N1, c1, hw⟩ := hw (lv + 1)
      obtain ⟨N, c, h⟩ := ih (d ++ [(k, b)])
        (by simpa [AList.keys] using hn) (fun p hp => ha p (List.mem_cons_of_mem _ hp))
      refine ⟨max N N1 + 1, (.dict (d ++ (k, a) :: r), .name k, lv) :: (c1 ++ c), fun n hn' => ?_⟩
      obtain ⟨n, rfl⟩ : ∃ k, n = k + 1 := ⟨n - 1, by omega⟩
      have h' := h n (by omega)
      have hw' := hw n (by omega)
      rw [List.append_assoc, List.append_assoc, List.singleton_append, List.singleton_append] at h'
      rw [AList.keys_cons, walkDict]
      simp only [doReduce, get_mid hnd, ht, if_true, set_mid hnd] at h' hw' ⊢
      rw [hw']
      simp only [set_mid hnd]
      rw [h']
      simp [hs]

/-- In a dictionary of leaves and lists of leaves, false leaves and empty lists go, a list of one leaf is replaced by the
leaf if that is true and goes otherwise, and the others are reduced in their place. -/
theorem C249_lists_partial (m : AList Str Val) (nd : (m.map Prod.fst).Nodup) (ha : ∀ p ∈ m, Flat p.2) :
    Gives (fun n => reduceColl n (.dict m))
      (.dict (m.filterMap (fun p => (staying p.2).map (fun b => (p.1, b)))), .none) := by
  obtain ⟨N, c, h⟩ := reduce_flat_entries 0 m [] nd ha
  refine ⟨N + 1, fun n hn => ?_⟩
  obtain ⟨n, rfl⟩ : ∃ k, n = k + 1 := ⟨n - 1, by omega⟩
  have := h n (by omega)
  simp only [List.nil_append] at this
  simp only [reduceColl]
  rw [walk, this]

/-- A dictionary of leaves, an empty list, lists of one leaf and one of three. -/
def leavesAndLists : AList Str Val := [(['a'], .list []), (['b'], .list [.int 1]), (['c'], .list [.none]), (['d'], .none),
  (['e'], .list [.none, .int 2, .none]), (['f'], .str ['x'])]

example : (leavesAndLists.map Prod.fst).Nodup ∧ (∀ p ∈ leavesAndLists, Flat p.2)
    ∧ reduceColl 20 (.dict leavesAndLists)
      = .ok (.dict [(['b'], .int 1), (['e'], .list [.int 2]), (['f'], .str ['x'])], .none) := by
  refine ⟨by decide +kernel, ?_, by decide +kernel⟩
  intro p hp
  simp only [leavesAndLists, List.mem_cons, List.not_mem_nil, or_false] at hp
  rcases hp with rfl | rfl | rfl | rfl | rfl | rfl <;> simp [Flat, Atom]

/-- An empty item stays in `[None, None, 1]`. -/
theorem C249_empty_stays_violated :
    Gives (fun n => reduceColl n (.list [.none, .none, .int 1])) (.list [.none, .int 1], .none) :=
  C249_flat_list_partial [.none, .none, .int 1] (by
    intro v hv
    simp only [List.mem_cons, List.not_mem_nil, or_false] at hv
    rcases hv with rfl | rfl | rfl <;> exact ⟨by simp, by simp⟩)

/-- Numbers and truth values that are not empty go: `{'port': 0, 'debug': False}`. -/
theorem C249_zero_lost_violated :
    Gives (fun n => reduceColl n (.dict [(['p'], .int 0), (['d'], .bool false)])) (.dict [], .none) :=
  C249_flat_dict_partial [(['p'], .int 0), (['d'], .bool false)] (by decide) (by
    intro p hp
    simp only [List.mem_cons, List.not_mem_nil, or_false] at hp
    rcases hp with rfl | rfl <;> exact ⟨by simp, by simp⟩)

/-- Nothing is returned, whatever the collection. -/
theorem C249_returns_nothing_violated (n : Nat) (v : Val) (r : Val × Val) (h : reduceColl n v = .ok r) :
    r.2 = .none := by
  simp only [reduceColl] at h
  split at h
  · cases h
  · cases h; rfl

/-- A list of one list of one item needs a second pass. -/
theorem C249_twice_violated :
    reduceColl 9 (.dict [(['a'], .list [.list [.int 1]])]) = .ok (.dict [(['a'], .list [.int 1])], .none) ∧
    reduceColl 9 (.dict [(['a'], .list [.int 1])]) = .ok (.dict [(['a'], .int 1)], .none) := by
  decide +kernel

/-! ### C250: references are scoped -/

/-- `$ref` texts in dictionaries that are items of dictionaries are scoped once; all else is as it was. -/
theorem C250_scoped_partial (base : Str) (v : Val) (hs : Sound v)
    (hr : ∀ p r, RefPlace p → At v p r → Scopable r) :
    ∃ w, Gives (fun n => scopeRefs base n v) w ∧ SameShape v w ∧
      (∀ p s, RefPlace p → At v p (.str s) → At w p (.str (Uri.scope s base))) ∧
      (∀ p x, ¬ RefPlace p → Atom x → At v p x → At w p x) := by
  obtain ⟨w, t⟩ := scope_exists base v hs hr
  obtain ⟨N, c, h⟩ := through_ends (local_scope base) t 0
  refine ⟨w, ⟨N, fun n hn => ?_⟩, scope_shape t, fun p s hp ha => (scope_values base p t).2 s ha hp,
    fun p x hp hx ha => (scope_values base p t).1 x ha hx hp⟩
  simp only [scopeRefs, h n hn]

example : scopeRefs "http://a/b".toList 20
    (.dict [("properties".toList, .dict [(['x'], .dict [(refKey, .str "#/y".toList)])])]) =
    .ok (.dict [("properties".toList, .dict [(['x'], .dict [(refKey, .str "http://a/b#/y".toList)])])]) := by
  decide +kernel

/-- `{"p": {"x": {"$ref": "#y"}}}`. -/
def exSchema : Val := .dict [(['p'], .dict [(['x'], .dict [(refKey, .str ['#', 'y'])])])]

theorem exSound : Sound exSchema := soundB_sound _ (by decide +kernel)

example : ∃ w, Gives (fun n => scopeRefs ['b'] n exSchema) w ∧
    At w [.name ['p'], .name ['x'], .name refKey] (.str ['b', '#', 'y']) := by
  have pair : ∀ {k k' : Str} {v u : Val}, AList.get? [(k, v)] k' = some u → k = k' ∧ v = u := by
    intro k k' v u h
    simp only [AList.get?] at h
    split at h
    · rename_i e; cases h; exact ⟨e, rfl⟩
    · cases h
  have all : ∀ p r, At exSchema p r → p.length < 2 ∨ p = [.name ['p'], .name ['x']] ∨ ∃ s, r = .str s := by
    intro p r ha
    unfold exSchema at ha
    cases ha with
    | here => exact .inl (by simp)
    | dict h t =>
      obtain ⟨rfl, rfl⟩ := pair h
      cases t with
      | here => exact .inl (by simp)
      | dict h' t' =>
        obtain ⟨rfl, rfl⟩ := pair h'
        cases t' with
        | here => exact .inr (.inl rfl)
        | dict h'' t'' =>
          obtain ⟨rfl, rfl⟩ := pair h''
          obtain ⟨rfl, rfl⟩ := str_at t''
          exact .inr (.inr ⟨_, rfl⟩)
  obtain ⟨w, h1, _, h3, _⟩ := C250_scoped_partial ['b'] exSchema exSound (by
    rintro p r ⟨q, k, rfl⟩ ha
    rcases all _ _ ha with h | h | h
    · simp at h; omega
    · have := congrArg List.getLast? h
      simp at this
    · exact .inl h)
  exact ⟨w, h1, h3 [.name ['p'], .name ['x'], .name refKey] ['#', 'y'] ⟨[.name ['p']], ['x'], rfl⟩
    (.dict rfl (.dict rfl (.dict rfl (.here _))))⟩

/-- The `$ref` of the schema itself, and those in lists (`allOf`, `items`), stay as they are. -/
theorem C250_lists_violated :
    scopeRefs "http://a/b".toList 20 (.dict [(refKey, .str "#/y".toList)]) =
      .ok (.dict [(refKey, .str "#/y".toList)]) ∧
    scopeRefs "http://a/b".toList 20 (.dict [("allOf".toList, .list [.dict [(refKey, .str "#/y".toList)]])]) =
      .ok (.dict [("allOf".toList, .list [.dict [(refKey, .str "#/y".toList)]])]) := by
  decide +kernel

/-- For any schema: a `$ref` text of a dictionary in a list is not scoped, whatever it is. -/
theorem C250_in_lists_violated (base : Str) (v : Val) (hs : Sound v)
    (hr : ∀ p r, RefPlace p → At v p r → Scopable r) (q : List Key) (i : Nat) (s : Str)
    (h : At v (q ++ [.pos i, .name refKey]) (.str s)) :
    ∃ w, Gives (fun n => scopeRefs base n v) w ∧ At w (q ++ [.pos i, .name refKey]) (.str s) := by
  obtain ⟨w, hw, _, _, h4⟩ := C250_scoped_partial base v hs hr
  refine ⟨w, hw, h4 _ _ ?_ ⟨by simp, by simp⟩ h⟩
  rintro ⟨q', k, e⟩
  have := congrArg List.reverse e
  simp at this

/-! ### C251: the ancestors of a schema -/

/-- The list has each proper ancestor, once. -/
theorem C251_ancestors_partial (ext : Str → List Str) (n : Nat) (id : Str) (l : List Str)
    (h : schemaMro ext n id = .ok l) : l.Nodup ∧ ∀ j, j ∈ l ↔ Ancestor ext id j := by
  simp only [schemaMro] at h
  cases ha : ancestors ext n id with
  | error e => rw [ha] at h; cases h
  | ok a =>
    rw [ha] at h
    cases h
    obtain ⟨h1, h2, _⟩ := firsts_spec a []
    refine ⟨h1, fun j => ?_⟩
    rw [h2 j, ← ancestors_mem n ha j]
    simp

/-- It is found if and only if going up from the schema comes to an end. -/
theorem C251_ends (ext : Str → List Str) (id : Str) :
    (∃ l, Gives (fun n => schemaMro ext n id) l) ↔ Acc (fun a b => a ∈ ext b) id := by
  constructor
  · rintro ⟨l, N, h⟩
    have := h N (Nat.le_refl _)
    simp only [schemaMro] at this
    cases ha : ancestors ext N id with
    | error e => rw [ha] at this; cases this
    | ok a => exact ancestors_acc N ha
  · intro h
    obtain ⟨a, N, h⟩ := ancestors_gives h
    exact ⟨firsts [] a, N, fun n hn => by simp only [schemaMro, h n hn]⟩

/-- With one parent at most for each, descendants come before their ancestors. -/
theorem C251_chain_partial (ext : Str → List Str) (one : ∀ i, (ext i).length ≤ 1) (n : Nat) (id : Str)
    (l : List Str) (h : schemaMro ext n id = .ok l) : l.Pairwise (fun a b => Ancestor ext a b ∧ ¬ Ancestor ext b a) := by
  simp only [schemaMro] at h
  cases ha : ancestors ext n id with
  | error e => rw [ha] at h; cases h
  | ok a =>
    rw [ha] at h
    cases h
    have acc := ancestors_acc n ha
    have noloop : ∀ j, Ancestor ext id j → ¬ Ancestor ext j j := by
      have key : ∀ i, Acc (fun a b => a ∈ ext b) i → ¬ Ancestor ext i i ∧ ∀ j, Ancestor ext i j → ¬ Ancestor ext j j := by
        intro i hi
        induction hi with
        | intro i _ ih =>
          have up : ∀ j, Ancestor ext i j → ¬ Ancestor ext j j := by
            intro j hj
            cases hj with
            | parent hm => exact (ih j hm).1
            | up hm t => exact (ih _ hm).2 j t
          exact ⟨fun hii => up i hii hii, up⟩
      exact fun j hj => (key id acc).2 j hj
    have hp := (ancestor_single one n ha).sublist (firsts_spec a []).2.2
    have hmem : ∀ x ∈ firsts [] a, Ancestor ext id x := fun x hx =>
      (ancestors_mem n ha x).1 ((firsts_spec a []).2.1 x |>.1 hx).1
    rw [List.pairwise_iff_forall_sublist] at hp ⊢
    intro x y hxy
    have hx : x ∈ firsts [] a := hxy.subset (by simp)
    exact ⟨hp hxy, fun hyx => noloop x (hmem x hx) (ancestor_trans (hp hxy) hyx)⟩

/-- `d` extends `b` and `c`, which extend `a`. -/
def diamond : Str → List Str := fun i =>
  if i = ['d'] then [['b'], ['c']] else if i = ['b'] ∨ i = ['c'] then [['a']] else []

example : schemaMro diamond 5 ['d'] = .ok [['b'], ['a'], ['c']] := by decide +kernel

/-- With several, an ancestor can come before its descendant: what `a` defines hides what `c` redefines. -/
theorem C251_order_violated :
    ∃ (ext : Str → List Str) (id i j : Str) (x y z : List Str),
      Gives (fun n => schemaMro ext n id) (x ++ j :: (y ++ i :: z)) ∧ Ancestor ext i j := by
  refine ⟨diamond, ['d'], ['c'], ['a'], [['b']], [], [], ⟨5, fun n hn => ?_⟩, .parent (by decide)⟩
  obtain ⟨n, rfl⟩ : ∃ k, n = k + 1 + 1 + 1 := ⟨n - 3, by omega⟩
  simp only [schemaMro]
  have ea : ancestors diamond (n + 1) ['a'] = .ok [] := rfl
  have eb : ancestors diamond (n + 1 + 1) ['b'] = .ok [['a']] := by
    rw [ancestors, show diamond ['b'] = [['a']] by decide, ancestors.go, ea]; rfl
  have ec : ancestors diamond (n + 1 + 1) ['c'] = .ok [['a']] := by
    rw [ancestors, show diamond ['c'] = [['a']] by decide, ancestors.go, ea]; rfl
  have ed : ancestors diamond (n + 1 + 1 + 1) ['d'] = .ok [['b'], ['a'], ['c'], ['a']] := by
    rw [ancestors, show diamond ['d'] = [['b'], ['c']] by decide, ancestors.go, eb]
    simp only [ancestors.go, ec]
    rfl
  rw [ed]
  rfl

/-! ### C252: expanding a schema -/

/-- `expand` raises TypeError for every schema. -/
theorem C252_expand_violated (ext : Str → List Str) (n : Nat) (id : Str) : expand ext n id = .error .typeError := by
  simp [expand, callMethod]

example : expand diamond 9 ['d'] = .error .typeError := by decide +kernel

end Verif.Walk
