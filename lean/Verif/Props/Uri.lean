import Verif.Lemmas.Uri
/-
C35 scope; C36 resolve_fragment; C37 resolve_doc; C95 resolve_uri.
-/
namespace Verif.Uri

/-! ### C35 -/

/-- The four cases: no `#`, fragment only, document and fragment, and anything after a second `#` is
dropped. -/
theorem C35_cases (doc frag rest base : Str) (hd : '#' ∉ doc) (hf : '#' ∉ frag) :
    scope doc base = doc ∧
    scope ('#' :: frag) base = base.takeWhile (· ≠ '#') ++ '#' :: frag ∧
    (doc ≠ [] → scope (doc ++ '#' :: frag) base = doc ++ '#' :: frag) ∧
    scope (doc ++ '#' :: (frag ++ '#' :: rest)) base = scope (doc ++ '#' :: frag) base := by
  refine ⟨?_, ?_, ?_, ?_⟩
  · rw [scope, splitOn_of_notMem hd]
  · have := scope_two (d := []) (by simp) hf base
    rw [List.nil_append] at this
    rw [this, Names.beforeHash_eq]
    simp
  · intro h
    rw [scope_two hd hf, if_neg (by simpa using h)]; simp
  · rw [scope_two hd hf, scope, splitOn_append hd, splitOn_append hf]; rfl

/-- Scoping again, with any base, changes nothing, if the first base names a document. -/
theorem C35_idempotent (ref base base' : Str) (hb : base.takeWhile (· ≠ '#') ≠ []) :
    scope (scope ref base) base' = scope ref base := by
  rcases splitOn_hash_cases ref with ⟨h, hs⟩ | ⟨d, f, rest, hs, hd, hf⟩
  · have : scope ref base = ref := by rw [scope, hs]
    rw [this, scope, hs]
  · have h1 : scope ref base = (if d.isEmpty then Names.beforeHash base else d) ++ '#' :: f := by
      rw [scope, hs]; simp [Names.beforeHash]
    have hbn : '#' ∉ Names.beforeHash base := by
      rw [Names.beforeHash]
      cases hh : (splitOn '#' base).head? with
      | none => simp
      | some w => exact splitOn_notMem (List.mem_of_head? hh)
    have hne : (if d.isEmpty then Names.beforeHash base else d) ≠ [] := by
      split
      · rw [Names.beforeHash_eq]; exact hb
      · rename_i h; simpa using h
    have hno : '#' ∉ (if d.isEmpty then Names.beforeHash base else d) := by
      split
      · exact hbn
      · exact hd
    rw [h1]
    exact (C35_cases _ f [] base' hno hf).2.2.1 hne

/-- At most one `#` is left. -/
theorem C35_one_hash (ref base : Str) : (scope ref base).count '#' ≤ 1 := by
  rcases splitOn_hash_cases ref with ⟨h, hs⟩ | ⟨d, f, rest, hs, hd, hf⟩
  · have : scope ref base = ref := by rw [scope, hs]
    rw [this, List.count_eq_zero.2 h]; omega
  · have h1 : scope ref base = (if d.isEmpty then Names.beforeHash base else d) ++ '#' :: f := by
      rw [scope, hs]; simp [Names.beforeHash]
    have hbn : '#' ∉ Names.beforeHash base := by
      rw [Names.beforeHash]
      cases hh : (splitOn '#' base).head? with
      | none => simp
      | some w => exact splitOn_notMem (List.mem_of_head? hh)
    have hno : '#' ∉ (if d.isEmpty then Names.beforeHash base else d) := by
      split
      · exact hbn
      · exact hd
    rw [h1, List.count_append, List.count_eq_zero.2 hno, List.count_cons_self, List.count_eq_zero.2 hf]
    omega

example : scope "#/a".toList "http://x/b#/c".toList = "http://x/b#/a".toList ∧
    scope "http://y#/a".toList "http://x/b".toList = "http://y#/a".toList := by decide +kernel

/-! ### C36 -/

/-- Every node of a document is reached by its pointer: any document, any depth; the first token not
empty, no percent sign in the pointer. -/
theorem C36_reaches (unq : Str → Str) (hunq : ∀ s, '%' ∉ s → unq s = s) (doc v : Val) (toks : List Str)
    (h : Addresses doc toks v) (hfirst : ∀ t ∈ toks.head?, t ≠ []) (hp : '%' ∉ pointer toks) :
    resolveFragment unq doc (pointer toks) = .ok v := by
  rw [resolveFragment_pointer unq hunq doc toks hfirst hp]
  exact fragLoop_addresses h

/-- The same for a percent-encoded pointer: any text that decodes to the pointer. -/
theorem C36_reaches_encoded (unq : Str → Str) (doc v : Val) (toks : List Str) (text : Str)
    (h : Addresses doc toks v) (hne : toks ≠ []) (htext : ∀ c ∈ text.head?, c ≠ '/') (ht : text ≠ [])
    (hu : '/' :: unq text = pointer toks) : resolveFragment unq doc ('/' :: text) = .ok v := by
  rw [pointer_eq, Names.fragmentText_eq _ (by simpa using hne)] at hu
  rw [resolveFragment_encoded unq doc text toks hne htext ht (by simpa using hu)]
  exact fragLoop_addresses h

/-- Whatever the fragment: the result is a node of the document, or InvalidValue is raised. -/
theorem C36_only_invalid (unq : Str → Str) (doc : Val) (fragment : Str) :
    (∃ v toks, resolveFragment unq doc fragment = .ok v ∧ Addresses doc toks v) ∨
    resolveFragment unq doc fragment = .error .invalidValue := by
  cases h : resolveFragment unq doc fragment with
  | ok v =>
    obtain ⟨toks, ht⟩ := fragLoop_node (doc := doc) h
    exact .inl ⟨v, toks, rfl, ht⟩
  | error e =>
    have := fragLoop_error (doc := doc) h
    subst this
    exact .inr rfl

/-- Missing: tokens that Python reads as an integer although they are not a position (negative numbers,
leading zeros, signs, blanks). With tokens that are canonical numbers or no numbers at all, a pointer
that addresses nothing raises InvalidValue. -/
theorem C36_unresolvable_partial (unq : Str → Str) (hunq : ∀ s, '%' ∉ s → unq s = s) (doc : Val)
    (toks : List Str) (hfirst : ∀ t ∈ toks.head?, t ≠ []) (hp : '%' ∉ pointer toks)
    (hcanon : ∀ t ∈ toks, ∀ i, parseInt t = some i → 0 ≤ i ∧ t = showInt i)
    (h : ∀ v, ¬ Addresses doc toks v) : resolveFragment unq doc (pointer toks) = .error .invalidValue := by
  rw [resolveFragment_pointer unq hunq doc toks hfirst hp]
  cases hr : fragLoop doc (toks.map escape) with
  | ok v => exact absurd (fragLoop_tokens hcanon hr) (h v)
  | error e => rw [fragLoop_error hr]

/-- The token `-1` addresses nothing, yet the last element is returned. -/
theorem C36_unresolvable_violated : ∃ (doc v : Val) (toks : List Str),
    (∀ w, ¬ Addresses doc toks w) ∧ resolveFragment id doc (pointer toks) = .ok v := by
  refine ⟨.list [.int 1, .int 2], .int 2, ["-1".toList], ?_, by decide +kernel⟩
  intro w h
  generalize ht : ["-1".toList] = toks at h
  generalize hd : Val.list [.int 1, .int 2] = doc at h
  cases h with
  | here => simp at ht
  | key => cases hd
  | @pos l i v ks w hi _ =>
    have h1 : "-1".toList = showNat i := (List.cons.inj ht).1
    have := isDigit_of_mem_showNat (n := i) (c := '-') (by rw [← h1]; decide +kernel)
    exact absurd this (by decide)

/-- A document with awkward keys. -/
def exDoc : Val := .dict [("a/b".toList, .list [.int 5, .dict [("~1".toList, .str "x".toList)]])]

example : pointer ["a/b".toList, "1".toList, "~1".toList] = "/a~1b/1/~01".toList ∧
    resolveFragment id exDoc "/a~1b/1/~01".toList = .ok (.str "x".toList) ∧
    resolveFragment id exDoc "/a~1b/7".toList = .error .invalidValue := by decide +kernel
example : Addresses exDoc ["a/b".toList, "1".toList, "~1".toList] (.str "x".toList) :=
  .key (v := .list [.int 5, .dict [("~1".toList, .str "x".toList)]]) (by decide +kernel)
    (.pos (i := 1) (v := .dict [("~1".toList, .str "x".toList)]) rfl
      (.key (v := .str "x".toList) (by decide +kernel) (.here _)))

/-! ### C37 -/

variable {δ : Type}

/-- Missing: URIs resolved before their document was replaced or removed. Nothing but operations on
other documents (and resolutions) after the URI is first resolved: the document registered is returned,
and resolution fails when there is none. -/
theorem C37_current_partial (norm : Str → Str) (ops after : List (DocOp δ)) (uri : Str)
    (h : DocOp.resolve uri ∉ ops) (ha : ∀ op ∈ after, Keeps norm (urldefrag uri).1 op) :
    (resolveDoc norm ((Store.empty δ).run norm (ops ++ after)) uri).1 =
      match registered norm (urldefrag uri).1 (ops ++ after) none with
      | some d => .ok d
      | none => .error .exception := by
  have hk := run_cache_keys norm ops (Store.empty δ) uri h (by simp [Store.empty, AList.keys])
  obtain ⟨h1, h2⟩ := run_entries norm after ((Store.empty δ).run norm ops) uri ha (by
    intro e he hu
    exact absurd (List.mem_map.2 ⟨e, he, hu⟩) hk)
  have hrun : (Store.empty δ).run norm (ops ++ after) = ((Store.empty δ).run norm ops).run norm after := by
    rw [Store.run, List.foldl_append]; rfl
  have hreg : lookup norm ((Store.empty δ).run norm (ops ++ after)) uri =
      match registered norm (urldefrag uri).1 (ops ++ after) none with
      | some d => .ok d
      | none => .error .exception := by
    unfold lookup
    rw [run_docs]
    rfl
  rw [← hreg, (resolveDoc_eq norm _ uri).1]
  rw [hrun]
  generalize hS : ((Store.empty δ).run norm ops).run norm after = S at *
  unfold Decor.Lru.call
  split
  · rename_i r hr
    rw [h2]
    exact (h1 _ (AList.mem_of_get? hr) rfl).symm
  · split <;> (rename_i hl; rw [hl])

/-- A document returned for a URI was registered under an equivalent URI at some time. -/
theorem C37_never_foreign (norm : Str → Str) (ops : List (DocOp δ)) (uri : Str) (d : δ)
    (h : (resolveDoc norm ((Store.empty δ).run norm ops) uri).1 = .ok d) :
    ∃ u, DocOp.register u d ∈ ops ∧ norm u = norm (urldefrag uri).1 := by
  have key : ∀ (ops : List (DocOp δ)) (s : Store δ) (H : Str → δ → Prop),
      (∀ k d, AList.get? s.docs k = some d → H k d) →
      (∀ e ∈ s.cache.entries, H (norm (urldefrag e.1).1) e.2) →
      (∀ u d, DocOp.register u d ∈ ops → H (norm u) d) →
      (∀ k d, AList.get? (s.run norm ops).docs k = some d → H k d) ∧
      (∀ e ∈ (s.run norm ops).cache.entries, H (norm (urldefrag e.1).1) e.2) := by
    intro ops
    induction ops with
    | nil => intro s H h1 h2 _; exact ⟨h1, h2⟩
    | cons op ops ih =>
      intro s H h1 h2 h3
      rw [Store.run, List.foldl_cons]
      refine ih _ H ?_ ?_ (fun u d hd => h3 u d (by simp [hd]))
      · intro k d hk
        cases op with
        | register u d' =>
          simp only [Store.step, registerDoc, AList.get?_set] at hk
          split at hk
          · rename_i e; cases hk; rw [← e]; exact h3 u _ (by simp)
          · exact h1 k d hk
        | unregister u =>
          simp only [Store.step, unregisterDoc, AList.get?_erase] at hk
          split at hk
          · cases hk
          · exact h1 k d hk
        | resolve u => exact h1 k d hk
      · cases op with
        | register u d' => exact h2
        | unregister u => exact h2
        | resolve u =>
          exact (lru_entries (lookup norm s) s.cache u (fun k r => H (norm (urldefrag k).1) r) h2 (by
            intro r hr
            unfold lookup at hr
            split at hr
            · rename_i x hx; cases hr; exact h1 _ _ hx
            · cases hr)).1
  obtain ⟨h1, h2⟩ := key ops (Store.empty δ) (fun k d => ∃ u, DocOp.register u d ∈ ops ∧ norm u = k)
    (by intro k d hk; simp [Store.empty, AList.get?] at hk) (by intro e he; simp [Store.empty] at he)
    (fun u d hd => ⟨u, hd, rfl⟩)
  rw [(resolveDoc_eq norm _ uri).1] at h
  exact (lru_entries (lookup norm _) _ uri
    (fun k d => ∃ u, DocOp.register u d ∈ ops ∧ norm u = norm (urldefrag k).1) h2 (by
      intro r hr
      unfold lookup at hr
      split at hr
      · rename_i x hx; cases hr; exact h1 _ _ hx
      · cases hr)).2 d h

/-- A replaced document and a removed document are still returned. -/
theorem C37_current_violated :
    (∃ (ops : List (DocOp Nat)) (uri : Str), registered id uri ops none = some 2 ∧
      (resolveDoc id ((Store.empty Nat).run id ops) uri).1 = .ok 1) ∧
    (∃ (ops : List (DocOp Nat)) (uri : Str), registered id uri ops none = none ∧
      (resolveDoc id ((Store.empty Nat).run id ops) uri).1 = .ok 1) :=
  ⟨⟨[.register "u".toList 1, .resolve "u".toList, .register "u".toList 2], "u".toList, by decide +kernel⟩,
   ⟨[.register "u".toList 1, .resolve "u".toList, .unregister "u".toList], "u".toList, by decide +kernel⟩⟩

example : (resolveDoc id ((Store.empty Nat).run id [.register "u".toList 1, .register "u".toList 2]) "u".toList).1
    = .ok 2 := by decide +kernel

/-! ### C95 -/

/-- Over any history in which the document was not resolved before, `resolve_uri(uri#pointer)` returns the
node of the registered document that the pointer addresses; when no document is registered it fails. -/
theorem C95_resolve_uri (norm unq : Str → Str) (hunq : ∀ s, '%' ∉ s → unq s = s)
    (ops : List (DocOp Val)) (uri : Str) (toks : List Str) (huri : '#' ∉ uri)
    (h : DocOp.resolve uri ∉ ops) (hfirst : ∀ t ∈ toks.head?, t ≠ []) (hp : '%' ∉ pointer toks) :
    (∀ doc v, registered norm uri ops none = some doc → Addresses doc toks v →
      (resolveUri norm unq ((Store.empty Val).run norm ops) (uri ++ '#' :: pointer toks)).1 = .ok v) ∧
    (registered norm uri ops none = none →
      (resolveUri norm unq ((Store.empty Val).run norm ops) (uri ++ '#' :: pointer toks)).1 = .error .exception) := by
  have hd : urldefrag (uri ++ '#' :: pointer toks) = (uri, pointer toks) := by
    have h1 : ∀ c ∈ uri, (decide (c ≠ '#')) = true := by
      intro c hc; simp; rintro rfl; exact huri hc
    unfold urldefrag
    rw [List.takeWhile_append_of_pos h1, List.dropWhile_append_of_pos h1]
    simp
  have hu : (urldefrag uri).1 = uri := by
    unfold urldefrag
    simp only
    have h1 : ∀ c ∈ uri, (decide (c ≠ '#')) = true := by
      intro c hc; simp; rintro rfl; exact huri hc
    have := List.takeWhile_append_of_pos h1 (l₂ := [])
    simpa using this
  have hr := C37_current_partial norm ops [] uri h (by simp)
  rw [List.append_nil, hu] at hr
  have he : ∀ r, (resolveDoc norm ((Store.empty Val).run norm ops) uri).1 = r →
      (resolveUri norm unq ((Store.empty Val).run norm ops) (uri ++ '#' :: pointer toks)).1 =
        match r with
        | .error e => .error e
        | .ok doc => resolveFragment unq doc (pointer toks) := by
    intro r hr
    unfold resolveUri
    rw [hd]
    generalize resolveDoc norm ((Store.empty Val).run norm ops) uri = G at hr
    obtain ⟨a, b⟩ := G
    simp only at hr; subst hr
    cases a <;> rfl
  constructor
  · intro doc v hdoc hv
    rw [hdoc] at hr
    rw [he _ hr]
    exact C36_reaches unq hunq doc v toks hv hfirst hp
  · intro hn
    rw [hn] at hr
    rw [he _ hr]

example : (resolveUri id id ((Store.empty Val).run id [.register "u".toList exDoc]) "u#/a~1b/0".toList).1
    = .ok (.int 5) := by decide +kernel

end Verif.Uri
