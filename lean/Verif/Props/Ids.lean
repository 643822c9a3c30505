import Verif.Lemmas.Ids
import Verif.Props.Names
/-
C181-C190: identifiers, URIs and paths.
-/
namespace Verif.Ids
open Spec
open Names (Mgr Env CleanName DottedPrefix IdentChar fragmentText)
open ChainMap (Chain Binds)

/-- ASCII digits, for the examples. -/
def ascii (c : Char) : Bool := '0' ≤ c && c ≤ '9'

/-- A manager for the examples, in the namespace `lib`. -/
def mgr : Mgr := { Mgr.init [] [("lib".toList, "http://x/lib".toList), ("my-lib".toList, "http://x/my".toList)] [] with
  cur := "lib".toList, curUri := "http://x/lib".toList }

/-- No documents loaded. -/
def env : Env := ⟨[], fun u => u, fun _ _ => none⟩

theorem ascii_digits : Digits ascii := by
  refine ⟨fun c h1 h2 => ?_, by decide⟩
  rw [ascii]; simp [h1, h2]

/-! ### C181: a canonical name stands for the identifier of what it names -/

/-- The identifier found for the name is the result, whatever the current document. -/
theorem C181_name (env : Env) (dig : Char → Bool) (m : Mgr) (hc : m.cnCache.entries = []) (name doc frag id : Str)
    (hn : cnRe dig name = true) (hd : name.head? ≠ some '.') (h : Names.cnameId m.reg env name m.cur = .ok id)
    (hid : Is doc frag id) (hdoc : doc ≠ []) : (convert env dig m (.str name)).1 = .ok (.str id) := by
  have hne : name ≠ [] := by rintro rfl; simp [cnRe] at hn
  have ht : (Val.str name).truthy = true := by cases name <;> simp_all [Val.truthy]
  have h1 := getCnameId_fresh env m hc name id hd h
  have h2 := (getCnameId_same env m name).1
  simp only [convert, ht, if_true, hn]
  split
  · next e m' he => rw [he] at h1; exact absurd h1 (by simp)
  · next id' m' he =>
    rw [he] at h1 h2
    simp only at h1 h2
    rw [Except.ok.inj h1, absolute_relativeId hid hdoc m m' h2]

example : mgr.cnCache.entries = [] ∧ cnRe ascii "lib.A.b".toList = true
    ∧ Names.cnameId mgr.reg env "lib.A.b".toList mgr.cur = .ok "http://x/lib#/$defs/A/$defs/b".toList
    ∧ (convert env ascii mgr (.str "lib.A.b".toList)).1 = .ok (.str "http://x/lib#/$defs/A/$defs/b".toList) := by
  decide +kernel

/-- One or two names below a registered namespace whose document is not loaded: definitions of its document. -/
theorem C181_definition_partial (env : Env) (dig : Char → Bool) (hdig : Digits dig) (m : Mgr)
    (hc : m.cnCache.entries = []) (wf : m.reg.WF) (n U : Str) (cs : List Str) (hn : Binds m.reg n U) (hn0 : n ≠ [])
    (hn1 : n.head? ≠ some '.') (hn2 : ∀ c ∈ n, IdentChar c) (hU : U ≠ []) (hh : '#' ∉ U) (hdoc : U ∉ env.docs)
    (hne : cs ≠ []) (hl : cs.length ≤ 2) (hcs : ∀ c ∈ cs, CleanName c)
    (honly : ∀ c u, Binds m.reg c u → DottedPrefix c (n ++ '.' :: joinWith ['.'] cs) → c = n) :
    (convert env dig m (.str (n ++ '.' :: joinWith ['.'] cs))).1
      = .ok (.str (U ++ '#' :: fragmentText (cs.flatMap fun c => ["$defs".toList, c]))) := by
  obtain ⟨n', v, hf, hb, hd, _⟩ := Names.findByCname_registered wf env (n ++ '.' :: joinWith ['.'] cs) n U hn
    (.inr ⟨_, rfl⟩)
  have := honly n' v hb hd; subst this
  have := Names.binds_unique wf hb hn; subst this
  have hid := Names.C89_path_short m.reg env m.cur n' v cs hf hne hl hcs hU hh (fun h => absurd h hdoc)
  have hchar : ∀ c, IdentChar c → cnChar dig c = true := by
    intro c hc
    rw [cnChar]
    rcases hc with ⟨h1, h2⟩ | ⟨h1, h2⟩ | ⟨h1, h2⟩ | rfl | rfl
    · simp [h1, h2]
    · simp [h1, h2]
    · simp [hdig.1 c h1 h2]
    · simp
    · simp
  have hjoin : ∀ l : List Str, (∀ c ∈ l, CleanName c) → ∀ x ∈ joinWith ['.'] l, IdentChar x := by
    intro l
    induction l with
    | nil => intro _ x hx; simp [joinWith] at hx
    | cons a l ih =>
      intro hl x hx
      cases l with
      | nil => exact ((hl a (by simp)).2 x hx).1
      | cons b l =>
        simp only [joinWith, List.mem_append, List.mem_singleton] at hx
        rcases hx with (hx | rfl) | hx
        · exact ((hl a (by simp)).2 x hx).1
        · exact .inr (.inr (.inr (.inr rfl)))
        · exact ih (fun c hc => hl c (by simp [hc])) x hx
  have hall : ∀ x ∈ n' ++ '.' :: joinWith ['.'] cs, IdentChar x := by
    intro x hx
    rw [List.mem_append, List.mem_cons] at hx
    rcases hx with hx | rfl | hx
    · exact hn2 x hx
    · exact .inr (.inr (.inr (.inr rfl)))
    · exact hjoin cs hcs x hx
  have hnl : (n' ++ '.' :: joinWith ['.'] cs).getLast? ≠ some '\n' := by
    intro e
    have := hall _ (List.mem_of_getLast? e)
    rcases this with ⟨h1, h2⟩ | ⟨h1, h2⟩ | ⟨h1, h2⟩ | h | h
    · exact absurd h1 (by decide)
    · exact absurd h1 (by decide)
    · exact absurd h1 (by decide)
    · exact absurd h (by decide)
    · exact absurd h (by decide)
  have hcn : cnRe dig (n' ++ '.' :: joinWith ['.'] cs) = true := by
    rw [cnRe]
    simp only [if_neg hnl]
    rw [Bool.and_eq_true]
    refine ⟨by simp, ?_⟩
    rw [List.all_eq_true]
    exact fun x hx => hchar x (hall x hx)
  refine C181_name env dig m hc _ v _ _ hcn ?_ hid ⟨rfl, hh, ?_⟩ hU
  · cases n' with
    | nil => exact absurd rfl hn0
    | cons c n' => simpa using hn1
  · intro hm
    simp only [fragmentText, List.mem_flatMap] at hm
    obtain ⟨s, ⟨c, hcm, hs⟩, hx⟩ := hm
    simp only [List.mem_cons, List.not_mem_nil, or_false] at hs hx
    rcases hs with rfl | rfl
    · revert hx; decide
    · rcases hx with h | h
      · exact absurd h (by decide)
      · have := ((hcs s hcm).2 _ h).1
        rcases this with ⟨h1, h2⟩ | ⟨h1, h2⟩ | ⟨h1, h2⟩ | h | h
        · exact absurd h1 (by decide)
        · exact absurd h1 (by decide)
        · exact absurd h1 (by decide)
        · exact absurd h (by decide)
        · exact absurd h (by decide)

example : (convert env ascii { mgr with curUri := "http://y/z".toList } (.str "lib.A".toList)).1
    = .ok (.str "http://x/lib#/$defs/A".toList) := by decide +kernel

/-- A namespace whose name holds another character, such as a hyphen, cannot be used: the name is taken for a document. -/
theorem C181_hyphen_violated : Names.cnameId mgr.reg env "my-lib.A".toList mgr.cur = .ok "http://x/my#/$defs/A".toList
    ∧ (convert env ascii mgr (.str "my-lib.A".toList)).1 = .ok (.str "my-lib.A#".toList) := by
  decide +kernel

/-! ### C182: an identifier survives writing and reading -/

/-- Every converted identifier, in any manager. -/
theorem C182_round_trip (env : Env) (dig : Char → Bool) (hdig : Digits dig) (m m' m'' : Mgr) (s r : Str)
    (hs : s ≠ []) (h : convert env dig m (.str s) = (.ok (.str r), m')) (hm : m''.curUri = m.curUri) :
    ∃ t, serialize m'' (.str r) = .ok (.str t) ∧ (convert env dig m'' (.str t)).1 = .ok (.str r) := by
  have ht : (Val.str s).truthy = true := by cases s <;> simp_all [Val.truthy]
  have hr : ∃ u, ∃ m₁ : Mgr, m₁.curUri = m.curUri ∧ r = absolute m₁ u := by
    simp only [convert, ht, if_true] at h
    split at h
    · split at h
      · exact absurd h (by simp)
      · next id m₁ he =>
        have hc := (getCnameId_same env m s).1
        rw [he] at hc
        simp only [Prod.mk.injEq, Except.ok.injEq, Val.str.injEq] at h
        exact ⟨id, m₁, hc, h.1.symm⟩
    · simp only [Prod.mk.injEq, Except.ok.injEq, Val.str.injEq] at h
      exact ⟨s, m, rfl, h.1.symm⟩
  obtain ⟨u, m₁, hm₁, rfl⟩ := hr
  obtain ⟨d, f, his, -, hd⟩ := absolute_is m₁ u
  generalize absolute m₁ u = r at his
  rw [hm₁, ← hm] at hd
  have back : ∀ t, '#' ∈ t → (convert env dig m'' (.str t)).1 = .ok (.str (absolute m'' t)) := by
    intro t hx
    have ht : (Val.str t).truthy = true := by cases t <;> simp_all [Val.truthy]
    simp only [convert, ht, if_true, cnRe_hash hdig hx]
    rfl
  rw [serialize, beforeHash_eq]
  by_cases hp : (document m''.curUri ++ ['#']).isPrefixOf r = true
  · rw [if_pos hp]
    obtain ⟨rest, hrest⟩ := List.isPrefixOf_iff_prefix.mp hp
    have hdoc : document m''.curUri = d := by
      rw [← document_is his, ← hrest]
      rw [show document m''.curUri ++ ['#'] ++ rest = document m''.curUri ++ '#' :: rest by simp]
      rw [← beforeHash_eq (document m''.curUri ++ '#' :: rest), Names.beforeHash, splitOn_append (document_notMem _)]; rfl
    refine ⟨_, rfl, ?_⟩
    rw [hdoc, his.1, List.drop_left]
    rw [back _ (by simp), absolute_of_is (d := []) (f := f) (id := '#' :: f) ⟨rfl, by simp, his.2.2⟩, if_pos rfl, hdoc]
  · rw [if_neg hp]
    refine ⟨r, rfl, ?_⟩
    rw [back r (by rw [his.1]; simp), absolute_of_is his]
    by_cases hd0 : d = []
    · rw [if_pos hd0, hd hd0, his.1, hd0]
    · rw [if_neg hd0, his.1]

example : (convert env ascii mgr (.str "#/$defs/A".toList)).1 = .ok (.str "http://x/lib#/$defs/A".toList)
    ∧ serialize mgr (.str "http://x/lib#/$defs/A".toList) = .ok (.str "#/$defs/A".toList) := by decide +kernel

/-- Converting twice is converting once. -/
theorem C182_twice (env : Env) (dig : Char → Bool) (hdig : Digits dig) (m m' m'' : Mgr) (v r : Val)
    (h : convert env dig m v = (.ok r, m')) (hm : m''.curUri = m.curUri) : (convert env dig m'' r).1 = .ok r := by
  by_cases ht : v.truthy = true
  · cases v with
    | str s =>
      have hr : ∃ u, ∃ m₁ : Mgr, m₁.curUri = m.curUri ∧ r = .str (absolute m₁ u) := by
        simp only [convert, ht, if_true] at h
        split at h
        · split at h
          · exact absurd h (by simp)
          · next id m₁ he =>
            have hc := (getCnameId_same env m s).1
            rw [he] at hc
            simp only [Prod.mk.injEq, Except.ok.injEq] at h
            exact ⟨id, m₁, hc, h.1.symm⟩
        · simp only [Prod.mk.injEq, Except.ok.injEq] at h
          exact ⟨s, m, rfl, h.1.symm⟩
      obtain ⟨u, m₁, hm₁, rfl⟩ := hr
      obtain ⟨d, f, his, -, hd⟩ := absolute_is m₁ u
      generalize absolute m₁ u = r at his
      rw [hm₁, ← hm] at hd
      have hx : '#' ∈ r := by rw [his.1]; simp
      have ht' : (Val.str r).truthy = true := by cases r <;> simp_all [Val.truthy]
      simp only [convert, ht', if_true, cnRe_hash hdig hx]
      rw [if_neg (by simp), absolute_of_is his]
      by_cases hd0 : d = []
      · rw [if_pos hd0, hd hd0, his.1, hd0]
      · rw [if_neg hd0, his.1]
    | _ => simp [convert, ht] at h
  · simp only [convert, ht] at h
    have : r = v := by
      rw [if_neg (by simp)] at h
      simp only [Prod.mk.injEq, Except.ok.injEq] at h
      exact h.1.symm
    subst this
    simp [convert, ht]

example : (convert env ascii mgr (.str "http://y".toList)).1 = .ok (.str "http://y#".toList)
    ∧ (convert env ascii mgr (.str "http://y#".toList)).1 = .ok (.str "http://y#".toList) := by decide +kernel

/-! ### C183: a canonical identifier survives writing and reading -/

/-- The identifier made from a name in a namespace whose document is not loaded is written as this name. -/
theorem C183_definition_partial (env : Env) (dig : Char → Bool) (hdig : Digits dig) (m : Mgr)
    (hc : m.cnCache.entries = []) (hi : m.idCache.entries = []) (wf : m.reg.WF) (n U : Str) (cs : List Str)
    (hn : Binds m.reg n U) (hn0 : n ≠ [])
    (hn1 : n.head? ≠ some '.') (hn2 : ∀ c ∈ n, IdentChar c) (hU : U ≠ []) (hh : '#' ∉ U) (hdoc : U ∉ env.docs)
    (hne : cs ≠ []) (hl : cs.length ≤ 2) (hcs : ∀ c ∈ cs, CleanName c)
    (honly : ∀ c u, Binds m.reg c u → DottedPrefix c (n ++ '.' :: joinWith ['.'] cs) → c = n) :
    ∃ id, (convert env dig m (.str (n ++ '.' :: joinWith ['.'] cs))).1 = .ok (.str id)
      ∧ ((∀ c u, Binds m.reg c u → u <+: id → c = n) →
        (serializeCanonical env m (.str id)).1 = .ok (.str (n ++ '.' :: joinWith ['.'] cs))) := by
  have h1 := C181_definition_partial env dig hdig m hc wf n U cs hn hn0 hn1 hn2 hU hh hdoc hne hl hcs honly
  obtain ⟨id, hid, -, hback⟩ := Names.C89_round_trip m.reg wf env m.cur n U cs hn hn0 hU hh (fun h => absurd h hdoc) hne hcs honly
  refine ⟨_, h1, ?_⟩
  have hid' : id = U ++ '#' :: fragmentText (cs.flatMap fun c => ["$defs".toList, c]) := by
    obtain ⟨n', v, hf, hb, hd, _⟩ := Names.findByCname_registered wf env (n ++ '.' :: joinWith ['.'] cs) n U hn
      (.inr ⟨_, rfl⟩)
    have := honly n' v hb hd; subst this
    have := Names.binds_unique wf hb hn; subst this
    have h2 := Names.C89_path_short m.reg env m.cur n' v cs hf hne hl hcs hU hh (fun h => absurd h hdoc)
    rw [hid] at h2; exact Except.ok.inj h2
  subst hid'
  intro hu
  have := hback hu
  simp only [serializeCanonical, Mgr.getIdCname, Decor.Lru.call, hi, AList.get?, this]
  simp

example : (serializeCanonical env mgr (.str "http://x/lib#/$defs/A".toList)).1 = .ok (.str "lib.A".toList)
    ∧ (convert env ascii mgr (.str "lib.A".toList)).1 = .ok (.str "http://x/lib#/$defs/A".toList) := by decide +kernel

/-- A document is written with a dot at the end, and read as a definition without name. -/
theorem C183_document_violated : ∃ t, (serializeCanonical env mgr (.str "http://x/lib#".toList)).1 = .ok (.str t)
    ∧ t = "lib.".toList
    ∧ (convert env ascii mgr (.str t)).1 = .ok (.str "http://x/lib#/$defs/".toList) :=
  ⟨"lib.".toList, by decide +kernel⟩

/-- A property is read as a definition. -/
theorem C183_property_violated : ∃ t, (serializeCanonical env mgr (.str "http://x/lib#/properties/a".toList)).1 = .ok (.str t)
    ∧ (convert env ascii mgr (.str t)).1 = .ok (.str "http://x/lib#/$defs/a".toList) :=
  ⟨"lib.a".toList, by decide +kernel⟩

/-! ### C184: a converted identifier is absolute -/

/-- It has exactly one `#`, and names a document if the current namespace does. -/
theorem C184_absolute_partial (env : Env) (dig : Char → Bool) (m m' : Mgr) (s r : Str) (hs : s ≠ [])
    (hcn : cnRe dig s = false) (h : convert env dig m (.str s) = (.ok (.str r), m')) :
    ∃ doc frag, Is doc frag r ∧ (document m.curUri ≠ [] → doc ≠ []) := by
  have ht : (Val.str s).truthy = true := by cases s <;> simp_all [Val.truthy]
  simp only [convert, ht, if_true, hcn] at h
  simp only [Bool.false_eq_true, if_false, Prod.mk.injEq, Except.ok.injEq, Val.str.injEq] at h
  obtain ⟨rfl, rfl⟩ := h
  obtain ⟨d, f, h1, h2, -⟩ := absolute_is m s
  exact ⟨d, f, h1, fun hc => h2 hc hs⟩

example : (convert env ascii mgr (.str "http://y/doc".toList)).1 = .ok (.str "http://y/doc#".toList)
    ∧ Is "http://y/doc".toList [] "http://y/doc#".toList := by
  refine ⟨by decide +kernel, ?_⟩
  unfold Is; decide +kernel

/-- The cases: a fragment of the current document, a fragment of a named document, a document. -/
theorem C184_cases (env : Env) (dig : Char → Bool) (hdig : Digits dig) (m : Mgr) (doc frag : Str) (hd : '#' ∉ doc)
    (hf : '#' ∉ frag) :
    (convert env dig m (.str ('#' :: frag))).1 = .ok (.str (document m.curUri ++ '#' :: frag))
    ∧ (doc ≠ [] → (convert env dig m (.str (doc ++ '#' :: frag))).1 = .ok (.str (doc ++ '#' :: frag)))
    ∧ (doc ≠ [] → cnRe dig doc = false → (convert env dig m (.str doc)).1 = .ok (.str (doc ++ ['#']))) := by
  have conv : ∀ t, t ≠ [] → cnRe dig t = false → (convert env dig m (.str t)).1 = .ok (.str (absolute m t)) := by
    intro t hne hc
    have ht : (Val.str t).truthy = true := by cases t <;> simp_all [Val.truthy]
    simp only [convert, ht, if_true, hc]; rfl
  refine ⟨?_, ?_, ?_⟩
  · rw [conv _ (by simp) (cnRe_hash hdig (by simp)), absolute_of_is (d := []) (f := frag) (id := '#' :: frag) ⟨rfl, by simp, hf⟩, if_pos rfl]
  · intro h
    rw [conv _ (by simp) (cnRe_hash hdig (by simp)), absolute_of_is (d := doc) (f := frag) ⟨rfl, hd, hf⟩, if_neg h]
  · intro h hc
    rw [conv _ h hc, absolute, if_neg hd, scope_is (doc := doc) (frag := []) ⟨rfl, hd, by simp⟩, if_neg h]

example : (convert env ascii mgr (.str "#/a".toList)).1 = .ok (.str "http://x/lib#/a".toList)
    ∧ (convert env ascii mgr (.str "http://y#/a".toList)).1 = .ok (.str "http://y#/a".toList) := by decide +kernel

/-- A relative document is not made absolute. -/
theorem C184_relative_violated : (convert env ascii mgr (.str "other-doc".toList)).1 = .ok (.str "other-doc#".toList) := by
  decide +kernel

/-! ### C185: a converted identifier passes the check -/

/-- The check accepts identifiers with a fragment, and canonical names that can be translated, of texts; nothing else. -/
theorem C185_accepts (env : Env) (dig : Char → Bool) (m : Mgr) (v : Val) :
    (check env dig m v).1 = true ↔ ∃ s, v = .str s ∧ ((∃ doc frag, '#' ∉ doc ∧ frag ≠ [] ∧ s = doc ++ '#' :: frag)
      ∨ (cnRe dig s = true ∧ ∃ id, (m.getCnameId env s).1 = .ok id)) := by
  cases v with
  | str s =>
    have hfr : (Uri.urldefrag s).2 ≠ [] ↔ ∃ doc frag, '#' ∉ doc ∧ frag ≠ [] ∧ s = doc ++ '#' :: frag := by
      rw [Uri.urldefrag]
      simp only
      constructor
      · intro h
        refine ⟨s.takeWhile (· ≠ '#'), (s.dropWhile (· ≠ '#')).drop 1, ?_, h, ?_⟩
        · intro hm
          have := List.all_eq_true.1 (List.all_takeWhile (p := fun x => decide (x ≠ '#')) (l := s)) _ hm
          simp at this
        · have e := List.takeWhile_append_dropWhile (p := fun x => decide (x ≠ '#')) (l := s)
          cases hd : s.dropWhile (fun x => decide (x ≠ '#')) with
          | nil => rw [hd] at h; simp at h
          | cons c r =>
            have hc : c = '#' := by
              have := List.head?_dropWhile_not (fun x => decide (x ≠ '#')) s
              rw [hd] at this
              simpa using this
            rw [hd] at e
            subst hc
            simpa using e.symm
      · rintro ⟨doc, frag, hd, hf, rfl⟩
        rw [List.dropWhile_append_of_pos (by intro a ha; simp; rintro rfl; exact hd ha)]
        simpa using hf
    rw [check]
    by_cases h1 : (Uri.urldefrag s).2 ≠ []
    · rw [if_pos h1]
      exact ⟨fun _ => ⟨s, rfl, .inl (hfr.1 h1)⟩, fun _ => rfl⟩
    · rw [if_neg h1]
      by_cases h2 : cnRe dig s = true
      · rw [if_pos h2]
        constructor
        · intro h
          refine ⟨s, rfl, .inr ⟨h2, ?_⟩⟩
          cases hg : m.getCnameId env s with
          | mk r m' => cases r with
            | ok id => exact ⟨id, rfl⟩
            | error e => rw [hg] at h; simp at h
        · rintro ⟨s', e, h⟩
          injection e with e
          subst e
          rcases h with h | ⟨_, id, hid⟩
          · exact absurd (hfr.2 h) h1
          · cases hg : m.getCnameId env s with
            | mk r m' =>
              rw [hg] at hid
              simp only at hid
              subst hid
              rfl
      · rw [if_neg h2]
        constructor
        · intro h; simp at h
        · rintro ⟨s', e, h⟩
          injection e with e
          subst e
          rcases h with h | ⟨h, _⟩
          · exact absurd (hfr.2 h) h1
          · exact absurd h h2
  | _ => simp [check]

/-- With a fragment. -/
theorem C185_fragment_partial (env : Env) (dig : Char → Bool) (m : Mgr) (doc frag id : Str) (h : Is doc frag id)
    (hf : frag ≠ []) : (check env dig m (.str id)).1 = true := by
  have : (Uri.urldefrag id).2 = frag := by
    obtain ⟨rfl, hd, -⟩ := h
    rw [Uri.urldefrag]
    simp only
    rw [List.dropWhile_append_of_pos (by intro a ha; simp; rintro rfl; exact hd ha)]
    simp
  rw [check, this, if_pos hf]

example : (check env ascii mgr (.str "http://x/lib#/a".toList)).1 = true := by decide +kernel

/-- Without one it never does, although conversion adds the `#`. -/
theorem C185_document_violated (env : Env) (dig : Char → Bool) (hdig : Digits dig) (m : Mgr) (doc : Str) (hd : '#' ∉ doc)
    (hne : doc ≠ []) (hcn : cnRe dig doc = false) :
    (convert env dig m (.str doc)).1 = .ok (.str (doc ++ ['#']))
      ∧ (check env dig m (.str (doc ++ ['#']))).1 = false := by
  refine ⟨(C184_cases env dig hdig m doc [] hd (by simp)).2.2 hne hcn, ?_⟩
  have : (Uri.urldefrag (doc ++ ['#'])).2 = [] := by
    rw [Uri.urldefrag]
    simp only
    rw [List.dropWhile_append_of_pos (by intro a ha; simp; rintro rfl; exact hd ha)]
    simp
  rw [check, this, if_neg (by simp), cnRe_hash hdig (by simp)]
  rfl

example : Digits ascii ∧ '#' ∉ "http://y".toList ∧ cnRe ascii "http://y".toList = false :=
  ⟨ascii_digits, by decide +kernel⟩

/-! ### C186: a missing identifier, URI or path is written as None -/

/-- A missing identifier stays missing on reading. -/
theorem C186_read_partial (env : Env) (dig : Char → Bool) (m : Mgr) :
    convert env dig m .none = (.ok .none, m) ∧ convert env dig m (.str []) = (.ok (.str []), m) := ⟨rfl, rfl⟩

example : (convert env ascii mgr .none).1 = .ok .none := by decide +kernel

/-- Writing one raises AttributeError. -/
theorem C186_id_violated (env : Env) (m : Mgr) : serialize m .none = .error .attributeError
    ∧ (serializeCanonical env m .none).1 = .error .attributeError := ⟨rfl, rfl⟩

example : serialize mgr .none = .error .attributeError := by decide +kernel

end Verif.Ids

namespace Verif.FilePaths
open Spec

/-- Texts are not evaluated, but for one; urllib leaves texts alone. -/
def demo : World where
  ev s := if s = "/data/{{name}}".toList then some "/data/x".toList else some s
  norm s := s
  quote s := s
  unquote s := s
  resolve p := if p.root = 0 then { p with root := 1 } else p
  expandUser p := p
  strUrl s := s

/-- A missing path is written as the text `None`, a missing URI as bytes. -/
theorem C186_path_violated (w : World) : pathConvert w false false .none = .ok .none
    ∧ pathSerialize w false .none = .ok "None".toList ∧ uriSerialize w .none = .ok .bytes
    ∧ uriConvert w .none = .ok .bytes := ⟨rfl, rfl, rfl, rfl⟩

example : pathSerialize demo false .none = .ok "None".toList := rfl

/-! ### C187: a path survives writing and reading -/

/-- A path whose text is not changed by evaluation. -/
theorem C187_round_trip_partial (w : World) (p : PPath) (hp : Normal p) (he : w.ev (render p) = some (render p)) :
    ∃ s, pathSerialize w false (.path p) = .ok s ∧ pathConvert w false false (.text s) = .ok (.path p) := by
  refine ⟨render p, rfl, ?_⟩
  have hne : render p ≠ [] := by
    intro e
    have h1 := parse_render p hp
    rw [e] at h1
    rw [← h1] at e
    revert e; decide
  have hp' := parse_render p hp
  cases e : render p with
  | nil => exact absurd e hne
  | cons c s =>
    rw [e] at he hp'
    simp only [pathConvert, he, hp']; rfl

example : Normal ⟨1, ["tmp".toList, "a".toList]⟩ ∧ render ⟨1, ["tmp".toList, "a".toList]⟩ = "/tmp/a".toList
    ∧ demo.ev "/tmp/a".toList = some "/tmp/a".toList
    ∧ pathConvert demo false false (.text "/tmp//./a/".toList) = .ok (.path ⟨1, ["tmp".toList, "a".toList]⟩) := by
  refine ⟨⟨by decide, ?_⟩, by decide +kernel, by decide +kernel, by decide +kernel⟩
  intro x hx
  simp only [List.mem_cons, List.not_mem_nil, or_false] at hx
  rcases hx with rfl | rfl <;> decide +kernel

/-- A path with a template in its name is rendered, although it is a path already. -/
theorem C187_template_violated : ¬ ∀ (w : World) (p : PPath), Normal p → pathConvert w false false (.path p) = .ok (.path p) := by
  intro h
  have := h demo ⟨1, ["data".toList, "{{name}}".toList]⟩ ⟨by decide, fun x hx => by
    simp only [List.mem_cons, List.not_mem_nil, or_false] at hx
    rcases hx with rfl | rfl <;> decide +kernel⟩
  exact absurd this (by decide +kernel)

/-! ### C188: a path given as a URI is the path again -/

/-- A URI without scheme: its text, unquoted. -/
theorem C188_plain_partial (w : World) (s : Str) : pathConvert w false false (.url s) = .ok (.path (parse (w.unquote s))) := rfl

example : pathConvert demo false false (.url "/tmp/a".toList) = .ok (.path ⟨1, ["tmp".toList, "a".toList]⟩) := by
  decide +kernel

/-- The URI of a path never is: the scheme becomes a name of a relative path. -/
theorem C188_file_violated (w : World) (p : PPath) (hn : ∀ s, w.norm s = s) (hq : ∀ s, w.unquote (w.quote s) = s)
    (hf : ∀ s, w.unquote ("file://".toList ++ w.quote s) = "file://".toList ++ w.unquote (w.quote s)) :
    ∃ u q, uriConvert w (.path p) = .ok (.url u) ∧ pathConvert w false false (.url u) = .ok (.path q)
      ∧ q.root = 0 ∧ q.parts.head? = some "file:".toList := by
  refine ⟨_, _, rfl, rfl, ?_, ?_⟩
  · rw [hn, hf, hq]
    simp only [parse]
    rfl
  · rw [hn, hf, hq]
    simp only [parse]
    have : splitOn '/' ("file://".toList ++ render (w.resolve p))
        = "file:".toList :: [] :: splitOn '/' (render (w.resolve p)) := by
      rw [show "file://".toList ++ render (w.resolve p) = "file:".toList ++ '/' :: ([] ++ '/' :: render (w.resolve p)) from rfl]
      rw [splitOn_append (by decide), splitOn_append (by simp)]
    rw [this]; rfl

/-- C188: an address is written as the text it is, a path as the address of the file, and a text as its evaluated text. -/
theorem C188_written_partial (w : World) :
    (∀ s, uriSerialize w (.url s) = .ok (.text s)) ∧
    (∀ p, uriSerialize w (.path p) = .ok (.text (w.norm ("file://".toList ++ w.quote (render (w.resolve p)))))) ∧
    (∀ s x, w.ev s = some x → uriSerialize w (.text s) = .ok (.text (w.norm x))) := by
  refine ⟨fun s => rfl, fun p => rfl, fun s x h => ?_⟩
  simp [uriSerialize, uriConvert, h]

example : uriSerialize demo (.path ⟨1, ["tmp".toList]⟩) = .ok (.text "file:///tmp".toList) := by decide +kernel

example : uriConvert demo (.path ⟨1, ["tmp".toList]⟩) = .ok (.url "file:///tmp".toList)
    ∧ pathConvert demo false false (.url "file:///tmp".toList) = .ok (.path ⟨0, ["file:".toList, "tmp".toList]⟩) := by
  decide +kernel

/-! ### C189: what is converted is a path in its normal form -/

/-- Anything but None and the empty text becomes a path, in normal form if it is neither resolved nor expanded. -/
theorem C189_normal_partial (w : World) (v r : V) (h : pathConvert w false false v = .ok r) (hn : v ≠ .none)
    (he : v ≠ .text []) : ∃ p, r = .path p ∧ Normal p := by
  cases v with
  | none => exact absurd rfl hn
  | text s =>
    cases s with
    | nil => exact absurd rfl he
    | cons c s =>
      simp only [pathConvert] at h
      cases e : w.ev (c :: s) with
      | none => rw [e] at h; exact absurd h (by simp)
      | some x => rw [e] at h; cases h; exact ⟨_, rfl, parse_normal _⟩
  | path p =>
    rw [pathConvert] at h
    simp only at h
    cases e : w.ev (render p) with
    | none => rw [e] at h; exact absurd h (by simp)
    | some x => rw [e] at h; cases h; exact ⟨_, rfl, parse_normal _⟩
  | url s => cases h; exact ⟨_, rfl, parse_normal _⟩
  | bytes => cases h; exact ⟨_, rfl, parse_normal _⟩

example : pathConvert demo false false (.text "a//b".toList) = .ok (.path ⟨0, ["a".toList, "b".toList]⟩) := by
  decide +kernel

/-- A converted path, its text not changed by evaluation, is kept. -/
theorem C189_twice_partial (w : World) (v : V) (p : PPath) (h : pathConvert w false false v = .ok (.path p))
    (he : w.ev (render p) = some (render p)) : pathConvert w false false (.path p) = .ok (.path p) := by
  have hn : Normal p := by
    obtain ⟨q, hq, hn⟩ := C189_normal_partial w v (.path p) h (by rintro rfl; simp [pathConvert] at h)
      (by rintro rfl; simp [pathConvert] at h)
    cases hq; exact hn
  simp only [pathConvert, he, parse_render p hn]; rfl

example : pathConvert demo false false (.path ⟨1, ["tmp".toList]⟩) = .ok (.path ⟨1, ["tmp".toList]⟩) := by decide +kernel

/-- The empty text stays a text, and neither it nor None can be resolved or expanded. -/
theorem C189_empty_violated (w : World) : pathConvert w false false (.text []) = .ok (.text [])
    ∧ pathConvert w true false .none = .error .attributeError ∧ pathConvert w false true .none = .error .attributeError
    ∧ pathConvert w true false (.text []) = .error .attributeError := ⟨rfl, rfl, rfl, rfl⟩

example : pathConvert demo true false (.text "a".toList) = .ok (.path ⟨1, ["a".toList]⟩) := by decide +kernel

/-! ### C190: a relative path is written relative to its document -/

/-- It never is: looking for the document raises AttributeError. -/
theorem C190_relative_violated (w : World) (v : V) : pathSerialize w true v = .error .attributeError := rfl

example : pathSerialize demo false (.path ⟨1, ["tmp".toList]⟩) = .ok "/tmp".toList := by decide +kernel

end Verif.FilePaths
