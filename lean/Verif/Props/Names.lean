import Verif.Lemmas.Names
/-
C33, C34 cleaned names; C38-C42 namespaces and canonical names; C88-C94 documents as namespaces, round
trip, current namespace, relative names, names of URIs.
-/
namespace Verif.Names
open ChainMap (Chain Binds)
open Decor (Lru)

/-! ### C33 -/

/-- Only what follows the last `:` matters; no `-` and no `:` is left. -/
theorem C33_last_part (a b : Str) (h : ':' ∉ b) :
    cleanJsName (a ++ ':' :: b) = cleanJsName b ∧ '-' ∉ cleanJsName (a ++ ':' :: b) ∧
      ':' ∉ cleanJsName (a ++ ':' :: b) := by
  refine ⟨?_, fun hm => (cleanJsName_chars hm).2.1 rfl, fun hm => (cleanJsName_chars hm).2.2 rfl⟩
  rw [cleanJsName, lastPart_append a b h, cleanJsName, lastPart_of_notMem h]

/-- Cleaning twice is cleaning once, and no `-` or `:` is left. -/
theorem C33_idempotent (name : Str) :
    cleanJsName (cleanJsName name) = cleanJsName name ∧ '-' ∉ cleanJsName name ∧ ':' ∉ cleanJsName name :=
  ⟨cleanJsName_of_chars (fun _ hc => cleanJsName_chars hc), fun hm => (cleanJsName_chars hm).2.1 rfl,
    fun hm => (cleanJsName_chars hm).2.2 rfl⟩

/-- A name of letters, digits, `_` and `.` is unchanged. -/
theorem C33_identity (name : Str) (h : ∀ c ∈ name, IdentChar c) : cleanJsName name = name :=
  cleanJsName_of_chars (fun c hc => ⟨(isKept_iff c).2 (.inl (h c hc)), (identChar_ne (h c hc)).1,
    (identChar_ne (h c hc)).2.1⟩)

/-- Nothing is reordered or invented: a name without `:` loses its other characters and has `-` turned
into `_`. -/
theorem C33_characters (name : Str) (h : ':' ∉ name)
    (hk : ∀ c ∈ name, c ≠ '[' ∧ c ≠ '\\' ∧ c ≠ ']' ∧ c ≠ '^' ∧ c ≠ '`') :
    ∃ kept : List Char, kept.Sublist name ∧ (∀ c ∈ name, IdentChar c ∨ c = '-' → kept.count c = name.count c) ∧
      (∀ c ∈ kept, IdentChar c ∨ c = '-') ∧
      cleanJsName name = kept.map (fun c => if c = '-' then '_' else c) := by
  refine ⟨name.filter isKept, List.filter_sublist, ?_, ?_, ?_⟩
  · intro c _ hi
    have : isKept c = true := (isKept_iff c).2 (by rcases hi with h | h <;> simp [h])
    rw [List.count_filter this]
  · intro c hc
    obtain ⟨hm, hk'⟩ := List.mem_filter.1 hc
    have := hk c hm
    rcases (isKept_iff c).1 hk' with h | h | h | h | h | h | h
    · exact .inl h
    · exact .inr h
    all_goals exact absurd h (by simp [this])
  · rw [cleanJsName, lastPart_of_notMem h]; rfl

example : cleanJsName "xs:my-tag é1".toList = "my_tag1".toList := by decide +kernel

/-! ### C34 -/

/-- Missing: the full claim. A cleaned name may hold, besides identifier characters, the five characters
`[ \ ] ^` and the back quote. -/
theorem C34_identifier_chars_partial (name : Str) (c : Char) (h : c ∈ cleanJsName name) :
    IdentChar c ∨ c ∈ ['[', '\\', ']', '^', '`'] := by
  obtain ⟨hk, hn, _⟩ := cleanJsName_chars h
  rcases (isKept_iff c).1 hk with h | h | h | h | h | h | h
  · exact .inl h
  · exact absurd h hn
  all_goals simp [h]

/-- The range `A-z` of the regular expression lets other characters through. -/
theorem C34_identifier_chars_violated : ∃ name, ∃ c ∈ cleanJsName name, ¬ IdentChar c :=
  ⟨"a[0]".toList, '[', by decide +kernel, by unfold IdentChar; decide⟩

example : cleanJsName "a[0]".toList = "a[0]".toList := by decide +kernel

/-! ### C38 -/

/-- A registered namespace covering the name: one is found, registered with the URI given, covering the
name, and no registered namespace covering it is longer. -/
theorem C38_longest (reg : Chain Str Str) (wf : reg.WF) (env : Env) (name c u : Str) (h : Binds reg c u)
    (hd : DottedPrefix c name) :
    ∃ n v, findByCname reg env name = some (n, v) ∧ Binds reg n v ∧ DottedPrefix n name ∧
      ∀ c' u', Binds reg c' u' → DottedPrefix c' name → c'.length ≤ n.length :=
  findByCname_registered wf env name c u h hd

/-- Whatever is found covers the name. -/
theorem C38_covers (reg : Chain Str Str) (wf : reg.WF) (env : Env) (name n v : Str)
    (h : findByCname reg env name = some (n, v)) : DottedPrefix n name := by
  unfold findByCname at h
  split at h
  · rename_i cn hcn
    obtain ⟨⟨u, hu, _, hp⟩, _⟩ := pick_spec wf _ hcn
    rw [hu] at h; simp at h; obtain ⟨rfl, rfl⟩ := h
    exact covers_iff.1 hp
  · cases hf : env.docs.find? (fun u => covers (env.cnameOf u) name) with
    | none => rw [hf] at h; simp at h
    | some u =>
      rw [hf] at h; simp at h; obtain ⟨rfl, rfl⟩ := h
      exact covers_iff.1 (by simpa using List.find?_some hf)

/-- No namespace and no document: nothing is found. -/
theorem C38_nothing (reg : Chain Str Str) (wf : reg.WF) (env : Env) (name : Str)
    (h : ∀ c u, Binds reg c u → ¬ DottedPrefix c name)
    (hdoc : ∀ u ∈ env.docs, ¬ DottedPrefix (env.cnameOf u) name) : findByCname reg env name = none := by
  unfold findByCname
  rw [none_of_no_candidate wf _ (fun c u hb => by
    have := h c u hb; rw [← covers_iff] at this; simpa using this)]
  simp only [Option.map_eq_none_iff, List.find?_eq_none]
  intro u hu hc
  exact hdoc u hu (covers_iff.1 (by simpa using hc))

/-- Example namespaces: `lib`, `lib.sub` and `library`. -/
def exReg : Chain Str Str :=
  .chain [.chain [.dict [("lib".toList, "http://x/lib".toList), ([], "#".toList)]],
    .dict [("lib.sub".toList, "http://x/lib/sub".toList), ("library".toList, "http://x/ry".toList)]]

/-- No documents loaded. -/
def exEnv : Env := ⟨[], fun u => u, fun _ _ => none⟩

theorem exReg_wf : exReg.WF := by
  refine .chain ?_
  intro m hm
  simp at hm
  rcases hm with rfl | rfl
  · refine .chain ?_
    intro m hm
    simp at hm; subst hm
    exact .dict (by decide +kernel)
  · exact .dict (by decide +kernel)

example : findByCname exReg exEnv "lib.sub.A".toList = some ("lib.sub".toList, "http://x/lib/sub".toList) ∧
    findByCname exReg exEnv "library.A".toList = some ("library".toList, "http://x/ry".toList) ∧
    Binds exReg "lib".toList "http://x/lib".toList ∧ DottedPrefix "lib".toList "lib.sub.A".toList := by
  refine ⟨by decide +kernel, by decide +kernel, ?_, .inr ⟨"sub.A".toList, by decide +kernel⟩⟩
  rw [← binds_iff exReg_wf]; decide +kernel

/-! ### C39 -/

/-- Missing: that it is the longest. A namespace whose URI is a prefix of the identifier is found
whenever one is registered, and what is found is one. If moreover the names follow the URIs (a longer
URI means a longer name with the same beginning), it has the longest URI. -/
theorem C39_prefix_partial (reg : Chain Str Str) (wf : reg.WF) (env : Env) (id c u : Str)
    (h : Binds reg c u) (hp : u <+: id) :
    ∃ n v, findByUri reg env id = some (n, v) ∧ Binds reg n v ∧ v <+: id ∧
      ((∀ c₁ u₁ c₂ u₂, Binds reg c₁ u₁ → Binds reg c₂ u₂ → u₁ <+: id → u₂ <+: id →
          u₁.length < u₂.length → c₁ <+: c₂ ∧ c₁ ≠ c₂) →
        ∀ c' u', Binds reg c' u' → u' <+: id → u'.length ≤ v.length) := by
  obtain ⟨n, v, hf, hb, hv, hmax⟩ := findByUri_registered wf env id c u h hp
  refine ⟨n, v, hf, hb, hv, ?_⟩
  intro hord c' u' hb' hp'
  apply Classical.byContradiction
  intro hlt
  obtain ⟨hpre, hne⟩ := hord n v c' u' hb hb' hv hp' (by omega)
  exact hne (strLe_antisymm (strLe_of_prefix hpre) (hmax c' u' hb' hp'))

/-- The namespace with the greatest *name* is chosen, not the one with the longest URI. -/
theorem C39_longest_violated : ∃ (reg : Chain Str Str) (env : Env) (id c u : Str), reg.WF ∧
    Binds reg c u ∧ u <+: id ∧
    ∃ n v, findByUri reg env id = some (n, v) ∧ v.length < u.length := by
  refine ⟨.dict [("z".toList, "http://x/".toList), ("a".toList, "http://x/a".toList)], exEnv,
    "http://x/a#/$defs/B".toList, "a".toList, "http://x/a".toList, .dict (by decide +kernel),
    .dict (by decide +kernel), by decide +kernel, "z".toList, "http://x/".toList, by decide +kernel,
    by decide +kernel⟩

example : findByUri exReg exEnv "http://x/lib/sub#/$defs/A".toList
    = some ("lib.sub".toList, "http://x/lib/sub".toList) := by decide +kernel

/-! ### C40 -/

/-- After any history of registrations a name is bound to what it was bound to at the start, or else to
the URI, without fragment, of the first call that registered the name. -/
theorem C40_first_wins (env : Env) (calls : Calls) (b : AList Str Str) (name : Str) :
    AList.get? (calls.foldl (fun b c => registerNs env b c.1 c.2) b) name =
      (AList.get? b name).or ((calls.find? (fun c => callName env.cnameOf c = name)).map
        (fun c => c.1.takeWhile (· ≠ '#'))) := by
  induction calls generalizing b with
  | nil => cases h : AList.get? b name <;> simp [h]
  | cons call calls ih =>
    have hname : ∀ b, registerNs env b call.1 call.2 =
        if AList.contains b (callName env.cnameOf call) then b
        else AList.set b (callName env.cnameOf call) (call.1.takeWhile (· ≠ '#')) := by
      intro b
      unfold registerNs callName
      rw [beforeHash_eq]
      rcases call with ⟨u, _ | _ | ⟨c, cs⟩⟩ <;> simp
    rw [List.foldl_cons, ih, hname]
    by_cases hc : callName env.cnameOf call = name
    · rw [List.find?_cons_of_pos (by simpa using hc)]
      by_cases hb : AList.contains b name = true
      · rw [hc, if_pos hb]
        obtain ⟨v, hv⟩ := Option.isSome_iff_exists.1 (by simpa [AList.contains] using hb)
        rw [hv]; rfl
      · rw [hc, if_neg hb, AList.get?_set_self]
        have : AList.get? b name = none := by simpa [AList.contains] using hb
        rw [this]; rfl
    · rw [List.find?_cons_of_neg (by simpa using hc)]
      congr 1
      split
      · rfl
      · rw [AList.get?_set_ne _ _ hc]

example : (([("http://x/a#/b".toList, some "n".toList), ("http://x/c".toList, some "n".toList)] : Calls).foldl
    (fun b c => registerNs exEnv b c.1 c.2) []) = [("n".toList, "http://x/a".toList)] := by decide +kernel

/-! ### C41 -/

/-- Operations that only ask. -/
def OnlyAsks (ops : List NsOp) : Prop :=
  ∀ op ∈ ops, (∃ r b, op = .askCname r b) ∨ ∃ c, op = .askId c

theorem step_ask (env : Env) (m : Mgr) (op : NsOp) (h : (∃ r b, op = .askCname r b) ∨ ∃ c, op = .askId c) :
    (m.step env op).reg = m.reg ∧ (m.step env op).cur = m.cur := by
  rcases h with ⟨r, b, rfl⟩ | ⟨c, rfl⟩
  · simp only [Mgr.step, Mgr.getIdCname]; split <;> exact ⟨rfl, rfl⟩
  · simp only [Mgr.step, Mgr.getCnameId]
    split
    · exact ⟨rfl, rfl⟩
    · split <;> exact ⟨rfl, rfl⟩

/-- The cache after one operation. -/
theorem step_idCache (env : Env) (m : Mgr) (op : NsOp) :
    (m.step env op).idCache = match op with
      | .askCname r _ => (m.idCache.call (fun k => .ok (idCname m.reg env k.1)) (r, m.cur)).2.2
      | _ => m.idCache := by
  cases op with
  | add uri name =>
    simp only [Mgr.step, Mgr.add]
    split
    · rename_i h; split at h <;> cases h; rfl
    · rfl
  | setCurrent name =>
    simp only [Mgr.step, Mgr.setCurrent]
    split
    · rename_i h; split at h
      · cases h
      · split at h <;> cases h; rfl
    · rfl
  | registerNs uri c => rfl
  | askCname r b =>
    simp only [Mgr.step, Mgr.getIdCname]
    split <;> (rename_i h; rw [h])
  | askId c =>
    simp only [Mgr.step, Mgr.getCnameId]
    split
    · rfl
    · split <;> rfl

theorem run_keys (env : Env) (ref : Str) (ops : List NsOp) (m : Mgr)
    (h : ∀ r b, NsOp.askCname r b ∈ ops → r ≠ ref) (hm : ∀ k ∈ AList.keys m.idCache.entries, k.1 ≠ ref) :
    ∀ k ∈ AList.keys (m.run env ops).idCache.entries, k.1 ≠ ref := by
  induction ops generalizing m with
  | nil => exact hm
  | cons op ops ih =>
    rw [Mgr.run, List.foldl_cons]
    refine ih _ (fun r b hr => h r b (by simp [hr])) ?_
    intro k hk
    rw [step_idCache] at hk
    cases op with
    | askCname r b =>
      rcases lru_keys _ _ _ _ hk with rfl | hk
      · exact h r b (by simp)
      · exact hm k hk
    | _ => exact hm k hk

theorem run_entries (env : Env) (ref : Str) (ops : List NsOp) (m : Mgr) (h : OnlyAsks ops)
    (hm : ∀ e ∈ m.idCache.entries, e.1.1 = ref → e.2 = idCname m.reg env ref) :
    (m.run env ops).reg = m.reg ∧ (m.run env ops).cur = m.cur ∧
    ∀ e ∈ (m.run env ops).idCache.entries, e.1.1 = ref → e.2 = idCname m.reg env ref := by
  induction ops generalizing m with
  | nil => exact ⟨rfl, rfl, hm⟩
  | cons op ops ih =>
    rw [Mgr.run, List.foldl_cons]
    obtain ⟨h1, h2⟩ := step_ask env m op (h op (by simp))
    have := ih (m.step env op) (fun o ho => h o (by simp [ho])) (by
      rw [h1, step_idCache]
      intro e he hr
      rcases h op (by simp) with ⟨r, b, rfl⟩ | ⟨c, rfl⟩
      · simp only [Lru.call] at he
        split at he
        · rename_i v hv
          simp only [List.mem_cons] at he
          rcases he with rfl | he
          · exact hm _ (AList.mem_of_get? hv) hr
          · exact hm e (List.mem_filter.1 he).1 hr
        · simp only at he
          have he : e ∈ ((r, m.cur), idCname m.reg env r) :: m.idCache.entries := by
            split at he
            · exact he
            · exact List.mem_of_mem_take he
          rcases List.mem_cons.1 he with rfl | he
          · simp only at hr ⊢; rw [hr]
          · exact hm e he hr
      · exact hm e he hr)
    rw [h1, h2] at this
    exact this

/-- Missing: identifiers asked before a namespace was added. The answer for an identifier is the one
computed with the namespaces registered at that time, if nothing but questions was done since it was
first asked. -/
theorem C41_current_partial (env : Env) (parents : List (Chain Str Str)) (loc builder : AList Str Str)
    (ops asks : List NsOp) (ref : Str) (h : ∀ r b, NsOp.askCname r b ∈ ops → r ≠ ref) (ha : OnlyAsks asks) :
    let m := ((Mgr.init parents loc builder).run env ops).run env asks
    (m.getIdCname env ref false).1 = .ok (idCname m.reg env ref) := by
  intro m
  have hk := run_keys env ref ops (Mgr.init parents loc builder) h (by simp [Mgr.init, AList.keys])
  obtain ⟨h1, h2, h3⟩ := run_entries env ref asks ((Mgr.init parents loc builder).run env ops) ha (by
    intro e he hr
    exact absurd hr (hk e.1 (List.mem_map.2 ⟨e, he, rfl⟩)))
  have hm : ∀ e ∈ m.idCache.entries, e.1.1 = ref → e.2 = idCname m.reg env ref := by
    rw [h1]; exact h3
  have : (m.idCache.call (fun k => .ok (idCname m.reg env k.1)) (ref, m.cur)).1
      = .ok (idCname m.reg env ref) := by
    unfold Lru.call
    split
    · rename_i v hv
      rw [← hm _ (AList.mem_of_get? hv) rfl]
    · rfl
  unfold Mgr.getIdCname
  generalize hg : m.idCache.call (fun k => .ok (idCname m.reg env k.1)) (ref, m.cur) = G at this
  obtain ⟨r, b, c⟩ := G
  simp only at this; subst this
  cases idCname m.reg env ref <;> rfl

/-- Asked once, a name is remembered although a namespace was added since. -/
theorem C41_current_violated : ∃ (env : Env) (ops : List NsOp) (ref : Str),
    let m := (Mgr.init [] [] []).run env ops
    (m.getIdCname env ref false).1 ≠ .ok (idCname m.reg env ref) ∧
    idCname m.reg env ref = some "lib.B".toList := by
  refine ⟨exEnv, [.askCname "http://x/a#/$defs/B".toList false, .add "http://x/a".toList (some "lib".toList)],
    "http://x/a#/$defs/B".toList, ?_⟩
  decide +kernel

example : (((Mgr.init [] [] []).run exEnv [.add "http://x/a".toList (some "lib".toList)]).getIdCname exEnv
    "http://x/a#/$defs/B".toList false).1 = .ok (some "lib.B".toList) := by decide +kernel

/-! ### C42 -/

/-- Alternating keywords and names: the dotted list of the cleaned names. -/
theorem C42_names (pairs : List (Str × Str)) (hne : pairs ≠ [])
    (hs : ∀ p ∈ pairs, '/' ∉ p.1 ∧ '/' ∉ p.2) (hk : ∀ p ∈ pairs.head?, p.1 ≠ []) :
    fragmentToCname (fragmentText (alternate pairs)) =
      joinWith ['.'] (pairs.map (fun p => cleanJsName p.2)) :=
  fragmentToCname_alternate pairs hne hs hk

/-- Clean names are told apart, whatever the keywords. -/
theorem C42_distinct (p q : List (Str × Str)) (hp : p ≠ []) (hq : q ≠ [])
    (hps : ∀ x ∈ p, x.1 ≠ [] ∧ '/' ∉ x.1 ∧ CleanName x.2) (hqs : ∀ x ∈ q, x.1 ≠ [] ∧ '/' ∉ x.1 ∧ CleanName x.2)
    (h : fragmentToCname (fragmentText (alternate p)) = fragmentToCname (fragmentText (alternate q))) :
    p.map Prod.snd = q.map Prod.snd := by
  have slash : ∀ (l : List (Str × Str)), (∀ x ∈ l, x.1 ≠ [] ∧ '/' ∉ x.1 ∧ CleanName x.2) →
      (∀ x ∈ l, '/' ∉ x.1 ∧ '/' ∉ x.2) := fun l hl x hx =>
    ⟨(hl x hx).2.1, fun hm => (identChar_ne ((hl x hx).2.2.2 _ hm).1).2.2.1 rfl⟩
  have names : ∀ (l : List (Str × Str)), (∀ x ∈ l, x.1 ≠ [] ∧ '/' ∉ x.1 ∧ CleanName x.2) →
      l.map (fun p => cleanJsName p.2) = l.map Prod.snd := fun l hl =>
    List.map_congr_left (fun x hx => cleanJsName_clean (hl x hx).2.2)
  have dots : ∀ (l : List (Str × Str)), (∀ x ∈ l, x.1 ≠ [] ∧ '/' ∉ x.1 ∧ CleanName x.2) →
      ∀ w ∈ l.map Prod.snd, '.' ∉ w := by
    intro l hl w hw hm
    obtain ⟨x, hx, rfl⟩ := List.mem_map.1 hw
    exact ((hl x hx).2.2.2 _ hm).2 rfl
  rw [C42_names p hp (slash p hps) (fun x hx => (hps x (List.mem_of_head? hx)).1),
    C42_names q hq (slash q hqs) (fun x hx => (hqs x (List.mem_of_head? hx)).1), names p hps, names q hqs] at h
  have := congrArg (splitOn '.') h
  rwa [splitOn_joinWith _ (by simpa using hp) (dots p hps), splitOn_joinWith _ (by simpa using hq) (dots q hqs)]
    at this

example : fragmentToCname "/$defs/My-Class/properties/a:b".toList = "My_Class.b".toList ∧
    fragmentToCname (fragmentText (alternate [("$defs".toList, "A".toList), ("properties".toList, "b".toList)]))
      = "A.b".toList := by decide +kernel

/-! ### C88 -/

/-- Missing: that it is the most specific document. When no registered namespace covers the name, the
first loaded document covering it is found, whenever there is one. -/
theorem C88_documents_partial (reg : Chain Str Str) (wf : reg.WF) (env : Env) (name u : Str)
    (h : ∀ c v, Binds reg c v → ¬ DottedPrefix c name) (hu : u ∈ env.docs)
    (hd : DottedPrefix (env.cnameOf u) name) :
    ∃ pre v post, env.docs = pre ++ v :: post ∧ DottedPrefix (env.cnameOf v) name ∧
      (∀ w ∈ pre, ¬ DottedPrefix (env.cnameOf w) name) ∧
      findByCname reg env name = some (env.cnameOf v, v) := by
  unfold findByCname
  rw [none_of_no_candidate wf _ (fun c u hb => by
    have := h c u hb; rw [← covers_iff] at this; simpa using this)]
  cases hf : env.docs.find? (fun u => covers (env.cnameOf u) name) with
  | none =>
    rw [List.find?_eq_none] at hf
    exact absurd (covers_iff.2 hd) (hf u hu)
  | some v =>
    obtain ⟨hv, pre, post, e, hpre⟩ := List.find?_eq_some_iff_append.1 hf
    refine ⟨pre, v, post, e, covers_iff.1 hv, ?_, rfl⟩
    intro w hw hd
    have := hpre w hw
    rw [covers_iff.2 hd] at this; simp at this

/-- The first loaded document is taken even if a later one is more specific. -/
theorem C88_documents_violated : ∃ (env : Env) (name : Str), ∃ u ∈ env.docs,
    DottedPrefix (env.cnameOf u) name ∧
    ∃ n v, findByCname (.dict []) env name = some (n, v) ∧ n.length < (env.cnameOf u).length := by
  refine ⟨⟨["http://x/a".toList, "http://x/a/b".toList], fun u => replaceChar '/' '.' (u.drop 9), fun _ _ => none⟩,
    "a.b.C".toList, "http://x/a/b".toList, by simp, .inr ⟨"C".toList, by decide +kernel⟩, "a".toList,
    "http://x/a".toList, by decide +kernel, by decide +kernel⟩

/-! ### C89 -/

/-- The path computed for a canonical name in a namespace whose document is not loaded, given the last
keyword. -/
theorem cnameId_eq (reg : Chain Str Str) (env : Env) (cur n U : Str) (cs : List Str) (kw : Str)
    (hf : findByCname reg env (n ++ '.' :: joinWith ['.'] cs) = some (n, U))
    (hne : cs ≠ []) (hc : ∀ c ∈ cs, CleanName c) (hU : U ≠ []) (hh : '#' ∉ U)
    (hdoc : U ∈ env.docs → env.search U cs = none)
    (hlk : lastKeyword cs = .ok kw) :
    cnameId reg env (n ++ '.' :: joinWith ['.'] cs) cur =
        .ok (joinWith ['/'] ((U ++ ['#']) ::
          (cs.dropLast.flatMap (fun c => ["$defs".toList, c]) ++ [kw, cs.getLast?.getD []]))) := by
  have hdrop : (n ++ '.' :: joinWith ['.'] cs).drop n.length = '.' :: joinWith ['.'] cs := by simp
  have hsplit : splitOn '.' ('.' :: joinWith ['.'] cs) = [] :: cs := by
    have : splitOn '.' ([] ++ '.' :: joinWith ['.'] cs) = [] :: splitOn '.' (joinWith ['.'] cs) :=
      splitOn_append (by simp)
    rw [List.nil_append] at this
    rw [this, splitOn_joinWith cs hne (fun c hm hd => ((hc c hm).2 _ hd).2 rfl)]
  unfold cnameId
  simp only [hf, hdrop, hsplit]
  rw [if_neg (by simp), hlk]
  have hd : ∀ r q : Res Str, (env.search U cs = none → q = r) → (if U ∈ env.docs then q else r) = r := by
    intro r q hq
    by_cases h : U ∈ env.docs
    · rw [if_pos h, hq (hdoc h)]
    · rw [if_neg h]
  rw [hd _ _ (fun h => by rw [h])]
  cases U with
  | nil => exact absurd rfl hU
  | cons x U => simp only; rw [if_neg hh]

/-- The same as text. -/
theorem path_text {U kw : Str} {cs : List Str} (_hne : cs ≠ []) :
    joinWith ['/'] ((U ++ ['#']) ::
      (cs.dropLast.flatMap (fun c => ["$defs".toList, c]) ++ [kw, cs.getLast?.getD []])) =
    U ++ '#' :: fragmentText (cs.dropLast.flatMap (fun c => ["$defs".toList, c]) ++ [kw, cs.getLast?.getD []]) := by
  rw [joinWith.eq_3 _ _ _ (by simp), fragmentText_eq _ (by simp)]; simp

/-- The path computed for a canonical name in a namespace whose document is not loaded. -/
theorem cnameId_computed (reg : Chain Str Str) (env : Env) (cur n U : Str) (cs : List Str)
    (hf : findByCname reg env (n ++ '.' :: joinWith ['.'] cs) = some (n, U))
    (hne : cs ≠ []) (hc : ∀ c ∈ cs, CleanName c) (hU : U ≠ []) (hh : '#' ∉ U)
    (hdoc : U ∈ env.docs → env.search U cs = none) :
    ∃ kw, (kw = "$defs".toList ∨ kw = "properties".toList) ∧
      cnameId reg env (n ++ '.' :: joinWith ['.'] cs) cur =
        .ok (joinWith ['/'] ((U ++ ['#']) ::
          (cs.dropLast.flatMap (fun c => ["$defs".toList, c]) ++ [kw, cs.getLast?.getD []]))) := by
  have hk : ∃ kw, (kw = "$defs".toList ∨ kw = "properties".toList) ∧ lastKeyword cs = .ok kw := by
    unfold lastKeyword
    split
    · rename_i hl
      have hr : ∀ c ∈ cs.reverse, c ≠ [] := fun c hm => (hc c (by simpa using hm)).1
      rcases hrev : cs.reverse with _ | ⟨l, _ | ⟨u, rest⟩⟩
      · have : cs.length = 0 := by simpa using congrArg List.length hrev
        omega
      · have : cs.length = 1 := by simpa using congrArg List.length hrev
        omega
      · rw [hrev] at hr
        have h1 := hr l (by simp)
        have h2 := hr u (by simp)
        cases l with
        | nil => exact absurd rfl h1
        | cons l ls =>
          cases u with
          | nil => exact absurd rfl h2
          | cons u us =>
            simp only
            refine ⟨_, ?_, rfl⟩
            split <;> simp
    · exact ⟨_, .inl rfl, rfl⟩
  obtain ⟨kw, hkw, hlk⟩ := hk
  refine ⟨kw, hkw, ?_⟩
  have hdrop : (n ++ '.' :: joinWith ['.'] cs).drop n.length = '.' :: joinWith ['.'] cs := by simp
  have hsplit : splitOn '.' ('.' :: joinWith ['.'] cs) = [] :: cs := by
    have : splitOn '.' ([] ++ '.' :: joinWith ['.'] cs) = [] :: splitOn '.' (joinWith ['.'] cs) :=
      splitOn_append (by simp)
    rw [List.nil_append] at this
    rw [this, splitOn_joinWith cs hne (fun c hm hd => ((hc c hm).2 _ hd).2 rfl)]
  unfold cnameId
  simp only [hf, hdrop, hsplit]
  rw [if_neg (by simp), hlk]
  have hd : ∀ r q : Res Str, (env.search U cs = none → q = r) → (if U ∈ env.docs then q else r) = r := by
    intro r q hq
    by_cases h : U ∈ env.docs
    · rw [if_pos h, hq (hdoc h)]
    · rw [if_neg h]
  rw [hd _ _ (fun h => by rw [h])]
  cases U with
  | nil => exact absurd rfl hU
  | cons x U => simp only; rw [if_neg hh]

/-- The pairs of a computed path. -/
def defPairs (cs : List Str) (kw : Str) : List (Str × Str) :=
  cs.dropLast.map (fun c => ("$defs".toList, c)) ++ [(kw, cs.getLast?.getD [])]

theorem alternate_defPairs (cs : List Str) (kw : Str) :
    cs.dropLast.flatMap (fun c => ["$defs".toList, c]) ++ [kw, cs.getLast?.getD []]
      = alternate (defPairs cs kw) := by
  rw [alternate, defPairs, List.flatMap_append, List.flatMap_map]
  rfl

/-- A name in a namespace whose document is not loaded, or has no such definition: the identifier computed for it lies in
the document of the namespace, and the canonical name of the identifier is the name again, provided no other
registered namespace claims the name or the identifier. -/
theorem C89_round_trip (reg : Chain Str Str) (wf : reg.WF) (env : Env) (cur n U : Str) (cs : List Str)
    (hn : Binds reg n U) (hn0 : n ≠ []) (hU : U ≠ []) (hh : '#' ∉ U)
    (hdoc : U ∈ env.docs → env.search U cs = none)
    (hne : cs ≠ []) (hc : ∀ c ∈ cs, CleanName c)
    (honly : ∀ c u, Binds reg c u → DottedPrefix c (n ++ '.' :: joinWith ['.'] cs) → c = n) :
    ∃ id, cnameId reg env (n ++ '.' :: joinWith ['.'] cs) cur = .ok id ∧ (U ++ "#/".toList) <+: id ∧
      ((∀ c u, Binds reg c u → u <+: id → c = n) →
        idCname reg env id = some (n ++ '.' :: joinWith ['.'] cs)) := by
  obtain ⟨n', v, hf, hb, hd, _⟩ := findByCname_registered wf env (n ++ '.' :: joinWith ['.'] cs) n U hn
    (.inr ⟨_, rfl⟩)
  have := honly n' v hb hd; subst this
  have := binds_unique wf hb hn; subst this
  obtain ⟨kw, hkw, hid⟩ := cnameId_computed reg env cur n' v cs hf hne hc hU hh hdoc
  rw [alternate_defPairs] at hid
  have hane : alternate (defPairs cs kw) ≠ [] := by simp [alternate, defPairs]
  have hjoin : joinWith ['/'] ((v ++ ['#']) :: alternate (defPairs cs kw)) =
      v ++ '#' :: fragmentText (alternate (defPairs cs kw)) := by
    rw [joinWith.eq_3 _ _ _ (by simpa using hane), fragmentText_eq _ hane]; simp
  rw [hjoin] at hid
  refine ⟨_, hid, ?_, ?_⟩
  · rw [fragmentText_eq _ hane]
    exact ⟨joinWith ['/'] (alternate (defPairs cs kw)), by simp⟩
  · intro huri
    obtain ⟨n₂, v₂, hf₂, hb₂, hp₂, _⟩ := findByUri_registered wf env
      (v ++ '#' :: fragmentText (alternate (defPairs cs kw))) n' v hn ⟨_, rfl⟩
    have := huri n₂ v₂ hb₂ hp₂; subst this
    have := binds_unique wf hb₂ hn; subst this
    have hlast : cs.getLast?.getD [] ∈ cs := by
      cases hl : cs.getLast? with
      | none => rw [List.getLast?_eq_none_iff] at hl; exact absurd hl hne
      | some w => exact List.mem_of_getLast? hl
    have hd1 : "$defs".toList ≠ [] := by decide +kernel
    have hd2 : '/' ∉ "$defs".toList := by decide +kernel
    have hd3 : '#' ∉ "$defs".toList := by decide +kernel
    have hpc : ∀ p ∈ defPairs cs kw, p.1 ≠ [] ∧ '/' ∉ p.1 ∧ '#' ∉ p.1 ∧ CleanName p.2 := by
      intro p hp
      rw [defPairs, List.mem_append] at hp
      rcases hp with hp | hp
      · obtain ⟨c, hcm, rfl⟩ := List.mem_map.1 hp
        exact ⟨hd1, hd2, hd3, hc c (List.dropLast_subset _ hcm)⟩
      · simp at hp; subst hp
        rcases hkw with rfl | rfl
        · exact ⟨hd1, hd2, hd3, hc _ hlast⟩
        · exact ⟨by simp, by simp, by simp, hc _ hlast⟩
    have hclean : ∀ x ∈ fragmentText (alternate (defPairs cs kw)), x ≠ '#' := by
      intro x hx
      rw [fragmentText, List.mem_flatMap] at hx
      obtain ⟨s, hs, hx⟩ := hx
      rcases List.mem_cons.1 hx with rfl | hx
      · decide
      · rw [alternate, List.mem_flatMap] at hs
        obtain ⟨p, hp, hs⟩ := hs
        have := hpc p hp
        simp at hs
        rcases hs with rfl | rfl
        · rintro rfl; exact this.2.2.1 hx
        · exact (identChar_ne (this.2.2.2.2 x hx).1).2.2.2
    have hstrip : strip (· == '#') ('#' :: fragmentText (alternate (defPairs cs kw)))
        = fragmentText (alternate (defPairs cs kw)) := by
      have h1 : lstrip (· == '#') ('#' :: fragmentText (alternate (defPairs cs kw)))
          = fragmentText (alternate (defPairs cs kw)) := by
        have : lstrip (· == '#') ('#' :: fragmentText (alternate (defPairs cs kw)))
          = lstrip (· == '#') (fragmentText (alternate (defPairs cs kw))) := by simp [lstrip]
        rw [this]
        apply lstrip_eq_self
        intro c hc'
        simpa using hclean c (List.mem_of_head? hc')
      rw [strip, h1, lstrip_eq_self, List.reverse_reverse]
      intro c hc'
      simpa using hclean c (by simpa using List.mem_of_head? hc')
    unfold idCname
    rw [hf₂]
    simp only
    have hcond : (!v₂.isEmpty && v₂.isPrefixOf (v₂ ++ '#' :: fragmentText (alternate (defPairs cs kw)))) = true := by
      rw [Bool.and_eq_true, List.isPrefixOf_iff_prefix]
      refine ⟨?_, ⟨_, rfl⟩⟩
      cases v₂ with
      | nil => exact absurd rfl hU
      | cons => rfl
    have hdrop : (v₂ ++ '#' :: fragmentText (alternate (defPairs cs kw))).drop v₂.length
        = '#' :: fragmentText (alternate (defPairs cs kw)) := by simp
    rw [if_pos hcond, hdrop, if_pos (by simp), hstrip,
      fragmentToCname_alternate _ (by simp [defPairs])
        (fun p hp => ⟨(hpc p hp).2.1, fun hm => (identChar_ne ((hpc p hp).2.2.2.2 _ hm).1).2.2.1 rfl⟩)
        (fun p hp => (hpc p (List.mem_of_head? hp)).1)]
    have hnames : (defPairs cs kw).map (fun p => cleanJsName p.2) = cs := by
      rw [List.map_congr_left (g := Prod.snd) (fun p hp => cleanJsName_clean (hpc p hp).2.2.2)]
      rw [defPairs, List.map_append, List.map_map]
      have : (Prod.snd ∘ fun c : Str => ("$defs".toList, c)) = id := rfl
      rw [this, List.map_id]
      cases hl : cs.getLast? with
      | none => rw [List.getLast?_eq_none_iff] at hl; exact absurd hl hne
      | some w =>
        obtain ⟨ys, rfl⟩ := List.getLast?_eq_some_iff.1 hl
        simp
    rw [hnames, if_pos]
    · simp
    · cases n₂ with
      | nil => exact absurd rfl hn0
      | cons => rfl

example : cnameId exReg exEnv "lib.sub.A.B.c".toList [] =
      .ok "http://x/lib/sub#/$defs/A/$defs/B/properties/c".toList ∧
    idCname exReg exEnv "http://x/lib/sub#/$defs/A/$defs/B/properties/c".toList =
      some "lib.sub.A.B.c".toList := by decide +kernel

/-! ### C90 -/

theorem registry_wf {m : Mgr} (h : AList.WF m.loc) (hp : ∀ c ∈ m.parents, c.WF) : m.registry.WF := by
  refine .chain ?_
  intro c hc
  rcases List.mem_cons.1 hc with rfl | hc
  · exact .dict h
  · exact hp c hc

/-- Missing: that the namespace is a *dotted* prefix of the name. The current namespace becomes a
registered one whose name is a prefix of the name, no registered prefix is longer, its URI becomes the
default; it succeeds whenever a default namespace is registered; and if the registered prefixes of the
name are dotted prefixes (or the default), the namespace is the most specific one containing the name. -/
theorem C90_set_current_partial (m : Mgr) (hw : AList.WF m.loc) (hp : ∀ c ∈ m.parents, c.WF) (name u₀ : Str)
    (h0 : Binds m.registry [] u₀) :
    ∃ m', m.setCurrent name = .ok m' ∧ m'.cur <+: name ∧ Binds m.registry m'.cur m'.curUri ∧
      (∀ c u, Binds m.registry c u → c <+: name → c.length ≤ m'.cur.length) ∧
      Binds m'.registry [] m'.curUri ∧ m'.builder = m.builder ∧ m'.parents = m.parents ∧
      (∀ k, k ≠ [] → AList.get? m'.loc k = AList.get? m.loc k) ∧
      ((∀ c u, Binds m.registry c u → c <+: name → DottedPrefix c name ∨ c = []) →
        ∀ c u, Binds m.registry c u → DottedPrefix c name →
          (DottedPrefix m'.cur name ∨ m'.cur = []) ∧ c.length ≤ m'.cur.length) := by
  have wf := registry_wf hw hp
  have hmem : ([] : Str) ∈ m.registry.iter.filter (fun k => k.isPrefixOf name) :=
    List.mem_filter.2 ⟨(ChainMap.mem_iter _ _).2 (ChainMap.binds_hasKey h0), by simp⟩
  obtain ⟨cn, hcn⟩ := greatest_isSome hmem
  obtain ⟨hm, hle⟩ := greatest_spec hcn
  obtain ⟨hit, hpre⟩ := List.mem_filter.1 hm
  rw [List.isPrefixOf_iff_prefix] at hpre
  obtain ⟨u, hu⟩ := (ChainMap.getItem_total m.registry cn).1 ((ChainMap.mem_iter _ _).1 hit)
  have hb := (binds_iff wf _ _).1 hu
  have hmax : ∀ c u, Binds m.registry c u → c <+: name → c.length ≤ cn.length := by
    intro c u' hb' hc'
    exact length_le_of_strLe hc' hpre (hle c (List.mem_filter.2
      ⟨(ChainMap.mem_iter _ _).2 (ChainMap.binds_hasKey hb'), List.isPrefixOf_iff_prefix.2 hc'⟩))
  refine ⟨{ m with cur := cn, curUri := u, loc := AList.set m.loc [] u }, ?_, hpre, hb, hmax, ?_, rfl, rfl,
    ?_, ?_⟩
  · rw [Mgr.setCurrent, hcn]; simp only [hu]
  · exact ChainMap.Binds.chain (pre := []) (by simp) (.dict (AList.mem_of_get? (AList.get?_set_self _ _ _)))
  · intro k hk; exact AList.get?_set_ne _ _ (Ne.symm hk)
  · intro hall c u' hb' hd
    exact ⟨hall cn u hb hpre, hmax c u' hb' (dottedPrefix_prefix hd)⟩

/-- `ab` becomes current for `abc.X`, which is not in it. -/
theorem C90_set_current_violated : ∃ (m m' : Mgr) (name : Str), m.setCurrent name = .ok m' ∧
    m'.cur ≠ [] ∧ ¬ DottedPrefix m'.cur name := by
  refine ⟨Mgr.init [] [("ab".toList, "http://x/ab".toList)] [], _, "abc.X".toList, rfl, ?_, ?_⟩
  · decide +kernel
  · rw [← covers_iff]; decide +kernel

example : ∃ m', (Mgr.init [] [("ab".toList, "http://x/ab".toList)] []).setCurrent "ab.X".toList = .ok m' ∧
    m'.cur = "ab".toList ∧ m'.curUri = "http://x/ab".toList := ⟨_, rfl, by decide +kernel, by decide +kernel⟩

/-! ### C91 -/

/-- Missing: names that merely begin with the letters of the current namespace. A name inside the current
namespace is given without its prefix, so that prefixing it again gives the full name; a name that does
not begin with the letters of the current namespace is given in full. -/
theorem C91_relative_partial (cur rest name : Str) (hc : cur ≠ []) :
    relativeName cur (cur ++ '.' :: rest) = rest ∧ (¬ cur <+: name → relativeName cur name = name) := by
  constructor
  · unfold relativeName
    rw [if_pos]
    · have hd : (cur ++ '.' :: rest).drop cur.length = '.' :: rest := by simp
      have hs : splitOn '.' ([] ++ '.' :: rest) = [] :: splitOn '.' rest := splitOn_append (by simp)
      rw [List.nil_append] at hs
      rw [hd, hs]
      exact joinWith_splitOn '.' rest
    · rw [Bool.and_eq_true, List.isPrefixOf_iff_prefix]
      refine ⟨?_, ⟨_, rfl⟩⟩
      cases cur with
      | nil => exact absurd rfl hc
      | cons => rfl
  · intro h
    unfold relativeName
    rw [if_neg]
    rw [Bool.and_eq_true, List.isPrefixOf_iff_prefix]
    exact fun hh => h hh.2

/-- In namespace `ab`, the type `abc.X` is reported as `ab`: neither the full name nor a name relative to
the namespace. -/
theorem C91_relative_violated : ∃ (m : Mgr) (ref : Str),
    (m.getIdCname exEnv ref false).1 = .ok (some "abc.X".toList) ∧ m.cur = "ab".toList ∧
    (m.getIdCname exEnv ref true).1 = .ok (some "ab".toList) := by
  refine ⟨(Mgr.init [] [("ab".toList, "http://x/1".toList), ("abc".toList, "http://x/2".toList)] []).run exEnv
    [.setCurrent "ab".toList], "http://x/2#/$defs/X".toList, ?_⟩
  decide +kernel

example : relativeName "ab".toList "ab.X.y".toList = "X.y".toList := by decide +kernel

/-! ### C92 -/

theorem climb_dots (k : Nat) (rcn : List Str) (name : Str) (hne : name ≠ []) (hd : name.head? ≠ some '.') :
    climb rcn (List.replicate k '.' ++ name) =
      if k ≤ rcn.length then .ok (rcn.drop k, name) else .error .indexError := by
  induction k generalizing rcn with
  | zero =>
    cases name with
    | nil => exact absurd rfl hne
    | cons c cs =>
      have : c ≠ '.' := by rintro rfl; simp at hd
      rw [climb.eq_def]; simp [this]
  | succ k ih =>
    rw [List.replicate_succ, List.cons_append, climb.eq_def]; simp only [if_true]
    cases rcn with
    | nil => simp
    | cons w rcn =>
      simp only [ih]
      simp [List.length_cons]

/-- One dot stands for the current namespace, each further dot for one level up; climbing above the top
is an IndexError. -/
theorem C92_leading_dots (comps : List Str) (hc : comps ≠ []) (hdots : ∀ c ∈ comps, '.' ∉ c) (k : Nat)
    (name : Str) (hne : name ≠ []) (hd : name.head? ≠ some '.') :
    resolveDots (joinWith ['.'] comps) ('.' :: (List.replicate k '.' ++ name)) =
      if k ≤ comps.length then .ok (joinWith ['.'] (comps.take (comps.length - k) ++ [name]))
      else .error .indexError := by
  rw [resolveDots, splitOn_joinWith comps hc hdots, climb_dots k _ name hne hd]
  rw [List.length_reverse]
  by_cases h : k ≤ comps.length
  · simp only [if_pos h]
    rw [List.drop_reverse, List.reverse_reverse]
  · simp only [if_neg h]

/-- Other names are absolute. -/
theorem C92_absolute (cur name : Str) (h : name.head? ≠ some '.') : resolveDots cur name = .ok name := by
  unfold resolveDots
  split
  · simp at h
  · rfl

example : resolveDots "a.b.c".toList "..X".toList = .ok "a.b.X".toList ∧
    resolveDots "a".toList "...X".toList = .error .indexError := by decide +kernel

/-! ### C93 -/

theorem foldl_pathStep (segs : List Str) (h : ∀ s ∈ segs, s ≠ [] ∧ '-' ∉ s ∧ ∀ c ∈ s.head?, c.isDigit = false)
    (cn : List Str) : segs.foldl pathStep cn = cn ++ segs := by
  induction segs generalizing cn with
  | nil => simp
  | cons s segs ih =>
    obtain ⟨h1, h2, h3⟩ := h s (by simp)
    rw [List.foldl_cons, ih (fun t ht => h t (by simp [ht]))]
    cases s with
    | nil => exact absurd rfl h1
    | cons c s =>
      have := h3 c (by simp)
      have hr : replaceChar '-' '_' (c :: s) = c :: s := by
        rw [replaceChar]
        conv => rhs; rw [← List.map_id (c :: s)]
        apply List.map_congr_left
        intro d hd
        rw [if_neg (by rintro rfl; exact h2 hd)]; rfl
      simp [pathStep, this, hr]

/-- A document of the home domain, with plain path segments (not empty, not starting with a digit, no
dash): its canonical name is the dotted path. -/
theorem C93_dotted_path (ms : Str) (segs : List Str) (hne : segs ≠ [])
    (h : ∀ s ∈ segs, s ≠ [] ∧ '-' ∉ s ∧ '/' ∉ s ∧ ∀ c ∈ s.head?, c.isDigit = false) :
    uriToCname ms ⟨ms, fragmentText segs, []⟩ = joinWith ['.'] segs := by
  have hs : splitOn '/' (fragmentText segs) = [] :: segs := by
    rw [fragmentText_eq segs hne]
    have : splitOn '/' ([] ++ '/' :: joinWith ['/'] segs) = [] :: splitOn '/' (joinWith ['/'] segs) :=
      splitOn_append (by simp)
    rw [List.nil_append] at this
    rw [this, splitOn_joinWith segs hne (fun s hs => (h s hs).2.2.1)]
  unfold uriToCname
  simp only [hs, ne_eq, not_true_eq_false, if_false]
  rw [List.foldl_cons, show pathStep [] [] = [] from rfl,
    foldl_pathStep segs (fun s hm => ⟨(h s hm).1, (h s hm).2.1, (h s hm).2.2.2⟩)]
  simp

/-- Such documents, with dot-free segments, have different canonical names unless their paths are equal. -/
theorem C93_distinct (ms : Str) (p q : List Str) (hp : p ≠ []) (hq : q ≠ [])
    (h : ∀ s, s ∈ p ∨ s ∈ q → s ≠ [] ∧ '-' ∉ s ∧ '/' ∉ s ∧ '.' ∉ s ∧ ∀ c ∈ s.head?, c.isDigit = false)
    (he : uriToCname ms ⟨ms, fragmentText p, []⟩ = uriToCname ms ⟨ms, fragmentText q, []⟩) : p = q := by
  rw [C93_dotted_path ms p hp (fun s hs => by have := h s (.inl hs); exact ⟨this.1, this.2.1, this.2.2.1, this.2.2.2.2⟩),
    C93_dotted_path ms q hq (fun s hs => by have := h s (.inr hs); exact ⟨this.1, this.2.1, this.2.2.1, this.2.2.2.2⟩)]
    at he
  have := congrArg (splitOn '.') he
  rwa [splitOn_joinWith p hp (fun s hs => (h s (.inl hs)).2.2.2.1),
    splitOn_joinWith q hq (fun s hs => (h s (.inr hs)).2.2.2.1)] at this

example : uriToCname "x.org".toList ⟨"x.org".toList, "/lib/sub".toList, []⟩ = "lib.sub".toList ∧
    uriToCname "x.org".toList ⟨"my-site.org".toList, "/lib/1.0".toList, []⟩ = "my_site.lib_1.0".toList := by
  decide +kernel

/-! ### C344: documents of different domains get different names -/

/-- Only the first label of another domain comes before the path. -/
theorem C344_label_partial (ms label rest : Str) (segs : List Str) (hms : label ++ '.' :: rest ≠ ms)
    (hl : '.' ∉ label ∧ '-' ∉ label) (hne : segs ≠ [])
    (h : ∀ s ∈ segs, s ≠ [] ∧ '-' ∉ s ∧ '/' ∉ s ∧ ∀ c ∈ s.head?, c.isDigit = false) :
    uriToCname ms ⟨label ++ '.' :: rest, fragmentText segs, []⟩ = joinWith ['.'] (label :: segs) := by
  have hs : splitOn '/' (fragmentText segs) = [] :: segs := by
    rw [fragmentText_eq segs hne]
    have : splitOn '/' ([] ++ '/' :: joinWith ['/'] segs) = [] :: splitOn '/' (joinWith ['/'] segs) :=
      splitOn_append (by simp)
    rw [List.nil_append] at this
    rw [this, splitOn_joinWith segs hne (fun s hs => (h s hs).2.2.1)]
  have hr : replaceChar '-' '_' label = label := by
    rw [replaceChar]
    conv => rhs; rw [← List.map_id label]
    apply List.map_congr_left
    intro d hd
    rw [if_neg (by rintro rfl; exact hl.2 hd)]; rfl
  unfold uriToCname
  simp only [hs, ne_eq, hms, not_false_eq_true, if_true]
  rw [splitOn_append hl.1, List.head?_cons, Option.getD_some, hr, List.foldl_cons, show pathStep [label] [] = [label] from rfl,
    foldl_pathStep segs (fun s hm => ⟨(h s hm).1, (h s hm).2.1, (h s hm).2.2.2⟩)]
  rfl

/-- So the same path in two domains with the same first label has one name, which is that of a document of the home
domain too. -/
theorem C344_domains_violated (ms label rest rest' : Str) (segs : List Str)
    (hms : label ++ '.' :: rest ≠ ms) (hms' : label ++ '.' :: rest' ≠ ms)
    (hl : label ≠ [] ∧ '.' ∉ label ∧ '-' ∉ label ∧ '/' ∉ label ∧ ∀ c ∈ label.head?, c.isDigit = false)
    (hne : segs ≠ []) (h : ∀ s ∈ segs, s ≠ [] ∧ '-' ∉ s ∧ '/' ∉ s ∧ ∀ c ∈ s.head?, c.isDigit = false) :
    uriToCname ms ⟨label ++ '.' :: rest, fragmentText segs, []⟩
      = uriToCname ms ⟨label ++ '.' :: rest', fragmentText segs, []⟩
    ∧ uriToCname ms ⟨label ++ '.' :: rest, fragmentText segs, []⟩
      = uriToCname ms ⟨ms, fragmentText (label :: segs), []⟩ := by
  rw [C344_label_partial ms label rest segs hms ⟨hl.2.1, hl.2.2.1⟩ hne h,
    C344_label_partial ms label rest' segs hms' ⟨hl.2.1, hl.2.2.1⟩ hne h,
    C93_dotted_path ms (label :: segs) (by simp) (by
      intro s hs
      rcases List.mem_cons.1 hs with rfl | hs
      · exact ⟨hl.1, hl.2.2.1, hl.2.2.2.1, hl.2.2.2.2⟩
      · exact h s hs)]
  exact ⟨rfl, rfl⟩

example : uriToCname "x.org".toList ⟨"json-schema.org".toList, "/draft/core".toList, []⟩ = "json_schema.draft.core".toList
    ∧ uriToCname "x.org".toList ⟨"lib.org".toList, "/a".toList, []⟩ = "lib.a".toList
    ∧ uriToCname "x.org".toList ⟨"lib.com".toList, "/a".toList, []⟩ = "lib.a".toList
    ∧ uriToCname "x.org".toList ⟨"x.org".toList, "/lib/a".toList, []⟩ = "lib.a".toList := by decide +kernel

/-! ### C94 -/

/-- Missing: the dot when there is a fragment. Without a fragment the name is the document's name; with
one, the fragment's name comes right after it. -/
theorem C94_fragment_partial (ms : Str) (u : Url) :
    (u.fragment = [] → uriToCname ms u = uriToCname ms { u with fragment := [] }) ∧
    (u.fragment ≠ [] →
      uriToCname ms u = uriToCname ms { u with fragment := [] } ++ fragmentToCname u.fragment) := by
  unfold uriToCname
  constructor
  · intro h; simp [h]
  · intro h
    cases hf : u.fragment with
    | nil => exact absurd hf h
    | cons c cs => simp

/-- The definition `B` of the document `a` is named `aB`. -/
theorem C94_fragment_violated : ∃ (ms : Str) (u : Url), u.fragment ≠ [] ∧
    uriToCname ms u ≠ uriToCname ms { u with fragment := [] } ++ ['.'] ++ fragmentToCname u.fragment ∧
    uriToCname ms u = "aB".toList :=
  ⟨"x.org".toList, ⟨"x.org".toList, "/a".toList, "/$defs/B".toList⟩, by decide +kernel⟩

/-! ### C39, C89, C93: more -/

/-- When no registered URI is a prefix of the identifier, a loaded document with the URI of the identifier
(without its fragment) is found under its canonical name, and nothing is found if there is none. -/
theorem C39_document (reg : Chain Str Str) (wf : reg.WF) (env : Env) (id : Str)
    (h : ∀ c u, Binds reg c u → ¬ u <+: id) :
    findByUri reg env id = if id.takeWhile (· ≠ '#') ∈ env.docs
      then some (env.cnameOf (id.takeWhile (· ≠ '#')), id.takeWhile (· ≠ '#')) else none := by
  unfold findByUri
  rw [none_of_no_candidate wf _ (fun c u hb => by
    have := h c u hb; rw [← List.isPrefixOf_iff_prefix] at this; simpa only [Bool.not_eq_true] using this),
    beforeHash_eq]

example : findByUri (.dict []) ⟨["http://x/a".toList], fun _ => "a".toList, fun _ _ => none⟩
    "http://x/a#/$defs/B".toList = some ("a".toList, "http://x/a".toList) := by decide +kernel

/-- The URI of a namespace has the name of the namespace (if no other namespace claims it). -/
theorem C89_namespace_itself (reg : Chain Str Str) (wf : reg.WF) (env : Env) (n U : Str) (hn : Binds reg n U)
    (hU : U ≠ []) (honly : ∀ c u, Binds reg c u → u <+: U → c = n) : idCname reg env U = some n := by
  obtain ⟨n', v, hf, hb, hp, _⟩ := findByUri_registered wf env U n U hn (List.prefix_refl _)
  have := honly n' v hb hp; subst this
  have := binds_unique wf hb hn; subst this
  unfold idCname
  rw [hf]
  cases v with
  | nil => exact absurd rfl hU
  | cons c cs =>
    have hp : (c :: cs).isPrefixOf (c :: cs) = true := List.isPrefixOf_iff_prefix.2 (List.prefix_refl _)
    simp only [hp]
    simp

example : idCname exReg exEnv "http://x/ry".toList = some "library".toList := by decide +kernel

/-- The identifier of a name of one or two components below its namespace goes through definitions only. -/
theorem C89_path_short (reg : Chain Str Str) (env : Env) (cur n U : Str) (cs : List Str)
    (hf : findByCname reg env (n ++ '.' :: joinWith ['.'] cs) = some (n, U))
    (hne : cs ≠ []) (hl : cs.length ≤ 2) (hc : ∀ c ∈ cs, CleanName c) (hU : U ≠ []) (hh : '#' ∉ U)
    (hdoc : U ∈ env.docs → env.search U cs = none) :
    cnameId reg env (n ++ '.' :: joinWith ['.'] cs) cur =
      .ok (U ++ '#' :: fragmentText (cs.flatMap (fun c => ["$defs".toList, c]))) := by
  rw [cnameId_eq reg env cur n U cs "$defs".toList hf hne hc hU hh hdoc (by
    unfold lastKeyword; rw [if_neg (by omega)])]
  rw [path_text hne]
  cases hl : cs.getLast? with
  | none => rw [List.getLast?_eq_none_iff] at hl; exact absurd hl hne
  | some w =>
    obtain ⟨ys, rfl⟩ := List.getLast?_eq_some_iff.1 hl
    rw [List.dropLast_concat, List.flatMap_append]; rfl

/-- Deeper names end with a property when a lower-case name follows an upper-case one, otherwise they go
through definitions only. -/
theorem C89_path_deep (reg : Chain Str Str) (env : Env) (cur n U : Str) (pre : List Str) (a b : Char)
    (as bs : Str) (hpre : pre ≠ [])
    (hf : findByCname reg env (n ++ '.' :: joinWith ['.'] (pre ++ [a :: as, b :: bs])) = some (n, U))
    (hc : ∀ c ∈ pre ++ [a :: as, b :: bs], CleanName c) (hU : U ≠ []) (hh : '#' ∉ U)
    (hdoc : U ∈ env.docs → env.search U (pre ++ [a :: as, b :: bs]) = none) :
    cnameId reg env (n ++ '.' :: joinWith ['.'] (pre ++ [a :: as, b :: bs])) cur =
      .ok (U ++ '#' :: fragmentText ((pre ++ [a :: as]).flatMap (fun c => ["$defs".toList, c]) ++
        [if a.isUpper = true ∧ b.isLower = true then "properties".toList else "$defs".toList, b :: bs])) := by
  have hk : lastKeyword (pre ++ [a :: as, b :: bs]) =
      .ok (if a.isUpper = true ∧ b.isLower = true then "properties".toList else "$defs".toList) := by
    unfold lastKeyword
    have hl : 0 < pre.length := List.length_pos_iff.2 hpre
    have hr : (pre ++ [a :: as, b :: bs]).reverse = (b :: bs) :: (a :: as) :: pre.reverse := by simp
    rw [if_pos (by simp; omega), hr]
    simp only [Bool.and_eq_true]
  rw [cnameId_eq reg env cur n U _ _ hf (by simp) hc hU hh hdoc hk, path_text (by simp)]
  have e : pre ++ [a :: as, b :: bs] = (pre ++ [a :: as]) ++ [b :: bs] := by simp
  rw [e, List.dropLast_concat, List.getLast?_concat]
  rfl

example : cnameId exReg exEnv "lib.sub.A.B".toList [] = .ok "http://x/lib/sub#/$defs/A/$defs/B".toList ∧
    cnameId exReg exEnv "lib.sub.a.B.c".toList [] = .ok "http://x/lib/sub#/$defs/a/$defs/B/properties/c".toList ∧
    cnameId exReg exEnv "lib.sub.a.b.c".toList [] = .ok "http://x/lib/sub#/$defs/a/$defs/b/$defs/c".toList := by
  decide +kernel

/-- When the document is loaded and has the definition, the identifier is where the definition was found. -/
theorem C89_loaded (reg : Chain Str Str) (env : Env) (cur n U x : Str) (cs : List Str)
    (hf : findByCname reg env (n ++ '.' :: joinWith ['.'] cs) = some (n, U))
    (hne : cs ≠ []) (hc : ∀ c ∈ cs, CleanName c) (hh : '#' ∉ U) (hdoc : U ∈ env.docs)
    (hx : env.search U cs = some x) :
    cnameId reg env (n ++ '.' :: joinWith ['.'] cs) cur = .ok (U ++ "#/".toList ++ x) := by
  have hdrop : (n ++ '.' :: joinWith ['.'] cs).drop n.length = '.' :: joinWith ['.'] cs := by simp
  have hsplit : splitOn '.' ('.' :: joinWith ['.'] cs) = [] :: cs := by
    have : splitOn '.' ([] ++ '.' :: joinWith ['.'] cs) = [] :: splitOn '.' (joinWith ['.'] cs) :=
      splitOn_append (by simp)
    rw [List.nil_append] at this
    rw [this, splitOn_joinWith cs hne (fun c hm hd => ((hc c hm).2 _ hd).2 rfl)]
  unfold cnameId
  simp only [hf, hdrop, hsplit]
  rw [if_neg (by simp), if_pos hdoc, hx]
  simp only [hh, if_false]
  rfl

example : cnameId exReg { exEnv with
        docs := ["http://x/lib/sub".toList]
        search := fun _ cs => if cs = ["A".toList] then some "definitions/A".toList else none } "lib.sub.A".toList []
      = .ok "http://x/lib/sub#/definitions/A".toList
    ∧ cnameId exReg { exEnv with docs := ["http://x/lib/sub".toList] } "lib.sub.A".toList []
      = .ok "http://x/lib/sub#/$defs/A".toList := by decide +kernel

/-- A segment starting with a digit (a version) is joined to the segment before it with `_`, and left out
when there is none. -/
theorem C93_version (ms : Str) (segs : List Str) (last v : Str) (d : Char) (hd : d.isDigit = true)
    (hv : '/' ∉ v ∧ '-' ∉ v)
    (h : ∀ s ∈ segs ++ [last], s ≠ [] ∧ '-' ∉ s ∧ '/' ∉ s ∧ ∀ c ∈ s.head?, c.isDigit = false) :
    uriToCname ms ⟨ms, fragmentText (segs ++ [last, d :: v]), []⟩ =
      joinWith ['.'] (segs ++ [last ++ '_' :: d :: v]) ∧
    uriToCname ms ⟨ms, fragmentText ((d :: v) :: (segs ++ [last])), []⟩ = joinWith ['.'] (segs ++ [last]) := by
  have hd1 : d ≠ '/' := by rintro rfl; simp [Char.isDigit] at hd
  have hd2 : d ≠ '-' := by rintro rfl; simp [Char.isDigit] at hd
  have hdv : replaceChar '-' '_' (d :: v) = d :: v := by
    rw [replaceChar]
    conv => rhs; rw [← List.map_id (d :: v)]
    apply List.map_congr_left
    intro x hx
    have : x ≠ '-' := by
      rintro rfl
      rcases List.mem_cons.1 hx with h | h
      · exact hd2 h.symm
      · exact hv.2 h
    rw [if_neg this]; rfl
  have hsl : '/' ∉ d :: v := by
    intro hm
    rcases List.mem_cons.1 hm with h | h
    · exact hd1 h.symm
    · exact hv.1 h
  have split : ∀ l : List Str, l ≠ [] → (∀ s ∈ l, '/' ∉ s) → splitOn '/' (fragmentText l) = [] :: l := by
    intro l hne hl
    rw [fragmentText_eq l hne]
    have : splitOn '/' ([] ++ '/' :: joinWith ['/'] l) = [] :: splitOn '/' (joinWith ['/'] l) :=
      splitOn_append (by simp)
    rw [List.nil_append] at this
    rw [this, splitOn_joinWith l hne hl]
  have addLast : ∀ (w x : Str) (l : List Str), addToLast w (l ++ [x]) = l ++ [x ++ w] := by
    intro w x l
    induction l with
    | nil => rfl
    | cons y l ih =>
      cases hl : l ++ [x] with
      | nil => simp at hl
      | cons z zs => rw [List.cons_append, hl, addToLast.eq_3 _ _ _ (by simp), ← hl, ih]; simp
  constructor
  · unfold uriToCname
    rw [split _ (by simp) (by
      intro s hs
      have : s ∈ segs ++ [last] ∨ s = d :: v := by simp at hs ⊢; grind
      rcases this with hs | rfl
      · exact (h s hs).2.2.1
      · exact hsl)]
    simp only [ne_eq, not_true_eq_false, if_false]
    have e : segs ++ [last, d :: v] = (segs ++ [last]) ++ [d :: v] := by simp
    rw [List.foldl_cons, show pathStep [] [] = [] from rfl, e, List.foldl_append,
      foldl_pathStep _ (fun s hm => ⟨(h s hm).1, (h s hm).2.1, (h s hm).2.2.2⟩)]
    simp only [List.nil_append, List.foldl_cons, List.foldl_nil, pathStep, hd, hdv, addLast]
    simp
  · unfold uriToCname
    rw [split _ (by simp) (by
      intro s hs
      rcases List.mem_cons.1 hs with rfl | hs
      · exact hsl
      · exact (h s hs).2.2.1)]
    simp only [ne_eq, not_true_eq_false, if_false]
    rw [List.foldl_cons, show pathStep [] [] = [] from rfl, List.foldl_cons,
      show pathStep [] (d :: v) = [] by simp [pathStep, hd],
      foldl_pathStep _ (fun s hm => ⟨(h s hm).1, (h s hm).2.1, (h s hm).2.2.2⟩)]
    simp

example : uriToCname "x.org".toList ⟨"x.org".toList, "/lib/sub/1.0".toList, []⟩ = "lib.sub_1.0".toList ∧
    uriToCname "x.org".toList ⟨"x.org".toList, "/2/lib".toList, []⟩ = "lib".toList := by decide +kernel

/-! ### C96 -/

/-- The part after the last `:`, with dashes for underscores; nothing else changes. -/
theorem C96_clean_for_uri (a b : Str) (h : ':' ∉ b) :
    cleanForUri (a ++ ':' :: b) = cleanForUri b ∧
    (cleanForUri b).length = b.length ∧
    ∀ (i : Nat) (c : Char), b[i]? = some c → (cleanForUri b)[i]? = some (if c = '_' then '-' else c) := by
  have e : cleanForUri b = b.map (fun c => if c = '_' then '-' else c) := by
    rw [cleanForUri, lastPart_of_notMem h]; rfl
  refine ⟨?_, by rw [e]; simp, ?_⟩
  · rw [cleanForUri, lastPart_append a b h, cleanForUri, lastPart_of_notMem h]
  · intro i c hc
    rw [e, List.getElem?_map, hc]; rfl

/-- The result can be used again: no `_` and no `:` is left, and a second pass changes nothing. -/
theorem C96_stable (name : Str) :
    '_' ∉ cleanForUri name ∧ ':' ∉ cleanForUri name ∧ cleanForUri (cleanForUri name) = cleanForUri name := by
  have key : ∀ c ∈ cleanForUri name, c ≠ '_' ∧ c ≠ ':' := by
    intro c hc
    rw [cleanForUri, replaceChar, List.mem_map] at hc
    obtain ⟨x, hx, rfl⟩ := hc
    have : x ≠ ':' := by rintro rfl; exact lastPart_notMem ':' name hx
    split
    · decide
    · rename_i h; exact ⟨h, this⟩
  refine ⟨fun h => (key _ h).1 rfl, fun h => (key _ h).2 rfl, ?_⟩
  generalize cleanForUri name = s at key
  rw [cleanForUri, lastPart_of_notMem (fun h => (key _ h).2 rfl), replaceChar]
  conv => rhs; rw [← List.map_id s]
  apply List.map_congr_left
  intro c hc
  rw [if_neg (key c hc).1]; rfl

example : cleanForUri "ns:my_file_name".toList = "my-file-name".toList := by decide +kernel

/-! ### C97 -/

/-- A new manager has a default namespace: the given one, or `#`. -/
theorem C97_default (parents : List (Chain Str Str)) (loc builder : AList Str Str) :
    AList.get? (Mgr.init parents loc builder).loc [] = some ((AList.get? loc []).getD ['#']) ∧
    (∀ k, k ≠ [] → AList.get? (Mgr.init parents loc builder).loc k = AList.get? loc k) := by
  unfold Mgr.init
  constructor
  · by_cases h : AList.contains loc [] = true
    · rw [if_pos h]
      obtain ⟨v, hv⟩ := Option.isSome_iff_exists.1 (by simpa [AList.contains] using h)
      simp [hv]
    · rw [if_neg h]
      have : AList.get? loc [] = none := by simpa [AList.contains] using h
      simp [AList.get?_set_self, this]
  · intro k hk
    simp only
    split
    · rfl
    · exact AList.get?_set_ne _ _ (Ne.symm hk)

/-- Adding a namespace binds its name, and only it, to its URI; a URI without document part is completed
with the document of the default namespace. -/
theorem C97_add (env : Env) (m : Mgr) (hw : AList.WF m.loc) (hp : ∀ c ∈ m.parents, c.WF) (uri name d : Str)
    (hd : Binds m.registry [] d) :
    ∃ m', m.add env uri (some name) = .ok m' ∧
      Binds m'.registry name ((if uri.takeWhile (· ≠ '#') = [] then d.takeWhile (· ≠ '#') else []) ++ uri) ∧
      (∀ k, k ≠ name → AList.get? m'.loc k = AList.get? m.loc k) ∧ m'.parents = m.parents ∧
      m'.builder = m.builder ∧ m'.cur = m.cur := by
  have hg := (binds_iff (registry_wf hw hp) [] d).2 hd
  have hb : ∀ (l : AList Str Str) (u : Str),
      Binds (Mgr.registry { m with loc := AList.set l name u }) name u := fun l u =>
    ChainMap.Binds.chain (pre := []) (by simp) (.dict (AList.mem_of_get? (AList.get?_set_self _ _ _)))
  by_cases h : uri.takeWhile (· ≠ '#') = []
  · refine ⟨{ m with loc := AList.set m.loc name (d.takeWhile (· ≠ '#') ++ uri) }, ?_, ?_, ?_, rfl, rfl, rfl⟩
    · simp only [Mgr.add, beforeHash_eq, h, hg]
      simp
    · rw [if_pos h]; exact hb _ _
    · intro k hk; exact AList.get?_set_ne _ _ (Ne.symm hk)
  · refine ⟨{ m with loc := AList.set m.loc name uri }, ?_, ?_, ?_, rfl, rfl, rfl⟩
    · have : (uri.takeWhile (· ≠ '#')).isEmpty = false := by
        cases hc : uri.takeWhile (· ≠ '#') with
        | nil => exact absurd hc h
        | cons => rfl
      simp only [Mgr.add, beforeHash_eq, this]
      simp
    · rw [if_neg h, List.nil_append]; exact hb _ _
    · intro k hk; exact AList.get?_set_ne _ _ (Ne.symm hk)

example : ∃ m', (Mgr.init [] [([], "http://x/a#".toList)] []).add exEnv "#/$defs/B".toList (some "b".toList) = .ok m' ∧
    AList.get? m'.loc "b".toList = some "http://x/a#/$defs/B".toList := ⟨_, rfl, by decide +kernel⟩

/-! ### C98 -/

/-- An identifier in the current document is given by its fragment alone; others are given in full. -/
theorem C98_relative_identifiers (curUri frag id : Str) (hne : curUri.takeWhile (· ≠ '#') ≠ []) :
    relativeId curUri (curUri.takeWhile (· ≠ '#') ++ '#' :: frag) = '#' :: frag ∧
    (¬ (curUri.takeWhile (· ≠ '#') ++ ['#']) <+: id → relativeId curUri id = id) := by
  have hn : '#' ∉ curUri.takeWhile (· ≠ '#') := by
    induction curUri with
    | nil => simp
    | cons c cs ih =>
      rw [List.takeWhile_cons]
      split
      · rename_i hc
        simp only [List.mem_cons, not_or]
        refine ⟨fun h => by simp [← h] at hc, ?_⟩
        intro hm
        by_cases h0 : cs.takeWhile (· ≠ '#') = []
        · rw [h0] at hm; simp at hm
        · exact ih h0 hm
      · simp
  constructor
  · unfold relativeId
    rw [beforeHash_eq]
    generalize curUri.takeWhile (· ≠ '#') = u at hn hne
    have hs : strip (· == '#') (u ++ ['#']) = u := by
      have h1 : lstrip (· == '#') (u ++ ['#']) = u ++ ['#'] := by
        apply lstrip_eq_self
        intro c hc
        cases u with
        | nil => exact absurd rfl hne
        | cons x u => simp at hc; subst hc; simp at hn ⊢; exact fun h => hn.1 h.symm
      rw [strip, h1, List.reverse_append, List.reverse_singleton, List.singleton_append]
      have h2 : lstrip (· == '#') ('#' :: u.reverse) = u.reverse := by
        rw [show lstrip (· == '#') ('#' :: u.reverse) = lstrip (· == '#') u.reverse by simp [lstrip]]
        apply lstrip_eq_self
        intro c hc
        have := List.mem_of_head? hc
        simp at this
        simp; rintro rfl; exact hn this
      rw [h2, List.reverse_reverse]
    simp only [hs]
    rw [if_pos]
    · simp
    · rw [List.isPrefixOf_iff_prefix]; exact ⟨frag, by simp⟩
  · intro h
    unfold relativeId
    rw [beforeHash_eq]
    simp only
    rw [if_neg]
    rw [List.isPrefixOf_iff_prefix]; exact h

example : relativeId "http://x/a#/k".toList "http://x/a#/$defs/B".toList = "#/$defs/B".toList := by decide +kernel

end Verif.Names
