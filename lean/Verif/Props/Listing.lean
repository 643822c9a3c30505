import Verif.Spec.Listing
import Verif.Lemmas.Names
import Verif.Lemmas.Keys
import Verif.Props.Names
import Verif.Props.Refs
/-
C309-C311: the namespaces a manager lists, the names it says it holds, and the definitions of a namespace.
-/
namespace Verif.Listing
open ChainMap (Chain Binds HasKey)
open Names (Env Mgr findByCname DottedPrefix strLe)
open Spec

/-! ### C309 -/

theorem available_get? (docs : List Str) (cnameOf : Str → Str) (d : AList Str Str) (k u : Str) :
    AList.get? (docs.foldl (fun d u => AList.set d (cnameOf u) u) d) k = some u ↔
      LastNamed docs cnameOf k u ∨ ((∀ v ∈ docs, cnameOf v ≠ k) ∧ AList.get? d k = some u) := by
  induction docs generalizing d with
  | nil => simp [LastNamed]
  | cons a docs ih =>
    rw [List.foldl_cons, ih, AList.get?_set]
    constructor
    · rintro (⟨pre, post, rfl, h, hp⟩ | ⟨hn, h⟩)
      · exact .inl ⟨a :: pre, post, rfl, h, hp⟩
      · split at h
        · rename_i e
          cases h
          exact .inl ⟨[], docs, rfl, by first | exact e | exact e.symm, hn⟩
        · rename_i e
          refine .inr ⟨?_, h⟩
          intro v hv
          rcases List.mem_cons.1 hv with rfl | hv
          · first | exact e | exact fun h => e h.symm
          · exact hn v hv
    · rintro (⟨pre, post, hd, h, hp⟩ | ⟨hn, h⟩)
      · cases pre with
        | nil =>
          simp only [List.nil_append, List.cons.injEq] at hd
          obtain ⟨rfl, rfl⟩ := hd
          exact .inr ⟨hp, by rw [if_pos (by first | exact h | exact h.symm)]⟩
        | cons x pre =>
          simp only [List.cons_append, List.cons.injEq] at hd
          obtain ⟨rfl, rfl⟩ := hd
          exact .inl ⟨pre, post, rfl, h, hp⟩
      · refine .inr ⟨fun v hv => hn v (List.mem_cons_of_mem _ hv), ?_⟩
        have := hn a (List.mem_cons_self ..)
        rw [if_neg (by first | exact this | exact fun h => this h.symm), h]

theorem wf_available (docs : List Str) (cnameOf : Str → Str) (d : AList Str Str) (h : d.WF) :
    (docs.foldl (fun d u => AList.set d (cnameOf u) u) d).WF := by
  induction docs generalizing d with
  | nil => exact h
  | cons a docs ih => exact ih _ (AList.wf_set h _ _)

theorem wf_known {env : Env} {m : Mgr} (wf : m.reg.WF) : (known env m).WF := by
  refine .chain ?_
  intro x hx
  simp only [List.mem_cons, List.not_mem_nil, or_false] at hx
  cases wf with
  | chain h =>
    rcases hx with rfl | rfl | rfl
    · exact h _ (by simp)
    · exact h _ (by simp)
    · exact .dict (wf_available _ _ _ List.nodup_nil)

theorem known_getItem (env : Env) (m : Mgr) (k u : Str) : (known env m).getItem k = .ok u ↔
    m.reg.getItem k = .ok u ∨ ((∃ e, m.reg.getItem k = .error e) ∧ AList.get? (available env) k = some u) := by
  simp only [known, Mgr.reg, Chain.getItem, Chain.getItems]
  cases m.registry.getItem k with
  | ok v => simp
  | error e =>
    cases AList.get? m.builder k with
    | some v => simp
    | none => cases AList.get? (available env) k <;> simp

theorem stands_iff {env : Env} {m : Mgr} (wf : m.reg.WF) (k u : Str) :
    (known env m).getItem k = .ok u ↔ Stands env m k u := by
  rw [known_getItem, Names.binds_iff wf, Stands]
  refine or_congr Iff.rfl (and_congr ?_ ?_)
  · constructor
    · rintro ⟨e, he⟩ v hv
      rw [← Names.binds_iff wf, he] at hv
      cases hv
    · intro h
      cases hg : m.reg.getItem k with
      | ok v => exact absurd ((Names.binds_iff wf k v).1 hg) (h v)
      | error e => exact ⟨e, rfl⟩
  · rw [available, available_get?]
    simp [AList.get?]

theorem mem_namespaces {env : Env} {m : Mgr} {sub k u : Str} : (k, u) ∈ namespaces env m sub ↔
    (sub <:+: k) ∧ (known env m).getItem k = .ok u := by
  simp only [namespaces, List.mem_filterMap, Refs.mem_sortNames]
  constructor
  · rintro ⟨a, ha, h⟩
    cases hg : (known env m).getItem a with
    | error e => rw [hg] at h; simp at h
    | ok v =>
      rw [hg] at h
      simp at h
      obtain ⟨rfl, rfl⟩ := h
      refine ⟨?_, hg⟩
      split at ha
      · rename_i he
        rw [List.isEmpty_iff.1 he]; exact List.nil_infix
      · rw [List.mem_filter] at ha
        exact (Keys.isInfix_iff _ _).1 ha.2
  · rintro ⟨hs, hg⟩
    refine ⟨k, ?_, by rw [hg]⟩
    have hm : k ∈ (known env m).iter := by
      rw [ChainMap.mem_iter]
      refine Classical.byContradiction (fun hn => ?_)
      have := (ChainMap.getItem_total (known env m) k).2 hn
      rw [hg] at this
      cases this
    split
    · exact hm
    · exact List.mem_filter.2 ⟨hm, (Keys.isInfix_iff _ _).2 hs⟩

theorem keys_sublist (ns : Chain Str Str) (l : List Str) :
    ((l.filterMap (fun k => match ns.getItem k with | .ok u => some (k, u) | .error _ => none)).map Prod.fst).Sublist l := by
  induction l with
  | nil => simp
  | cons a l ih =>
    rw [List.filterMap_cons]
    cases ns.getItem a with
    | ok v => exact ih.cons_cons a
    | error e => exact ih.cons a

/-- The namespaces listed are exactly the known ones whose name contains the text asked for, each with the URI its name
stands for, in the order of the names, each name once. -/
theorem C309_listed (env : Env) (m : Mgr) (wf : m.reg.WF) (sub : Str) :
    (∀ k u, (k, u) ∈ namespaces env m sub ↔ sub <:+: k ∧ Stands env m k u) ∧
    ((namespaces env m sub).map Prod.fst).Pairwise (fun a b => strLe a b = true ∧ a ≠ b) := by
  refine ⟨fun k u => by rw [mem_namespaces, stands_iff wf], ?_⟩
  refine List.Pairwise.sublist (keys_sublist _ _) ?_
  refine List.Pairwise.and (Refs.sortNames_sorted _) ?_
  have hn : (known env m).iter.Nodup := ChainMap.nodup_iter (wf_known wf)
  have hn' : (if sub.isEmpty then (known env m).iter else (known env m).iter.filter (fun n => Query.isInfix sub n)).Nodup := by
    split
    · exact hn
    · exact hn.filter _
  have : (Refs.sortNames (if sub.isEmpty then (known env m).iter
      else (known env m).iter.filter (fun n => Query.isInfix sub n))).Nodup := by
    rw [List.nodup_iff_count]
    intro a
    rw [Refs.count_sortNames]
    exact List.nodup_iff_count.1 hn' a
  exact this

/-- Two documents of one name: the listing gives the last of them, asking for the name the first. -/
theorem C309_same_name_violated (env : Env) (m : Mgr) (wf : m.reg.WF) (k u v : Str) (rest : List Str)
    (hd : env.docs = u :: rest) (hu : env.cnameOf u = k) (hv : LastNamed env.docs env.cnameOf k v) (hne : u ≠ v)
    (hreg : ∀ c w, Binds m.reg c w → ¬ DottedPrefix c k) :
    (k, v) ∈ namespaces env m [] ∧ (k, u) ∉ namespaces env m [] ∧ findByCname m.reg env k = some (k, u) := by
  have hno : ∀ w, ¬ Binds m.reg k w := fun w hb => hreg k w hb (.inl rfl)
  have hin : (k, v) ∈ namespaces env m [] := ((C309_listed env m wf []).1 k v).2 ⟨List.nil_infix, .inr ⟨hno, hv⟩⟩
  refine ⟨hin, fun hin' => ?_, ?_⟩
  · have h1 := (mem_namespaces.1 hin).2
    have h2 := (mem_namespaces.1 hin').2
    rw [h1] at h2
    cases h2
    exact hne rfl
  · unfold findByCname
    rw [Names.none_of_no_candidate wf _ (fun c w hb => by
      have := hreg c w hb; rw [← Names.covers_iff] at this; simpa using this)]
    have hc : Names.covers k k = true := Names.covers_iff.2 (.inl rfl)
    simp only [hd, List.find?_cons, hu, hc, Option.map_some]

/-- A manager knowing `lib` and a builder knowing `lib.sub`. -/
def exMgr : Mgr := Mgr.init [] [("lib".toList, "http://x/lib".toList)] [("lib.sub".toList, "http://x/lib/sub".toList)]

/-- Three documents, the first and the last of one name. -/
def exDocs : Env :=
  ⟨["http://y/doc".toList, "http://y/alt".toList, "http://z/doc".toList], fun u => u.drop 9, fun _ _ => none⟩

theorem exMgr_wf : exMgr.reg.WF := by
  refine .chain ?_
  intro m hm
  simp only [List.mem_cons, List.not_mem_nil, or_false] at hm
  rcases hm with rfl | rfl
  · refine .chain ?_
    intro m hm
    simp only [exMgr, Mgr.init, List.mem_cons, List.not_mem_nil, or_false] at hm
    subst hm
    exact .dict (by decide +kernel)
  · exact .dict (by decide +kernel)

example : namespaces exDocs exMgr [] = [([], "#".toList), ("alt".toList, "http://y/alt".toList),
      ("doc".toList, "http://z/doc".toList), ("lib".toList, "http://x/lib".toList),
      ("lib.sub".toList, "http://x/lib/sub".toList)] ∧
    namespaces exDocs exMgr "l".toList = [("alt".toList, "http://y/alt".toList), ("lib".toList, "http://x/lib".toList),
      ("lib.sub".toList, "http://x/lib/sub".toList)] := by decide +kernel

example : LastNamed exDocs.docs exDocs.cnameOf "doc".toList "http://z/doc".toList ∧
    exDocs.cnameOf "http://y/doc".toList = "doc".toList ∧
    findByCname exMgr.reg exDocs "doc".toList = some ("doc".toList, "http://y/doc".toList) :=
  ⟨⟨["http://y/doc".toList, "http://y/alt".toList], [], by decide +kernel, by decide +kernel, by simp⟩,
    by decide +kernel, by decide +kernel⟩

/-! ### C310 -/

/-- Missing: modules. A text that is not empty and does not start with a dot is held exactly when some registered namespace
or some loaded document has the text for name, or a beginning of it ending before a dot. -/
theorem C310_text_partial (env : Env) (m : Mgr) (wf : m.reg.WF) (s : Str) (hs : s ≠ []) (hdot : s.head? ≠ some '.')
    (hu : ∀ c u, Binds m.reg c u → u ≠ []) (hud : ∀ u ∈ env.docs, u ≠ []) :
    ∃ b, isIn env m (.text s) = .ok b ∧
      (b = true ↔ ∃ c u, (Binds m.reg c u ∨ (u ∈ env.docs ∧ env.cnameOf u = c)) ∧ DottedPrefix c s) := by
  refine ⟨isInText env m s, rfl, ?_⟩
  have hc : ∀ c, DottedPrefix c s → c ≠ [] := by
    rintro c (rfl | ⟨r, rfl⟩) rfl
    · exact hs rfl
    · exact hdot rfl
  constructor
  · intro h
    cases hf : findByCname m.reg env s with
    | none => rw [isInText, hf] at h; simp at h
    | some nu =>
      obtain ⟨n, u⟩ := nu
      refine ⟨n, u, ?_, Names.C38_covers m.reg wf env s n u hf⟩
      unfold findByCname at hf
      split at hf
      · rename_i cn hcn
        obtain ⟨⟨v, hv, hb, _⟩, _⟩ := Names.pick_spec wf _ hcn
        rw [hv] at hf; simp at hf; obtain ⟨rfl, rfl⟩ := hf
        exact .inl hb
      · cases hd : env.docs.find? (fun u => Names.covers (env.cnameOf u) s) with
        | none => rw [hd] at hf; simp at hf
        | some w =>
          rw [hd] at hf; simp at hf; obtain ⟨rfl, rfl⟩ := hf
          exact .inr ⟨List.mem_of_find?_eq_some hd, rfl⟩
  · rintro ⟨c, u, h, hp⟩
    have key : ∀ n w, findByCname m.reg env s = some (n, w) → w ≠ [] → isInText env m s = true := by
      intro n w hf hw
      have hn := hc n (Names.C38_covers m.reg wf env s n w hf)
      rw [isInText, hf]
      cases n with
      | nil => exact absurd rfl hn
      | cons => cases w with
        | nil => exact absurd rfl hw
        | cons => rfl
    by_cases hex : ∃ c u, Binds m.reg c u ∧ DottedPrefix c s
    · obtain ⟨c, u, hb, hd⟩ := hex
      obtain ⟨n, v, hf, hbn, _⟩ := Names.C38_longest m.reg wf env s c u hb hd
      exact key n v hf (hu n v hbn)
    · rcases h with hb | ⟨hd, rfl⟩
      · exact absurd ⟨c, u, hb, hp⟩ hex
      · cases hfind : env.docs.find? (fun u => Names.covers (env.cnameOf u) s) with
        | none =>
          rw [List.find?_eq_none] at hfind
          exact absurd (Names.covers_iff.2 hp) (hfind u hd)
        | some w =>
          refine key (env.cnameOf w) w ?_ (hud w (List.mem_of_find?_eq_some hfind))
          unfold findByCname
          rw [Names.none_of_no_candidate wf _ (fun c w hb => by
            have : ¬ DottedPrefix c s := fun hd => hex ⟨c, w, hb, hd⟩
            rw [← Names.covers_iff] at this; simpa using this), hfind]
          rfl

/-- A module has a `__name__` and no `__module__`: asking for it fails, also when a namespace has its name. -/
theorem C310_module_violated (env : Env) (m : Mgr) (attrs : AList Str Str) (h : AList.get? attrs "__module__".toList = none) :
    isIn env m (.module attrs) = .error .attributeError := by
  rw [isIn, h]

/-- A namespace registered with an empty URI, as that of an identifier starting with `#`, is not held. -/
theorem C310_empty_violated (env : Env) (m : Mgr) (wf : m.reg.WF) (s : Str) (h0 : Binds m.reg s []) :
    isIn env m (.text s) = .ok false := by
  obtain ⟨n, v, hf, hb, hd, hmax⟩ := Names.C38_longest m.reg wf env s s [] h0 (.inl rfl)
  have hn : n = s := by
    rcases hd with h | ⟨r, h⟩
    · exact h.symm
    · have := hmax s [] h0 (.inl rfl)
      rw [h] at this; simp at this; omega
  subst hn
  have := Names.binds_unique wf h0 hb
  subst this
  simp [isIn, isInText, hf]

example : (Mgr.init [] [] (Names.registerNs exDocs [] "#/$defs/A".toList (some "local".toList))).reg.getItem "local".toList
    = .ok [] := by decide +kernel

example : isIn exDocs exMgr (.text "lib.sub.A".toList) = .ok true ∧ isIn exDocs exMgr (.text "alt.A".toList) = .ok true ∧
    isIn exDocs exMgr (.text "library".toList) = .ok false ∧
    isIn exDocs exMgr (.module [("__name__".toList, "lib".toList)]) = .error .attributeError := by decide +kernel

/-! ### C311 -/

theorem defsOf_fold (cname uri tag : Str) (ds : AList Str Val) (acc : AList Str Str) (n i : Str) :
    AList.get? (ds.foldl (fun acc kv => AList.set acc (cname ++ ['.'] ++ kv.1) (uri ++ ['/'] ++ tag ++ ['/'] ++ kv.1)) acc) n
      = some i ↔
    (∃ k v, (k, v) ∈ ds ∧ n = cname ++ ['.'] ++ k ∧ i = uri ++ ['/'] ++ tag ++ ['/'] ++ k) ∨
    ((∀ k v, (k, v) ∈ ds → n ≠ cname ++ ['.'] ++ k) ∧ AList.get? acc n = some i) := by
  induction ds generalizing acc with
  | nil => simp
  | cons a ds ih =>
    obtain ⟨a, w⟩ := a
    rw [List.foldl_cons, ih, AList.get?_set]
    constructor
    · rintro (⟨k, v, hm, h1, h2⟩ | ⟨hn, h⟩)
      · exact .inl ⟨k, v, List.mem_cons_of_mem _ hm, h1, h2⟩
      · split at h
        · rename_i e
          cases h
          exact .inl ⟨a, w, List.mem_cons_self .., by first | exact e | exact e.symm, rfl⟩
        · rename_i e
          refine .inr ⟨?_, h⟩
          intro k v hm
          rcases List.mem_cons.1 hm with hm | hm
          · cases hm; first | exact e | exact fun h => e h.symm
          · exact hn k v hm
    · rintro (⟨k, v, hm, h1, h2⟩ | ⟨hn, h⟩)
      · by_cases hex : ∃ k v, (k, v) ∈ ds ∧ n = cname ++ ['.'] ++ k
        · obtain ⟨k', v', hm', h1'⟩ := hex
          have : k = k' := by
            rw [h1'] at h1; exact (List.append_cancel_left h1).symm
          subst this
          exact .inl ⟨k, v', hm', h1, h2⟩
        · rcases List.mem_cons.1 hm with hm | hm
          · cases hm
            refine .inr ⟨fun k v hm e => hex ⟨k, v, hm, e⟩, ?_⟩
            rw [if_pos (by first | exact h1 | exact h1.symm), h2]
          · exact absurd ⟨k, v, hm, h1⟩ hex
      · refine .inr ⟨fun k v hm => hn k v (List.mem_cons_of_mem _ hm), ?_⟩
        have := hn a w (List.mem_cons_self ..)
        rw [if_neg (by first | exact this | exact fun h => this h.symm), h]

theorem defsOf_spec {cname uri tag : Str} {doc : AList Str Val} {acc d : AList Str Str}
    (h : defsOf cname uri doc tag acc = .ok d) (n i : Str) : AList.get? d n = some i ↔
    (∃ k, Defines doc tag k ∧ n = cname ++ ['.'] ++ k ∧ i = uri ++ ['/'] ++ tag ++ ['/'] ++ k) ∨
    ((∀ k, Defines doc tag k → n ≠ cname ++ ['.'] ++ k) ∧ AList.get? acc n = some i) := by
  unfold defsOf at h
  unfold Defines
  cases hg : AList.get? doc tag with
  | none => rw [hg] at h; cases h; simp
  | some v =>
    rw [hg] at h
    cases v <;> simp only [reduceCtorEq, Except.ok.injEq] at h
    subst h
    rw [defsOf_fold]
    simp only [Option.some.injEq, Val.dict.injEq]
    grind

/-- Missing: that the definitions of a known namespace are found (see below). What is given for a name, when anything is, are
the definitions of one document: under `definitions`, and under `$defs` for the names not under `definitions`. -/
theorem C311_given_partial (norm unq : Str → Str) (env : Env) (m : Mgr) (s : Uri.Store Val) (cname : Str) (d : AList Str Str)
    (h : cnameDefinitions norm unq env m s cname = .ok d) :
    ∃ uri doc, (Uri.resolveUri norm unq s uri).1 = .ok (.dict doc) ∧ ∀ n i, AList.get? d n = some i ↔
      ∃ k, n = cname ++ ['.'] ++ k ∧
        ((Defines doc "definitions".toList k ∧ i = uri ++ "/definitions/".toList ++ k) ∨
         (¬ Defines doc "definitions".toList k ∧ Defines doc "$defs".toList k ∧ i = uri ++ "/$defs/".toList ++ k)) := by
  unfold cnameDefinitions at h
  split at h
  · cases h
  · cases h
  · rename_i uri _
    split at h
    · cases h
    · rename_i doc hdoc
      split at h
      · cases h
      · rename_i acc hacc
        refine ⟨uri, doc, hdoc, fun n i => ?_⟩
        rw [defsOf_spec h, defsOf_spec hacc]
        simp only [AList.get?, List.append_assoc]
        constructor
        · rintro (⟨k, h1, h2, h3⟩ | ⟨h1, ⟨k, h2, h3, h4⟩ | ⟨_, h2⟩⟩)
          · exact ⟨k, h2, .inl ⟨h1, by rw [h3]; rfl⟩⟩
          · exact ⟨k, h3, .inr ⟨fun hd => h1 k hd h3, h2, by rw [h4]; rfl⟩⟩
          · cases h2
        · rintro ⟨k, h1, ⟨h2, h3⟩ | ⟨h2, h3, h4⟩⟩
          · exact .inl ⟨k, h2, h1, by rw [h3]; rfl⟩
          · refine .inr ⟨fun k' hd e => ?_, .inl ⟨k, h3, h1, by rw [h4]; rfl⟩⟩
            rw [h1] at e
            have := List.append_cancel_left (List.append_cancel_left e)
            subst this
            exact h2 hd
    · cases h

/-- Line 212 turns the name into a name instead of an identifier, and no document is stored under a name: a name made of
letters, digits, `_` and dots has no definitions, whatever namespaces and documents are known. -/
theorem C311_name_violated (norm unq : Str → Str) (env : Env) (m : Mgr) (wf : m.reg.WF) (s : Uri.Store Val) (cname : Str)
    (hne : cname ≠ []) (hc : ∀ c ∈ cname, Names.IdentChar c)
    (hreg : ∀ c u, Binds m.reg c u → ¬ u <+: cname) (hdoc : cname ∉ env.docs)
    (hcache : (cname, m.cur) ∉ AList.keys m.idCache.entries)
    (hs : AList.get? s.docs (norm cname) = none) (hsc : AList.get? s.cache.entries cname = none) :
    cnameDefinitions norm unq env m s cname = .error .exception := by
  have hh : '#' ∉ cname := fun h => (Names.identChar_ne (hc _ h)).2.2.2 rfl
  have hsl : '/' ∉ cname := fun h => (Names.identChar_ne (hc _ h)).2.2.1 rfl
  have hfind : Names.findByUri m.reg env cname = none := by
    unfold Names.findByUri
    rw [Names.none_of_no_candidate wf _ (fun c u hb => by
      have := hreg c u hb; rw [← List.isPrefixOf_iff_prefix] at this; exact Bool.eq_false_iff.2 this)]
    simp only [Names.beforeHash_of_notMem hh, if_neg hdoc]
  have hstrip : strip (· == '#') cname = cname := strip_of_all (fun c hm => by
    simp only [beq_eq_false_iff_ne]; exact fun e => hh (e ▸ hm))
  have hfrag : Names.fragmentToCname cname = cname := by
    have hl : lstrip (· == '/') cname = cname := lstrip_eq_self (fun c hm => by
      simp only [beq_eq_false_iff_ne]; exact fun e => hsl (e ▸ List.mem_of_head? hm))
    simp only [Names.fragmentToCname, hl, splitOn_of_notMem hsl]
    exact Names.C33_identity cname hc
  have hid : Names.idCname m.reg env cname = some cname := by
    unfold Names.idCname
    rw [hfind]
    have : cname.isEmpty = false := by cases cname with | nil => exact absurd rfl hne | cons => rfl
    simp only [this, hstrip, hfrag, Bool.not_false, if_true]
  have hget : (m.getIdCname env cname false).1 = .ok (some cname) := by
    have hl := Names.lru_fresh (fun k : Str × Str => Except.ok (Names.idCname m.reg env k.1)) m.idCache (cname, m.cur) hcache
    unfold Mgr.getIdCname
    simp only [hid] at hl
    cases hcall : m.idCache.call (fun k : Str × Str => Except.ok (Names.idCname m.reg env k.1)) (cname, m.cur) with
    | mk r rest =>
      rw [hcall] at hl
      simp only at hl
      subst hl
      rfl
  have hdf : Uri.urldefrag cname = (cname, []) := by
    have hall : ∀ c ∈ cname, decide (c ≠ '#') = true := fun c hm => by
      simp only [decide_eq_true_eq]; exact fun e => hh (e ▸ hm)
    unfold Uri.urldefrag
    have htake : ∀ l : Str, (∀ c ∈ l, decide (c ≠ '#') = true) → l.takeWhile (· ≠ '#') = l := by
      intro l hl
      induction l with
      | nil => rfl
      | cons c l ih =>
        rw [List.takeWhile_cons, if_pos (hl c (List.mem_cons_self ..)), ih (fun d hd => hl d (List.mem_cons_of_mem _ hd))]
    have hdrop : ∀ l : Str, (∀ c ∈ l, decide (c ≠ '#') = true) → l.dropWhile (· ≠ '#') = [] := by
      intro l hl
      induction l with
      | nil => rfl
      | cons c l ih =>
        rw [List.dropWhile_cons, if_pos (hl c (List.mem_cons_self ..)), ih (fun d hd => hl d (List.mem_cons_of_mem _ hd))]
    rw [htake cname hall, hdrop cname hall]
    rfl
  have hres : (Uri.resolveUri norm unq s cname).1 = .error .exception := by
    unfold Uri.resolveUri Uri.resolveDoc
    simp only [hdf, Decor.Lru.call, hsc, hs]
  unfold cnameDefinitions
  simp only [hget, hres]

/-- A document defining `A` under both keywords and `B` under one. -/
def exDoc : Val := .dict [("$defs".toList, .dict [("A".toList, .dict []), ("B".toList, .dict [])]),
  ("definitions".toList, .dict [("A".toList, .dict [])])]

/-- The document under the URI of `lib`. -/
def exStore : Uri.Store Val := ⟨[("http://x/lib".toList, exDoc)], ⟨some 128, []⟩⟩

example : cnameDefinitions id id exDocs exMgr exStore "lib".toList = .error .exception ∧
    Binds exMgr.reg "lib".toList "http://x/lib".toList ∧ AList.get? exStore.docs "http://x/lib".toList = some exDoc := by
  refine ⟨by decide +kernel, ?_, by decide +kernel⟩
  rw [← Names.binds_iff exMgr_wf]; decide +kernel

example : cnameDefinitions id id exDocs exMgr ⟨[("lib".toList, exDoc)], ⟨some 128, []⟩⟩ "lib".toList =
    .ok [("lib.A".toList, "lib/definitions/A".toList), ("lib.B".toList, "lib/$defs/B".toList)] := by decide +kernel

end Verif.Listing
