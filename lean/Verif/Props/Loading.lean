import Verif.Model.Loading
import Verif.Spec.Loading
/-
C205-C213: loading schemas and modules, transferring values.
-/
namespace Verif.Loading
open Spec

/-! For the examples. -/

/-- A schema with some identifier under the given key. -/
def sch (k i : String) : List (Str × Val) := [(k.toList, .str i.toList), ("type".toList, .str "object".toList)]

/-- A title as it is. -/
def titleOf : Val → Str
  | .str s => s
  | _ => []

theorem dropWhile_nil {p : Char → Bool} : (l : Str) → (l.dropWhile p = [] ↔ ∀ c ∈ l, p c = true)
  | [] => by simp
  | c :: l => by
    by_cases h : p c = true
    · simp [List.dropWhile_cons, h, dropWhile_nil l]
    · simp [List.dropWhile_cons, h]

/-! ### C205: a schema is registered under its identifier -/

theorem rstrip_bare {i u : Str} (h : Bare i u) : rstrip i = u := by
  obtain ⟨⟨n, rfl⟩, hl⟩ := h
  rw [rstrip, List.reverse_append, List.reverse_replicate]
  have hd : (u.reverse).dropWhile (· == '#') = u.reverse := by
    rw [← List.head?_reverse] at hl
    cases hu : u.reverse with
    | nil => rfl
    | cons c l =>
      rw [hu] at hl
      rw [List.dropWhile_cons, if_neg]
      intro hc
      exact hl (by simpa using hc)
  have : ∀ n, (List.replicate n '#' ++ u.reverse).dropWhile (· == '#') = u.reverse := by
    intro n
    induction n with
    | zero => exact hd
    | succ n ih => rw [List.replicate_succ, List.cons_append, List.dropWhile_cons, if_pos (by simp), ih]
  rw [this, List.reverse_reverse]

/-- If it has one, without `#` at its end. Nothing else changes. -/
theorem C205_registered_partial (norm : Str → Str) (param : Val → Str) (d : Docs) (s : List (Str × Val)) (i n : Str)
    (hi : AList.get? s "$id".toList = some (.str i)
      ∨ AList.get? s "$id".toList = none ∧ AList.get? s "id".toList = some (.str i))
    (hn : Bare i n) (hr : n ≠ []) :
    ∃ d', loadSchema norm param d s = .ok (n, d') ∧ lookup norm d' n = some (.dict s)
      ∧ ∀ u, norm u ≠ norm n → lookup norm d' u = lookup norm d u := by
  have hid : idOf s = .str i := by
    rw [idOf]
    rcases hi with hi | ⟨h1, h2⟩
    · rw [hi]
    · rw [h1, h2]; rfl
  have he : rstrip i = n := rstrip_bare hn
  refine ⟨registerDoc norm d (.dict s) n, ?_, AList.get?_set_self .., fun u hu => ?_⟩
  · have hn : ∀ o, nameOf param n o = n := by
      intro o
      cases h : n with
      | nil => exact absurd h hr
      | cons c u => rfl
    simp only [loadSchema, hid, he, hn, if_neg hr]
  · exact AList.get?_set_ne _ _ (fun h => hu h.symm)

example : (loadSchema id titleOf [] (sch "$id" "http://a/b#")).map (·.1) = .ok "http://a/b".toList := by decide +kernel

/-- An empty identifier is replaced by the title. -/
theorem C205_title_partial (norm : Str → Str) (param : Val → Str) (d : Docs) (s : List (Str × Val)) (i : Str) (t : Val)
    (hi : AList.get? s "$id".toList = some (.str i)) (hn : ∀ c ∈ i, c = '#') (ht : AList.get? s "title".toList = some t)
    (hp : param t ≠ []) : loadSchema norm param d s = .ok (param t, registerDoc norm d (.dict s) (param t)) := by
  have hid : idOf s = .str i := by rw [idOf, hi]
  have hr : rstrip i = [] := by
    rw [rstrip, List.reverse_eq_nil_iff, dropWhile_nil]
    intro c hc; simpa using hn c (by simpa using hc)
  simp only [loadSchema, hid, hr, ht, nameOf, if_neg hp]

example : loadSchema id titleOf [] [("$id".toList, .str []), ("title".toList, .str "a".toList)]
    = .ok ("a".toList, [("a".toList, .dict [("$id".toList, .str []), ("title".toList, .str "a".toList)])]) := by
  decide +kernel

/-- Without title, it is refused. -/
theorem C205_unnamed_partial (norm : Str → Str) (param : Val → Str) (d : Docs) (s : List (Str × Val)) (i : Str)
    (hi : AList.get? s "$id".toList = some (.str i)) (hn : ∀ c ∈ i, c = '#') (ht : AList.get? s "title".toList = none) :
    loadSchema norm param d s = .error .exception := by
  have hid : idOf s = .str i := by rw [idOf, hi]
  have hr : rstrip i = [] := by
    rw [rstrip, List.reverse_eq_nil_iff, dropWhile_nil]
    intro c hc; simpa using hn c (by simpa using hc)
  simp only [loadSchema, hid, hr, ht, nameOf, if_true]

example : loadSchema id titleOf [] (sch "$id" "#") = .error .exception := by decide +kernel

/-- Without identifier, AttributeError, even with a title. -/
theorem C205_missing_violated (norm : Str → Str) (param : Val → Str) (d : Docs) (s : List (Str × Val))
    (h1 : AList.get? s "$id".toList = none) (h2 : AList.get? s "id".toList = none) :
    loadSchema norm param d s = .error .attributeError := by
  have hid : idOf s = .none := by rw [idOf, h1, h2]; rfl
  rw [loadSchema, hid]

example : AList.get? [("title".toList, Val.str "a".toList)] "title".toList = some (.str "a".toList) := by decide +kernel

/-! ### C206: a schema file is registered under its identifier, or under its name if it has none -/

/-- If the identifier is given as `$id`, or not at all. -/
theorem C206_file_partial (norm : Str → Str) (param : Val → Str) (d : Docs) (stem : Str) (s : List (Str × Val)) (i n : Str)
    (hi : AList.get? s "$id".toList = some (.str i) ∨ AList.get? s "$id".toList = none
      ∧ AList.get? s "id".toList = none ∧ i = stem) (hn : Bare i n) (hr : n ≠ []) :
    ∃ d' s', loadFile norm param d ⟨stem, .ok (.dict s)⟩ = .ok (n, d')
      ∧ lookup norm d' n = some (.dict s') ∧ (∀ k, k ≠ "$id".toList → AList.get? s' k = AList.get? s k)
      ∧ ∀ u, norm u ≠ norm n → lookup norm d' u = lookup norm d u := by
  rcases hi with hi | ⟨hi, _, rfl⟩
  · obtain ⟨d', h1, h2, h3⟩ := C205_registered_partial norm param d s i n (.inl hi) hn hr
    refine ⟨d', s, ?_, h2, fun _ _ => rfl, h3⟩
    simp only [loadFile]
    rw [if_pos (by rw [AList.contains, hi]; rfl)]
    exact h1
  · obtain ⟨d', h1, h2, h3⟩ := C205_registered_partial norm param d (s ++ [("$id".toList, .str i)]) i n
      (.inl (by rw [AList.get?_append, hi]; rfl)) hn hr
    refine ⟨d', s ++ [("$id".toList, .str i)], ?_, h2, fun k hk => ?_, h3⟩
    · simp only [loadFile]
      rw [if_neg (by rw [AList.contains, hi]; simp)]
      exact h1
    · rw [AList.get?_append]
      cases AList.get? s k with
      | some v => rfl
      | none =>
        simp only [AList.get?]
        exact if_neg hk.symm

example : (loadFile id titleOf [] ⟨"f".toList, .ok (.dict [("type".toList, .str "object".toList)])⟩).map (·.1)
    = .ok "f".toList := by decide +kernel

/-- An identifier given as `id` is not seen: the file is registered under its name. -/
theorem C206_id_violated (norm : Str → Str) (param : Val → Str) (d : Docs) (stem n : Str) (s : List (Str × Val))
    (hi : AList.get? s "$id".toList = none) (hn : Bare stem n) (hr : n ≠ []) :
    ∃ d', loadFile norm param d ⟨stem, .ok (.dict s)⟩ = .ok (n, d') := by
  obtain ⟨d', h1, -⟩ := C205_registered_partial norm param d (s ++ [("$id".toList, .str stem)]) stem n
    (.inl (by rw [AList.get?_append, hi]; rfl)) hn hr
  refine ⟨d', ?_⟩
  simp only [loadFile]
  rw [if_neg (by rw [AList.contains, hi]; simp)]
  exact h1

example : (loadFile id titleOf [] ⟨"f".toList, .ok (.dict (sch "id" "http://a/b"))⟩).map (·.1) = .ok "f".toList := by
  decide +kernel

/-! ### C207: loading a module registers each of its schemas -/

/-- What a file registers does not depend on the documents. -/
theorem loadFile_docs (norm : Str → Str) (param : Val → Str) (f : File) :
    (∃ e, ∀ d, loadFile norm param d f = .error e)
    ∨ ∃ u v, ∀ d, loadFile norm param d f = .ok (u, registerDoc norm d v u) := by
  rw [show f = ⟨f.stem, f.content⟩ from rfl]
  cases f.content with
  | error e => exact .inl ⟨e, fun _ => rfl⟩
  | ok v =>
    cases v with
    | dict s =>
      simp only [loadFile]
      generalize (if AList.contains s "$id".toList then s else s ++ [("$id".toList, Val.str f.stem)]) = s'
      simp only [loadSchema]
      cases idOf s' with
      | str i =>
        simp only
        generalize nameOf param (rstrip i) (AList.get? s' "title".toList) = w
        by_cases h : w = []
        · exact .inl ⟨_, fun _ => by rw [if_pos h]⟩
        · exact .inr ⟨_, _, fun _ => by rw [if_neg h]⟩
      | _ => exact .inl ⟨_, fun _ => rfl⟩
    | _ => exact .inl ⟨_, fun _ => rfl⟩

/-- What the files register, under normalised URIs. -/
def entries (norm : Str → Str) (param : Val → Str) : List File → List (Str × Val)
  | [] => []
  | f :: fs => match loadFile norm param [] f with
    | .ok (u, d) => match lookup norm d u with
      | some v => (norm u, v) :: entries norm param fs
      | none => entries norm param fs
    | .error _ => entries norm param fs

/-- Every document is the last one that a file registers, or the one that was there. Files that fail do not matter. -/
theorem C207_last_partial (norm : Str → Str) (param : Val → Str) (fs : List File) : ∀ (d : Docs) (u : Str),
    lookup norm (loadAll norm param d fs) u
      = match lastFor (norm u) (entries norm param fs) with
        | some v => some v
        | none => lookup norm d u := by
  induction fs with
  | nil => intro d u; rfl
  | cons f fs ih =>
    intro d u
    rcases loadFile_docs norm param f with ⟨e, h⟩ | ⟨w, v, h⟩
    · simp only [loadAll, entries, h]
      exact ih d u
    · have hl : lookup norm (registerDoc norm [] v w) w = some v := AList.get?_set_self ..
      simp only [loadAll, entries, h, hl, lastFor]
      rw [ih]
      cases lastFor (norm u) (entries norm param fs) with
      | some x => rfl
      | none =>
        by_cases hw : norm w = norm u
        · simp only [hw, if_true, lookup, registerDoc]
          exact AList.get?_set_self ..
        · simp only [hw, if_false, lookup, registerDoc]
          exact AList.get?_set_ne _ _ hw

theorem lastFor_mem {k : Str} {v : Val} : (l : List (Str × Val)) → (l.map Prod.fst).Nodup → (k, v) ∈ l → lastFor k l = some v
  | [], _, h => absurd h (by simp)
  | (k', v') :: l, hn, h => by
    simp only [List.map_cons, List.nodup_cons] at hn
    rw [lastFor]
    rcases List.mem_cons.mp h with h | h
    · cases h
      have : ∀ l : List (Str × Val), k ∉ l.map Prod.fst → lastFor k l = none := by
        intro l
        induction l with
        | nil => intro _; rfl
        | cons p l ih =>
          intro h
          simp only [List.map_cons, List.mem_cons, not_or] at h
          rw [lastFor, ih h.2]
          exact if_neg fun e => h.1 e.symm
      rw [this l hn.1]
      simp
    · rw [lastFor_mem l hn.2 h]

/-- If no two files have the same identifier, each that can be loaded is registered, whatever the others. -/
theorem C207_each_partial (norm : Str → Str) (param : Val → Str) (d : Docs) (fs : List File)
    (hd : ((entries norm param fs).map Prod.fst).Nodup) (f : File) (hf : f ∈ fs) (u : Str) (d' : Docs)
    (h : loadFile norm param d f = .ok (u, d')) :
    lookup norm (loadAll norm param d fs) u = lookup norm d' u := by
  rcases loadFile_docs norm param f with ⟨e, he⟩ | ⟨w, v, hv⟩
  · rw [he] at h; exact absurd h (by simp)
  · rw [hv] at h
    cases h
    have hmem : ∀ fs : List File, f ∈ fs → (norm u, v) ∈ entries norm param fs := by
      intro fs
      induction fs with
      | nil => intro h; exact absurd h (by simp)
      | cons g fs ih =>
        intro hf
        have hl : lookup norm (registerDoc norm [] v u) u = some v := AList.get?_set_self ..
        rcases List.mem_cons.mp hf with rfl | hf
        · simp only [entries, hv, hl, List.mem_cons, true_or]
        · simp only [entries]
          split
          · split
            · exact List.mem_cons_of_mem _ (ih hf)
            · exact ih hf
          · exact ih hf
    rw [C207_last_partial, lastFor_mem _ hd (hmem fs hf)]
    exact (AList.get?_set_self ..).symm

/-- Three files, of which the second is no schema. -/
def files : List File := [⟨"a".toList, .ok (.dict [])⟩, ⟨"b".toList, .ok (.list [])⟩, ⟨"c".toList, .ok (.dict [])⟩]

example : ((entries id titleOf files).map Prod.fst) = ["a".toList, "c".toList]
    ∧ AList.keys (loadAll id titleOf [] files) = ["a".toList, "c".toList] := by decide +kernel

/-- Of two files with the same name in different folders, only the last is registered. -/
theorem C207_stem_violated (norm : Str → Str) (param : Val → Str) (d : Docs) :
    lookup norm (loadAll norm param d [⟨"a".toList, .ok (.dict [("title".toList, .int 1)])⟩,
        ⟨"a".toList, .ok (.dict [("title".toList, .int 2)])⟩]) "a".toList
      = some (.dict [("title".toList, .int 2), ("$id".toList, .str "a".toList)]) := by
  have h : ∀ d i, loadFile norm param d ⟨"a".toList, .ok (.dict [("title".toList, .int i)])⟩
      = .ok ("a".toList, registerDoc norm d (.dict [("title".toList, .int i), ("$id".toList, .str "a".toList)]) "a".toList) :=
    fun _ _ => rfl
  simp only [loadAll, h]
  exact AList.get?_set_self ..

/-! ### C208: the folders of a module are searched for its files -/

/-- The folder that a registration adds for a module. -/
def added (fs : Fs) (m : Str) (p : Str × Str) : Option Str :=
  if p.1 = m then match fs.parent p.1 with
    | .ok dir => if fs.exist (fs.join dir p.2) then some (fs.join dir p.2) else none
    | .error _ => none
  else none

theorem firsts_append (l : List Str) (x : Str) : firsts (l ++ [x]) = if x ∈ l then firsts l else firsts l ++ [x] := by
  induction l with
  | nil => simp [firsts]
  | cons y l ih =>
    rw [List.cons_append, firsts, ih]
    by_cases hxy : x = y
    · subst hxy
      by_cases hx : x ∈ l
      · simp [hx, firsts]
      · simp [hx, firsts]
    · by_cases hx : x ∈ l
      · simp [hx, firsts]
      · simp [hx, hxy, firsts, List.filter_append]

theorem mem_firsts (l : List Str) (x : Str) : x ∈ firsts l ↔ x ∈ l := by
  induction l with
  | nil => simp [firsts]
  | cons y l ih =>
    simp only [firsts, List.mem_cons, List.mem_filter, ih]
    by_cases h : x = y <;> simp [h]

/-- After any registrations, a module has the folders that exist, each once, in the order they were first registered. -/
theorem C208_folders (fs : Fs) (m : Str) (hist : List (Str × Str)) :
    (AList.get? (registerAll fs [] hist) m).getD [] = firsts (hist.filterMap (added fs m)) := by
  have main : ∀ (hist past : List (Str × Str)) (r : Folders),
      (AList.get? r m).getD [] = firsts (past.filterMap (added fs m)) →
      (AList.get? (registerAll fs r hist) m).getD [] = firsts ((past ++ hist).filterMap (added fs m)) := by
    intro hist
    induction hist with
    | nil => intro past r h; rw [List.append_nil]; exact h
    | cons p hist ih =>
      intro past r h
      obtain ⟨m', sub⟩ := p
      have step : ∀ r', (AList.get? r' m).getD [] = firsts ((past ++ [(m', sub)]).filterMap (added fs m)) →
          (AList.get? (registerAll fs r' hist) m).getD [] = firsts ((past ++ (m', sub) :: hist).filterMap (added fs m)) := by
        intro r' h'
        rw [ih (past ++ [(m', sub)]) r' h', List.append_assoc]; rfl
      simp only [registerAll, register]
      cases hp : fs.parent m' with
      | error e =>
        refine step r ?_
        rw [h, List.filterMap_append]
        simp [added, hp]
      | ok dir =>
        simp only
        by_cases he : fs.exist (fs.join dir sub) = true
        · rw [if_pos he]
          refine step _ ?_
          rw [List.filterMap_append]
          by_cases hm : m' = m
          · subst hm
            rw [AList.get?_set_self, h]
            simp only [added, hp, he, if_true, List.filterMap_cons, List.filterMap_nil, Option.getD_some, mem_firsts]
            rw [firsts_append]
          · rw [AList.get?_set_ne _ _ hm, h]
            simp [added, hm]
        · rw [if_neg he]
          refine step r ?_
          rw [h, List.filterMap_append]
          simp [added, hp, he]
  exact main hist [] [] rfl

/-- Modules are folders, and all files exist but those below `none`. -/
def exFs : Fs := ⟨fun m => if m = "bad".toList then .error .exception else .ok m, fun a b => a ++ '/' :: b,
  fun p => decide (p ≠ "m/none".toList)⟩

example : registerAll exFs [] [("m".toList, "a".toList), ("m".toList, "none".toList), ("bad".toList, "a".toList),
      ("n".toList, "a".toList), ("m".toList, "b".toList), ("m".toList, "a".toList)]
    = [("m".toList, ["m/a".toList, "m/b".toList]), ("n".toList, ["n/a".toList])] := by decide +kernel

/-- A name that begins with a registered module is searched in its folders only, any other name in all folders. -/
theorem C208_find {α : Type} (pick : List Str → Str → α) (r : Folders) (m p : Str) (hm : '/' ∉ m ∧ '\\' ∉ m) (hp : '\\' ∉ p)
    (sep : Char) (hsep : sep = '/' ∨ sep = '\\') :
    (∀ l, AList.get? r m = some l → findOne pick r (m ++ sep :: p) = pick l p)
    ∧ (AList.get? r m = none → findOne pick r (m ++ sep :: p) = pick ((r.map Prod.snd).flatten) (m ++ '/' :: p))
    ∧ findOne pick r m = pick ((r.map Prod.snd).flatten) m := by
  have hid : ∀ s : Str, '\\' ∉ s → s.map (fun c => if c = '\\' then '/' else c) = s := by
    intro s
    induction s with
    | nil => intro _; rfl
    | cons c s ih =>
      intro h
      simp only [List.mem_cons, not_or] at h
      rw [List.map_cons, ih h.2, if_neg (fun e => h.1 e.symm)]
  have hname : (m ++ sep :: p).map (fun c => if c = '\\' then '/' else c) = m ++ '/' :: p := by
    rw [List.map_append, hid m hm.2, List.map_cons, hid p hp]
    rcases hsep with rfl | rfl <;> rfl
  have htw : ∀ m : Str, '/' ∉ m → (m ++ '/' :: p).takeWhile (· != '/') = m
      ∧ (m ++ '/' :: p).dropWhile (· != '/') = '/' :: p := by
    intro m
    induction m with
    | nil => intro _; simp
    | cons c m ih =>
      intro h
      simp only [List.mem_cons, not_or] at h
      have hc : (c != '/') = true := by simpa using fun e => h.1 e.symm
      simp [hc, ih h.2]
  have hin : '/' ∈ m ++ '/' :: p := by simp
  refine ⟨fun l hl => ?_, fun hn => ?_, ?_⟩
  · simp only [findOne, hname, hin, if_true, (htw m hm.1).1, (htw m hm.1).2, hl]; rfl
  · simp only [findOne, hname, hin, if_true, (htw m hm.1).1, hn]
  · simp only [findOne, hid m hm.2, hm.1, if_false]

example : findOne (fun l p => (l, p)) [("m".toList, ["m/a".toList]), ("n".toList, ["n/a".toList])] "m\\x/y".toList
    = (["m/a".toList], "x/y".toList) := by decide +kernel

/-! ### C209: creating a resolver leaves the registered documents as they are -/

/-- If there are any. -/
theorem C209_unchanged_partial (norm : Str → Str) (res : Str → Res Val) (d : Docs) (hd : d ≠ []) (uri : Str)
    (schema : Option Val) (r : Docs × Docs) (h : create norm res d uri schema = .ok r) (u : Str) :
    lookup norm r.1 u = lookup norm d u := by
  simp only [create] at h
  split at h
  · next v hv =>
    cases h
    by_cases hu : norm (uri.takeWhile (· != '#')) = norm u
    · simp only [lookup, registerDoc]
      rw [← hu, AList.get?_set_self]
      exact hv.symm
    · exact AList.get?_set_ne _ _ hu
  · split at h
    · exact absurd h (by simp)
    · rw [if_neg (by simpa using hd)] at h
      cases h; rfl

example : create id (fun _ => .error .exception) [("a".toList, .int 1)] "b#/x".toList (some (.int 2))
    = .ok ([("a".toList, .int 1)], [("a".toList, .int 1), ("b#/x".toList, .int 2)]) := by decide +kernel

/-- If there are none, the schema is registered. -/
theorem C209_empty_violated (norm : Str → Str) (res : Str → Res Val) (uri : Str) (s : Val) :
    ∃ r, create norm res [] uri (some s) = .ok r ∧ lookup norm r.1 uri = some s :=
  ⟨_, rfl, AList.get?_set_self ..⟩

/-! ### C210: a transformation converts the value once -/

/-- Without conversion, and if converting twice is converting once. -/
theorem C210_once_partial (conv mk : Val → Res Val) (v : Val) : transform conv mk false v = mk v
    ∧ ∀ w, conv v = .ok w → conv w = .ok w → transform conv mk true v = mk w := by
  refine ⟨rfl, fun w h1 h2 => ?_⟩
  simp only [transform, transform_, if_true, h1, h2]

example : transform .ok (fun v => .ok (.list [v])) true (.int 1) = .ok (.list [.int 1]) := by decide +kernel

/-- The conversion is done twice. -/
theorem C210_twice_violated (conv mk : Val → Res Val) (v w x : Val) (h1 : conv v = .ok w) (h2 : conv w = .ok x) :
    transform conv mk true v = mk x := by
  simp only [transform, transform_, if_true, h1, h2]

example : transform (fun v => .ok (.list [v])) .ok true (.int 1) = .ok (.list [.list [.int 1]]) := by decide +kernel

/-! ### C211: calling a loader, saver or resolver gives what its method gives -/

/-- The errors only. -/
theorem C211_error_partial {α : Type} (f : Val → Res α) (v : Val) (e : Exc) (h : f v = .error e) : call f v = .error e := by
  rw [call, h]; rfl

example : call (fun _ => (.error .keyError : Res Val)) .none = .error .keyError := by decide +kernel

/-- Every result is raised, which is a TypeError. -/
theorem C211_raised_violated {α : Type} (f : Val → Res α) (v : Val) (r : α) (h : f v = .ok r) :
    call f v = .error .typeError := by rw [call, h]; rfl

/-! ### C212: loading many values is loading each of them -/

/-- If all are loaded. -/
theorem C212_each (split : Val → Res (List Val)) (deser : Val → Res Val) (mk : Option (Val → Res Val)) (v : Val)
    (l r : List Val) (hs : split v = .ok l) : loadMany split deser mk v = .ok r ↔ each (load deser mk) l = .ok r := by
  rw [loadMany, hs]
  simp only
  clear hs
  induction l generalizing r with
  | nil =>
    cases mk <;> rfl
  | cons x l ih =>
    simp only [each, load]
    cases deser x with
    | error e => simp
    | ok y =>
      simp only
      cases mk with
      | none =>
        simp only at ih ⊢
        cases hd : each deser l with
        | error e =>
          rw [hd] at ih
          simp only at ih ⊢
          cases he : each (load deser none) l with
          | error e' => simp
          | ok q => exact absurd ((ih q).mpr he) (by simp)
        | ok q =>
          rw [hd] at ih
          simp only at ih ⊢
          rw [(ih q).mp rfl]
      | some f =>
        simp only at ih ⊢
        cases hd : each deser l with
        | error e =>
          rw [hd] at ih
          simp only at ih ⊢
          cases f y with
          | error e' => simp
          | ok z =>
            simp only
            cases he : each (load deser (some f)) l with
            | error e' => simp
            | ok q => exact absurd ((ih q).mpr he) (by simp)
        | ok q =>
          rw [hd] at ih
          simp only [each] at ih ⊢
          cases f y with
          | error e' => simp
          | ok z =>
            simp only
            cases hf : each f q with
            | error e =>
              rw [hf] at ih
              cases he : each (load deser (some f)) l with
              | error e' => simp
              | ok q' => exact absurd ((ih q').mpr he) (by simp)
            | ok q' =>
              rw [(ih q').mp hf]

example : loadMany (fun v => match v with | .list l => .ok l | v => .ok [v]) .ok (some fun v => .ok (.list [v]))
    (.list [.int 1, .int 2]) = .ok [.list [.int 1], .list [.int 2]] := by decide +kernel

/-! ### C213: the size of a file in words has the greatest unit not above it -/

theorem tenths_nearest (num den : Nat) (hd : 0 < den) : Nearest (tenths num den) num den := by
  have h := Nat.div_add_mod (10 * num) den
  have hr := Nat.mod_lt (10 * num) hd
  simp only [tenths, Nearest]
  generalize 10 * num / den = q at *
  generalize 10 * num % den = r at *
  have e1 : 2 * (q + 1) * den = 2 * (den * q) + 2 * den := by
    rw [Nat.mul_assoc, Nat.add_mul, Nat.mul_add, Nat.mul_comm q den, Nat.one_mul]
  have e2 : 2 * q * den = 2 * (den * q) := by rw [Nat.mul_assoc, Nat.mul_comm q den]
  split
  · rw [e2]; omega
  · split
    · rw [e1]; omega
    · split
      · rw [e2]; omega
      · rw [e1]; omega

theorem humanFrom_eq (n : Nat) (k : Nat) : ∀ (left u den : Nat), k < left → (k = 0 ∨ 1024 ^ k * den ≤ n) →
    n < 1024 ^ (k + 1) * den → humanFrom left u n den = .text (tenths n (1024 ^ k * den)) (u + k) := by
  induction k with
  | zero =>
    intro left u den hl _ h
    obtain ⟨left, rfl⟩ : ∃ l, left = l + 1 := ⟨left - 1, by omega⟩
    rw [humanFrom, if_pos (by simpa using h)]
    simp
  | succ k ih =>
    intro left u den hl h1 h2
    obtain ⟨left, rfl⟩ : ∃ l, left = l + 1 := ⟨left - 1, by omega⟩
    have h1 : 1024 ^ (k + 1) * den ≤ n := by
      rcases h1 with h1 | h1
      · exact absurd h1 (by omega)
      · exact h1
    have e : ∀ j, 1024 ^ j * (den * 1024) = 1024 ^ (j + 1) * den := by
      intro j; rw [Nat.pow_succ, Nat.mul_comm den 1024, Nat.mul_assoc]
    have hge : ¬ n < 1024 * den := by
      have : 1024 * den ≤ 1024 ^ (k + 1) * den := by
        apply Nat.mul_le_mul_right
        rw [Nat.pow_succ]
        exact Nat.le_mul_of_pos_left _ (Nat.pow_pos (by decide))
      omega
    rw [humanFrom, if_neg hge, ih left (u + 1) (den * 1024) (by omega) (.inr (by rw [e]; exact h1)) (by rw [e]; exact h2), e]
    congr 1
    omega

/-- Below 1024 TB: the unit is the greatest one not above the size, and the number is rounded to the nearest tenth. -/
theorem C213_unit_partial (n k : Nat) (hk : k < 5) (h1 : k = 0 ∨ 1024 ^ k ≤ n) (h2 : n < 1024 ^ (k + 1)) :
    ∃ t, human n = .text t k ∧ Nearest t n (1024 ^ k) := by
  refine ⟨tenths n (1024 ^ k), ?_, tenths_nearest _ _ (Nat.pow_pos (by decide))⟩
  have := humanFrom_eq n k 5 0 1 hk (by simpa using h1) (by simpa using h2)
  rw [human, this]
  simp

example : human 1536 = .text 15 1 ∧ human 0 = .text 0 0 := by decide +kernel

/-- From 1024 TB on, a number without unit is given. -/
theorem C213_large_violated (n : Nat) (h : 1024 ^ 5 ≤ n) : human n = .number n (1024 ^ 5) := by
  have hs : ∀ j, j ≤ 5 → ¬ n < 1024 ^ j := fun j hj hn =>
    absurd (Nat.lt_of_lt_of_le hn (Nat.pow_le_pow_right (by decide) hj)) (by omega)
  have h1 := hs 1 (by decide); have h2 := hs 2 (by decide); have h3 := hs 3 (by decide)
  have h4 := hs 4 (by decide); have h5 := hs 5 (by decide)
  simp only [human, humanFrom]
  rw [if_neg h1, if_neg h2, if_neg h3, if_neg h4, if_neg h5]

/-- And rounding gives 1024.0 of a unit just below the next one. -/
theorem C213_rounded_violated (k : Nat) (h1 : 1 ≤ k) (h4 : k ≤ 4) : human (1024 ^ (k + 1) - 1) = .text 10240 k := by
  match k, h1, h4 with
  | 1, _, _ => decide +kernel
  | 2, _, _ => decide +kernel
  | 3, _, _ => decide +kernel
  | 4, _, _ => decide +kernel

example : human 1048575 = .text 10240 1 := by decide +kernel

end Verif.Loading
