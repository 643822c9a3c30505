import Verif.Spec.Uri
import Verif.Lemmas.Names
/-
Lemmas about pointers and the document store.
-/
namespace Verif.Uri
open Decor (Lru)

/-! Escaping -/

theorem replace2_cons_ne {x y z a : Char} (s : Str) (h : a ≠ x) :
    replace2 x y z (a :: s) = a :: replace2 x y z s := by
  cases s with
  | nil => simp [replace2]
  | cons b s => rw [replace2, if_neg (by simp [h])]

/-- Escaping, first pass undone: what is left has only `~0` escapes. -/
def escape0 (tok : Str) : Str := tok.flatMap (fun c => if c = '~' then ['~', '0'] else [c])

theorem replace_slash (tok : Str) : replace2 '~' '1' '/' (escape tok) = escape0 tok := by
  induction tok with
  | nil => rfl
  | cons c tok ih =>
    rw [escape, List.flatMap_cons, escape0, List.flatMap_cons]
    rw [escape] at ih; rw [escape0] at ih
    by_cases h1 : c = '~'
    · subst h1
      simp only [if_true, List.cons_append, List.nil_append]
      rw [replace2, if_neg (by decide), replace2_cons_ne _ (by decide), ih]
    · by_cases h2 : c = '/'
      · subst h2
        rw [if_neg (by decide), if_pos rfl, if_neg (by decide)]
        simp only [List.cons_append, List.nil_append]
        rw [replace2, if_pos ⟨rfl, rfl⟩, ih]
      · rw [if_neg h1, if_neg h2, if_neg h1]
        simp only [List.cons_append, List.nil_append]
        rw [replace2_cons_ne _ h1, ih]

theorem replace_tilde (tok : Str) : replace2 '~' '0' '~' (escape0 tok) = tok := by
  induction tok with
  | nil => rfl
  | cons c tok ih =>
    rw [escape0, List.flatMap_cons]
    rw [escape0] at ih
    by_cases h1 : c = '~'
    · subst h1
      simp only [if_true, List.cons_append, List.nil_append]
      rw [replace2, if_pos ⟨rfl, rfl⟩, ih]
    · rw [if_neg h1]
      simp only [List.cons_append, List.nil_append]
      rw [replace2_cons_ne _ h1, ih]

theorem unescape_escape (tok : Str) : unescape (escape tok) = tok := by
  rw [unescape, replace_slash, replace_tilde]

theorem escape_no_slash (tok : Str) : '/' ∉ escape tok := by
  rw [escape, List.mem_flatMap]
  rintro ⟨c, _, h⟩
  split at h
  · simp at h
  · split at h
    · simp at h
    · rename_i h2; simp at h; exact h2 h.symm

theorem escape_ne_nil {tok : Str} (h : tok ≠ []) : escape tok ≠ [] := by
  cases tok with
  | nil => exact absurd rfl h
  | cons c tok =>
    rw [escape, List.flatMap_cons]
    split
    · simp
    · split <;> simp

theorem pointer_eq (toks : List Str) : pointer toks = Names.fragmentText (toks.map escape) := by
  rw [pointer, Names.fragmentText, List.flatMap_map]

/-- The parts a pointer is split into, whatever its encoding. -/
theorem resolveFragment_encoded (unq : Str → Str) (doc : Val) (text : Str) (toks : List Str)
    (h0 : toks ≠ []) (hl : ∀ c ∈ text.head?, c ≠ '/') (hne : text ≠ [])
    (hu : unq text = joinWith ['/'] (toks.map escape)) :
    resolveFragment unq doc ('/' :: text) = fragLoop doc (toks.map escape) := by
  have hs : lstrip (· == '/') ('/' :: text) = text := by
    have : lstrip (· == '/') ('/' :: text) = lstrip (· == '/') text := by simp [lstrip]
    rw [this]
    exact lstrip_eq_self (fun c hc => by simpa using hl c hc)
  unfold resolveFragment
  simp only [hs]
  rw [if_neg (by simpa using hne), hu, splitOn_joinWith _ (by simpa using h0)]
  intro w hw
  obtain ⟨t, _, rfl⟩ := List.mem_map.1 hw
  exact escape_no_slash t

theorem head_joinWith (ws : List Str) (w : Str) (h : ws.head? = some w) (hne : w ≠ []) :
    (joinWith ['/'] ws).head? = w.head? ∧ joinWith ['/'] ws ≠ [] := by
  cases ws with
  | nil => simp at h
  | cons v ws =>
    simp at h; subst h
    cases v with
    | nil => exact absurd rfl hne
    | cons c v =>
      cases ws with
      | nil => simp [joinWith]
      | cons u ws => simp [joinWith]

theorem resolveFragment_pointer (unq : Str → Str) (hunq : ∀ s, '%' ∉ s → unq s = s) (doc : Val)
    (toks : List Str) (hfirst : ∀ t ∈ toks.head?, t ≠ []) (hp : '%' ∉ pointer toks) :
    resolveFragment unq doc (pointer toks) = fragLoop doc (toks.map escape) := by
  cases toks with
  | nil => rfl
  | cons t toks =>
    have hne : (t :: toks).map escape ≠ [] := by simp
    rw [pointer_eq, Names.fragmentText_eq _ hne] at hp ⊢
    obtain ⟨hh, hn⟩ := head_joinWith ((t :: toks).map escape) (escape t) (by simp)
      (escape_ne_nil (hfirst t (by simp)))
    apply resolveFragment_encoded unq doc _ (t :: toks) (by simp) _ hn
    · apply hunq
      intro hm
      exact hp (List.mem_cons_of_mem _ hm)
    · intro c hc
      rw [hh] at hc
      rintro rfl
      exact escape_no_slash t (List.mem_of_head? hc)

theorem fragLoop_addresses {doc v : Val} {toks : List Str} (h : Addresses doc toks v) :
    fragLoop doc (toks.map escape) = .ok v := by
  induction h with
  | here v => rfl
  | @key d k v ks w hk _ ih =>
    rw [List.map_cons, fragLoop]
    simp only [fragStep, unescape_escape, hk]
    exact ih
  | @pos l i v ks w hi _ ih =>
    rw [List.map_cons, fragLoop]
    simp only [fragStep, unescape_escape, parseInt_showNat]
    have : pyIndex l (i : Int) = some v := by
      rw [pyIndex, if_pos (by omega)]; simpa using hi
    simp only [this]
    exact ih

theorem fragLoop_error {doc : Val} {parts : List Str} {e : Exc} (h : fragLoop doc parts = .error e) :
    e = .invalidValue := by
  induction parts generalizing doc with
  | nil => simp [fragLoop] at h
  | cons p parts ih =>
    rw [fragLoop] at h
    cases hs : fragStep doc p with
    | ok v => rw [hs] at h; exact ih h
    | error e' =>
      rw [hs] at h; simp at h; subst h
      unfold fragStep at hs
      repeat' split at hs
      all_goals first
        | (cases hs; done)
        | (simp at hs; exact hs.symm)

theorem pyIndex_some {α} {l : List α} {i : Int} {v : α} (h : pyIndex l i = some v) :
    ∃ n : Nat, l[n]? = some v ∧ (0 ≤ i → i = n) := by
  unfold pyIndex at h
  split at h
  · exact ⟨_, h, fun _ => by omega⟩
  · split at h
    · exact ⟨_, h, fun _ => by omega⟩
    · simp at h

theorem fragLoop_node {doc v : Val} {parts : List Str} (h : fragLoop doc parts = .ok v) :
    ∃ toks, Addresses doc toks v := by
  induction parts generalizing doc with
  | nil => simp [fragLoop] at h; subst h; exact ⟨[], .here _⟩
  | cons p parts ih =>
    rw [fragLoop] at h
    cases hs : fragStep doc p with
    | error e => rw [hs] at h; simp at h
    | ok w =>
      rw [hs] at h
      obtain ⟨toks, ht⟩ := ih h
      cases doc with
      | list l =>
        simp only [fragStep] at hs
        split at hs
        · simp at hs
        · split at hs
          · simp at hs
          · rename_i i _ x hx
            simp at hs; subst hs
            obtain ⟨n, hn, _⟩ := pyIndex_some hx
            exact ⟨showNat n :: toks, .pos hn ht⟩
      | dict d =>
        simp only [fragStep] at hs
        split at hs
        · simp at hs
        · rename_i x hx
          simp at hs; subst hs
          exact ⟨_ :: toks, .key hx ht⟩
      | _ => simp [fragStep] at hs

theorem fragLoop_tokens {doc v : Val} {toks : List Str} 
    (hcanon : ∀ t ∈ toks, ∀ i, parseInt t = some i → 0 ≤ i ∧ t = showInt i)
    (h : fragLoop doc (toks.map escape) = .ok v) : Addresses doc toks v := by
  induction toks generalizing doc with
  | nil => simp [fragLoop] at h; subst h; exact .here _
  | cons t toks ih =>
    rw [List.map_cons, fragLoop] at h
    cases hs : fragStep doc (escape t) with
    | error e => rw [hs] at h; simp at h
    | ok w =>
      rw [hs] at h
      have ht := ih (fun t ht => hcanon t (by simp [ht])) h
      cases doc with
      | list l =>
        simp only [fragStep, unescape_escape] at hs
        split at hs
        · simp at hs
        · rename_i i hi
          split at hs
          · simp at hs
          · rename_i x hx
            simp at hs; subst hs
            obtain ⟨h0, ht'⟩ := hcanon t (by simp) i hi
            obtain ⟨n, hn, hin⟩ := pyIndex_some hx
            have : t = showNat n := by
              rw [ht', hin h0, showInt, if_neg (by omega)]; rfl
            rw [this]
            exact .pos hn ht
      | dict d =>
        simp only [fragStep, unescape_escape] at hs
        split at hs
        · simp at hs
        · rename_i x hx
          simp at hs; subst hs
          exact .key hx ht
      | _ => simp [fragStep] at hs

/-! Scope -/

theorem splitOn_hash_cases (s : Str) :
    ('#' ∉ s ∧ splitOn '#' s = [s]) ∨ ∃ d f rest, splitOn '#' s = d :: f :: rest ∧ '#' ∉ d ∧ '#' ∉ f := by
  by_cases h : '#' ∈ s
  · right
    rcases hs : splitOn '#' s with _ | ⟨d, _ | ⟨f, rest⟩⟩
    · exact absurd hs (splitOn_ne_nil _ _)
    · exfalso
      have hj := joinWith_splitOn '#' s
      rw [hs] at hj; simp only [joinWith] at hj
      have := splitOn_notMem (sep := '#') (s := s) (w := d) (by rw [hs]; simp)
      rw [hj] at this; exact this h
    · exact ⟨d, f, rest, rfl, splitOn_notMem (s := s) (by rw [hs]; simp), splitOn_notMem (s := s) (by rw [hs]; simp)⟩
  · exact .inl ⟨h, splitOn_of_notMem h⟩

theorem scope_two {d f : Str} (hd : '#' ∉ d) (hf : '#' ∉ f) (base : Str) :
    scope (d ++ '#' :: f) base = (if d.isEmpty then Names.beforeHash base else d) ++ ['#'] ++ f := by
  rw [scope, splitOn_append hd, splitOn_of_notMem hf]; rfl

/-! The store -/

variable {δ : Type}

theorem step_docs (norm : Str → Str) (s : Store δ) (op : DocOp δ) (uri : Str) :
    AList.get? (s.step norm op).docs (norm uri) = registered norm uri [op] (AList.get? s.docs (norm uri)) := by
  cases op with
  | register u d =>
    simp only [Store.step, registerDoc, registered]
    rw [AList.get?_set]
  | unregister u =>
    simp only [Store.step, unregisterDoc, registered]
    rw [AList.get?_erase]
    by_cases h : norm u = norm uri
    · rw [if_pos h, if_pos h.symm]
    · rw [if_neg h, if_neg (Ne.symm h)]
  | resolve u => rfl

theorem registered_cons (norm : Str → Str) (uri : Str) (op : DocOp δ) (ops : List (DocOp δ)) (cur : Option δ) :
    registered norm uri (op :: ops) cur = registered norm uri ops (registered norm uri [op] cur) := by
  cases op <;> rfl

theorem run_docs (norm : Str → Str) (ops : List (DocOp δ)) (s : Store δ) (uri : Str) :
    AList.get? (s.run norm ops).docs (norm uri) = registered norm uri ops (AList.get? s.docs (norm uri)) := by
  induction ops generalizing s with
  | nil => rfl
  | cons op ops ih =>
    rw [Store.run, List.foldl_cons, registered_cons, ← step_docs]
    exact ih _

theorem step_cache_keys (norm : Str → Str) (s : Store δ) (op : DocOp δ) (x : Str)
    (h : x ∈ AList.keys (s.step norm op).cache.entries) :
    (∃ u, op = .resolve u ∧ x = u) ∨ x ∈ AList.keys s.cache.entries := by
  cases op with
  | register u d => exact .inr h
  | unregister u => exact .inr h
  | resolve u =>
    rcases Names.lru_keys (fun u => match AList.get? s.docs (norm (urldefrag u).1) with
      | some d => .ok d
      | none => .error .exception) s.cache u x h with h | h
    · exact .inl ⟨u, rfl, h⟩
    · exact .inr h

theorem run_cache_keys (norm : Str → Str) (ops : List (DocOp δ)) (s : Store δ) (uri : Str)
    (h : DocOp.resolve uri ∉ ops) (hs : uri ∉ AList.keys s.cache.entries) :
    uri ∉ AList.keys (s.run norm ops).cache.entries := by
  induction ops generalizing s with
  | nil => exact hs
  | cons op ops ih =>
    rw [Store.run, List.foldl_cons]
    simp only [List.mem_cons, not_or] at h
    refine ih _ h.2 ?_
    intro hm
    rcases step_cache_keys norm s op uri hm with ⟨u, rfl, rfl⟩ | hm
    · exact h.1 rfl
    · exact hs hm

/-- Entries that satisfy an invariant keep satisfying it when the function does. -/
theorem lru_entries {κ ρ : Type} [DecidableEq κ] (f : κ → Res ρ) (c : Lru κ ρ) (k : κ) (P : κ → ρ → Prop)
    (hc : ∀ e ∈ c.entries, P e.1 e.2) (hf : ∀ r, f k = .ok r → P k r) :
    (∀ e ∈ (c.call f k).2.2.entries, P e.1 e.2) ∧ ∀ r, (c.call f k).1 = .ok r → P k r := by
  unfold Lru.call
  split
  · rename_i r hr
    have := hc _ (AList.mem_of_get? hr)
    refine ⟨?_, fun r' h' => by simp at h'; subst h'; exact this⟩
    intro e he
    rcases List.mem_cons.1 he with rfl | he
    · exact this
    · exact hc e (List.mem_filter.1 he).1
  · split
    · exact ⟨hc, fun r h => by simp at h⟩
    · rename_i r hr
      refine ⟨?_, fun r' h' => by simp at h'; subst h'; exact hf r hr⟩
      intro e he
      simp only at he
      have : e ∈ (k, r) :: c.entries := by
        split at he
        · exact he
        · exact List.mem_of_mem_take he
      rcases List.mem_cons.1 this with rfl | h'
      · exact hf r hr
      · exact hc e h'

/-- What `resolve_doc` computes when it is not cached. -/
def lookup (norm : Str → Str) (s : Store δ) (u : Str) : Res δ :=
  match AList.get? s.docs (norm (urldefrag u).1) with
  | some d => .ok d
  | none => .error .exception

theorem resolveDoc_eq (norm : Str → Str) (s : Store δ) (u : Str) :
    (resolveDoc norm s u).1 = (s.cache.call (lookup norm s) u).1 ∧
    (resolveDoc norm s u).2 = { s with cache := (s.cache.call (lookup norm s) u).2.2 } := ⟨rfl, rfl⟩

/-- Steps that keep the document of `uri` keep the entries of `uri` right. -/
theorem run_entries (norm : Str → Str) (ops : List (DocOp δ)) (s : Store δ) (uri : Str)
    (h : ∀ op ∈ ops, Keeps norm (urldefrag uri).1 op)
    (hs : ∀ e ∈ s.cache.entries, e.1 = uri → lookup norm s uri = .ok e.2) :
    (∀ e ∈ (s.run norm ops).cache.entries, e.1 = uri → lookup norm s uri = .ok e.2) ∧
    lookup norm (s.run norm ops) uri = lookup norm s uri := by
  induction ops generalizing s with
  | nil => exact ⟨hs, rfl⟩
  | cons op ops ih =>
    have hl : lookup norm (s.step norm op) uri = lookup norm s uri := by
      unfold lookup
      rw [step_docs]
      have := h op (by simp)
      cases op with
      | register u d => simp only [registered, Keeps] at *; rw [if_neg this]
      | unregister u => simp only [registered, Keeps] at *; rw [if_neg this]
      | resolve u => rfl
    rw [Store.run, List.foldl_cons]
    have := ih (s.step norm op) (fun o ho => h o (by simp [ho])) (by
      rw [hl]
      cases op with
      | register u d => exact hs
      | unregister u => exact hs
      | resolve u =>
        exact (lru_entries (lookup norm s) s.cache u (fun k r => k = uri → lookup norm s uri = .ok r) hs
          (fun r hr e => by rw [← e]; exact hr)).1)
    rw [hl] at this
    exact this

end Verif.Uri
