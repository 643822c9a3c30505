import Verif.Spec.Names
import Verif.Lemmas.ChainMap
import Verif.Lemmas.Decor
/-
Lemmas about cleaned names, the order of strings, and namespaces.
-/
namespace Verif.Names
open ChainMap (Chain Binds)
open Decor (Lru)

/-! Last part -/

theorem lastPart_notMem (sep : Char) (s : Str) : sep ∉ lastPart sep s := by
  unfold lastPart
  cases h : (splitOn sep s).getLast? with
  | none => simp
  | some w => exact splitOn_notMem (List.mem_of_getLast? h)

theorem lastPart_of_notMem {sep : Char} {s : Str} (h : sep ∉ s) : lastPart sep s = s := by
  rw [lastPart, splitOn_of_notMem h]; rfl

theorem lastPart_append {sep : Char} (a b : Str) (h : sep ∉ b) : lastPart sep (a ++ sep :: b) = b := by
  induction a with
  | nil =>
    rw [List.nil_append, lastPart, splitOn, if_pos rfl, splitOn_of_notMem h]; rfl
  | cons c a ih =>
    unfold lastPart at ih ⊢
    rw [List.cons_append, splitOn]
    cases hs : splitOn sep (a ++ sep :: b) with
    | nil => exact absurd hs (splitOn_ne_nil _ _)
    | cons w ws =>
      rw [hs] at ih
      split
      · simpa [List.getLast?_cons] using ih
      · cases ws with
        | nil =>
          exfalso
          have hm := splitOn_notMem (sep := sep) (s := a ++ sep :: b) (w := w) (by rw [hs]; simp)
          have hj := joinWith_splitOn sep (a ++ sep :: b)
          rw [hs] at hj; simp only [joinWith] at hj
          rw [hj] at hm; simp at hm
        | cons w' ws => simpa [List.getLast?_cons] using ih

/-- A string is its last part, or something, the separator and its last part. -/
theorem eq_append_lastPart (sep : Char) (s : Str) :
    s = lastPart sep s ∨ ∃ a, s = a ++ sep :: lastPart sep s := by
  by_cases h : sep ∈ s
  · right
    have : ∃ a b, s = a ++ sep :: b ∧ sep ∉ b := by
      induction s with
      | nil => simp at h
      | cons c s ih =>
        by_cases hs : sep ∈ s
        · obtain ⟨a, b, e, hb⟩ := ih hs
          exact ⟨c :: a, b, by rw [e]; rfl, hb⟩
        · have : sep = c := by simpa [hs] using h
          exact ⟨[], s, by rw [this]; rfl, hs⟩
    obtain ⟨a, b, e, hb⟩ := this
    exact ⟨a, by rw [e, lastPart_append a b hb]⟩
  · left; exact (lastPart_of_notMem h).symm

/-! Cleaned names -/

theorem isKept_iff (c : Char) :
    isKept c = true ↔ IdentChar c ∨ c = '-' ∨ c = '[' ∨ c = '\\' ∨ c = ']' ∨ c = '^' ∨ c = '`' := by
  have h2 : ∀ a b : Char, a ≤ b ↔ a.toNat ≤ b.toNat := fun a b => by
    simp only [Char.le_def, UInt32.le_iff_toNat_le, Char.toNat]
  have h3 : ∀ a b : Char, a = b ↔ a.toNat = b.toNat := fun a b =>
    ⟨fun h => by rw [h], fun h => Char.ext (UInt32.toNat_inj.1 h)⟩
  simp only [isKept, IdentChar, Bool.or_eq_true, Bool.and_eq_true, decide_eq_true_eq, beq_iff_eq]
  simp only [h2, h3]
  simp only [show 'a'.toNat = 97 from rfl, show 'z'.toNat = 122 from rfl, show 'A'.toNat = 65 from rfl,
    show 'Z'.toNat = 90 from rfl, show '0'.toNat = 48 from rfl, show '9'.toNat = 57 from rfl,
    show '_'.toNat = 95 from rfl, show '.'.toNat = 46 from rfl, show '-'.toNat = 45 from rfl,
    show '['.toNat = 91 from rfl, show '\\'.toNat = 92 from rfl, show ']'.toNat = 93 from rfl,
    show '^'.toNat = 94 from rfl, show '`'.toNat = 96 from rfl]
  omega

theorem identChar_ne {c : Char} (h : IdentChar c) : c ≠ '-' ∧ c ≠ ':' ∧ c ≠ '/' ∧ c ≠ '#' := by
  refine ⟨?_, ?_, ?_, ?_⟩ <;> rintro rfl <;> exact absurd h (by unfold IdentChar; decide)

theorem mem_cleanJsName {name : Str} {c : Char} (h : c ∈ cleanJsName name) :
    ∃ d ∈ lastPart ':' name, isKept d = true ∧ c = if d = '-' then '_' else d := by
  unfold cleanJsName replaceChar at h
  obtain ⟨d, hd, rfl⟩ := List.mem_map.1 h
  exact ⟨d, (List.mem_filter.1 hd).1, (List.mem_filter.1 hd).2, rfl⟩

theorem cleanJsName_chars {name : Str} {c : Char} (h : c ∈ cleanJsName name) :
    isKept c = true ∧ c ≠ '-' ∧ c ≠ ':' := by
  obtain ⟨d, hd, hk, rfl⟩ := mem_cleanJsName h
  split
  · exact ⟨by decide, by decide, by decide⟩
  · rename_i hn
    refine ⟨hk, hn, ?_⟩
    rintro rfl
    exact lastPart_notMem ':' name hd

theorem cleanJsName_of_chars {s : Str} (h : ∀ c ∈ s, isKept c = true ∧ c ≠ '-' ∧ c ≠ ':') :
    cleanJsName s = s := by
  have hn : ':' ∉ s := fun hm => (h _ hm).2.2 rfl
  rw [cleanJsName, lastPart_of_notMem hn, List.filter_eq_self.2 (fun c hc => (h c hc).1), replaceChar]
  conv => rhs; rw [← List.map_id s]
  apply List.map_congr_left
  intro c hc
  rw [if_neg (h c hc).2.1]; rfl

theorem cleanJsName_clean {s : Str} (h : CleanName s) : cleanJsName s = s := by
  apply cleanJsName_of_chars
  intro c hc
  have := (h.2 c hc).1
  exact ⟨(isKept_iff c).2 (.inl this), (identChar_ne this).1, (identChar_ne this).2.1⟩

/-! Order of strings -/

theorem strLe_refl (a : Str) : strLe a a = true := by
  induction a with
  | nil => rfl
  | cons c a ih => rw [strLe, if_pos rfl, ih]

theorem strLe_of_prefix {a b : Str} (h : a <+: b) : strLe a b = true := by
  induction a generalizing b with
  | nil => rw [strLe]
  | cons c a ih =>
    obtain ⟨t, rfl⟩ := h
    rw [List.cons_append, strLe, if_pos rfl]
    exact ih ⟨t, rfl⟩

theorem strLe_total (a b : Str) : strLe a b = true ∨ strLe b a = true := by
  induction a generalizing b with
  | nil => left; rw [strLe]
  | cons c a ih =>
    cases b with
    | nil => right; rfl
    | cons d b =>
      simp only [strLe]
      by_cases h : c = d
      · subst h; simpa using ih b
      · rw [if_neg h, if_neg (Ne.symm h)]
        simp only [decide_eq_true_eq]; omega

theorem strLe_trans {a b c : Str} (h : strLe a b = true) (h' : strLe b c = true) : strLe a c = true := by
  induction a generalizing b c with
  | nil => rw [strLe]
  | cons x a ih =>
    cases b with
    | nil => simp [strLe] at h
    | cons y b =>
      cases c with
      | nil => simp [strLe] at h'
      | cons z c =>
        have inj : ∀ p q : Char, p.toNat = q.toNat → p = q := fun p q h => Char.ext (UInt32.toNat_inj.1 h)
        simp only [strLe] at *
        split at h
        · subst_vars
          split at h'
          · subst_vars; simpa using ih h h'
          · rename_i hyz; rw [if_neg hyz]; exact h'
        · rename_i hxy
          split at h'
          · subst_vars; rw [if_neg hxy]; exact h
          · rename_i hyz
            simp only [decide_eq_true_eq] at h h'
            have hxz : x ≠ z := by
              rintro rfl
              exact hxy (inj _ _ (by omega))
            rw [if_neg hxz]; simp only [decide_eq_true_eq]; omega

theorem strLe_antisymm {a b : Str} (h : strLe a b = true) (h' : strLe b a = true) : a = b := by
  induction a generalizing b with
  | nil =>
    cases b with
    | nil => rfl
    | cons => simp [strLe] at h'
  | cons x a ih =>
    cases b with
    | nil => simp [strLe] at h
    | cons y b =>
      have inj : ∀ p q : Char, p.toNat = q.toNat → p = q := fun p q h => Char.ext (UInt32.toNat_inj.1 h)
      simp only [strLe] at *
      split at h
      · subst_vars; simp only [if_pos] at h'; rw [ih h h']
      · rename_i hxy
        rw [if_neg (Ne.symm hxy)] at h'
        simp only [decide_eq_true_eq] at h h'
        exact absurd (inj _ _ (by omega)) hxy

theorem greatest_none {l : List Str} : greatest l = none ↔ l = [] := by
  cases l with
  | nil => simp [greatest]
  | cons a l =>
    rw [greatest]
    split
    · simp
    · split <;> simp

theorem greatest_spec {l : List Str} {m : Str} (h : greatest l = some m) :
    m ∈ l ∧ ∀ x ∈ l, strLe x m = true := by
  induction l generalizing m with
  | nil => simp [greatest] at h
  | cons a l ih =>
    rw [greatest] at h
    split at h
    · rename_i hn
      rw [greatest_none] at hn
      cases h; subst hn; simp [strLe_refl]
    · rename_i b hb
      obtain ⟨hm, hle⟩ := ih hb
      split at h <;> cases h
      · rename_i hab
        refine ⟨by simp [hm], ?_⟩
        intro x hx
        rcases List.mem_cons.1 hx with rfl | hx
        · exact hab
        · exact hle x hx
      · rename_i hab
        refine ⟨by simp, ?_⟩
        intro x hx
        rcases List.mem_cons.1 hx with rfl | hx
        · exact strLe_refl x
        · have := (strLe_total a b).resolve_left hab
          exact strLe_trans (hle x hx) this

theorem greatest_isSome {l : List Str} {x : Str} (h : x ∈ l) : ∃ m, greatest l = some m := by
  cases hg : greatest l with
  | some m => exact ⟨m, rfl⟩
  | none => rw [greatest_none] at hg; subst hg; simp at h

/-- Of two prefixes of a string, the greater one is the longer one. -/
theorem length_le_of_strLe {a b s : Str} (ha : a <+: s) (hb : b <+: s) (h : strLe a b = true) :
    a.length ≤ b.length := by
  rcases Nat.le_total a.length b.length with hl | hl
  · exact hl
  · have hp : b <+: a := List.prefix_of_prefix_length_le hb ha hl
    have := strLe_antisymm h (strLe_of_prefix hp)
    rw [this]; exact Nat.le_refl _

/-! Namespaces -/

theorem dottedPrefix_prefix {c name : Str} (h : DottedPrefix c name) : c <+: name := by
  rcases h with rfl | ⟨r, rfl⟩
  · exact List.prefix_rfl
  · exact ⟨_, rfl⟩

theorem covers_iff {c name : Str} : covers c name = true ↔ DottedPrefix c name := by
  unfold covers DottedPrefix
  rw [Bool.or_eq_true, List.isPrefixOf_iff_prefix, beq_iff_eq]
  constructor
  · rintro (⟨r, h⟩ | rfl)
    · right; exact ⟨r, by rw [← h]; simp⟩
    · left; rfl
  · rintro (rfl | ⟨r, rfl⟩)
    · right; rfl
    · left; exact ⟨r, by simp⟩

theorem binds_iff {reg : Chain Str Str} (wf : reg.WF) (c u : Str) : reg.getItem c = .ok u ↔ Binds reg c u :=
  ChainMap.getItem_ok_iff wf c u

theorem binds_unique {reg : Chain Str Str} (wf : reg.WF) {c u v : Str} (h : Binds reg c u)
    (h' : Binds reg c v) : u = v := by
  rw [← binds_iff wf] at h h'
  rw [h] at h'; cases h'; rfl

theorem mem_items {reg : Chain Str Str} (wf : reg.WF) {c u : Str} : (c, u) ∈ items reg ↔ Binds reg c u := by
  rw [← binds_iff wf, items, List.mem_filterMap]
  constructor
  · rintro ⟨k, hk, h⟩
    cases hg : reg.getItem k with
    | error e => rw [hg] at h; simp at h
    | ok v => rw [hg] at h; simp at h; obtain ⟨rfl, rfl⟩ := h; exact hg
  · intro h
    refine ⟨c, ?_, by rw [h]⟩
    rw [ChainMap.mem_iter]
    exact ChainMap.binds_hasKey ((binds_iff wf c u).1 h)

/-- The greatest name among the registered namespaces satisfying a test. -/
theorem pick_spec {reg : Chain Str Str} (wf : reg.WF) (p : Str × Str → Bool) {cn : Str}
    (h : greatest (((items reg).filter p).map Prod.fst) = some cn) :
    (∃ u, reg.getItem cn = .ok u ∧ Binds reg cn u ∧ p (cn, u) = true) ∧
    ∀ c u, Binds reg c u → p (c, u) = true → strLe c cn = true := by
  obtain ⟨hm, hle⟩ := greatest_spec h
  obtain ⟨⟨c, u⟩, hcu, rfl⟩ := List.mem_map.1 hm
  obtain ⟨hcu, hp⟩ := List.mem_filter.1 hcu
  have hb := (mem_items wf).1 hcu
  refine ⟨⟨u, (binds_iff wf _ _).2 hb, hb, hp⟩, ?_⟩
  intro c' u' hb' hp'
  exact hle c' (List.mem_map.2 ⟨(c', u'), List.mem_filter.2 ⟨(mem_items wf).2 hb', hp'⟩, rfl⟩)

theorem pick_isSome {reg : Chain Str Str} (wf : reg.WF) (p : Str × Str → Bool) {c u : Str}
    (h : Binds reg c u) (hp : p (c, u) = true) :
    ∃ cn, greatest (((items reg).filter p).map Prod.fst) = some cn :=
  greatest_isSome (x := c) (List.mem_map.2 ⟨(c, u), List.mem_filter.2 ⟨(mem_items wf).2 h, hp⟩, rfl⟩)

/-- What is found by name among the registered namespaces. -/
theorem findByCname_registered {reg : Chain Str Str} (wf : reg.WF) (env : Env) (name c u : Str)
    (h : Binds reg c u) (hd : DottedPrefix c name) :
    ∃ n v, findByCname reg env name = some (n, v) ∧ Binds reg n v ∧ DottedPrefix n name ∧
      ∀ c' u', Binds reg c' u' → DottedPrefix c' name → c'.length ≤ n.length := by
  obtain ⟨cn, hcn⟩ := pick_isSome wf (fun cu => covers cu.1 name) h (covers_iff.2 hd)
  obtain ⟨⟨v, hv, hb, hp⟩, hmax⟩ := pick_spec wf _ hcn
  refine ⟨cn, v, by rw [findByCname, hcn]; simp [hv], hb, covers_iff.1 hp, ?_⟩
  intro c' u' hb' hd'
  exact length_le_of_strLe (dottedPrefix_prefix hd') (dottedPrefix_prefix (covers_iff.1 hp))
    (hmax c' u' hb' (covers_iff.2 hd'))

theorem findByUri_registered {reg : Chain Str Str} (wf : reg.WF) (env : Env) (uri c u : Str)
    (h : Binds reg c u) (hd : u <+: uri) :
    ∃ n v, findByUri reg env uri = some (n, v) ∧ Binds reg n v ∧ v <+: uri ∧
      ∀ c' u', Binds reg c' u' → u' <+: uri → strLe c' n = true := by
  obtain ⟨cn, hcn⟩ := pick_isSome wf (fun cu => cu.2.isPrefixOf uri) h (List.isPrefixOf_iff_prefix.2 hd)
  obtain ⟨⟨v, hv, hb, hp⟩, hmax⟩ := pick_spec wf _ hcn
  refine ⟨cn, v, by rw [findByUri, hcn]; simp [hv], hb, List.isPrefixOf_iff_prefix.1 hp, ?_⟩
  intro c' u' hb' hd'
  exact hmax c' u' hb' (List.isPrefixOf_iff_prefix.2 hd')

theorem none_of_no_candidate {reg : Chain Str Str} (wf : reg.WF) (p : Str × Str → Bool)
    (h : ∀ c u, Binds reg c u → p (c, u) = false) :
    greatest (((items reg).filter p).map Prod.fst) = none := by
  rw [greatest_none, List.map_eq_nil_iff, List.filter_eq_nil_iff]
  rintro ⟨c, u⟩ hm
  simp [h c u ((mem_items wf).1 hm)]

theorem beforeHash_eq (uri : Str) : beforeHash uri = uri.takeWhile (· ≠ '#') := by
  unfold beforeHash
  induction uri with
  | nil => rfl
  | cons c cs ih =>
    rw [splitOn]
    split
    · rename_i h; subst h; simp
    · rename_i h
      cases hs : splitOn '#' cs with
      | nil => exact absurd hs (splitOn_ne_nil _ _)
      | cons w ws =>
        rw [hs] at ih
        simp only [List.head?_cons, Option.getD_some] at ih ⊢
        rw [List.takeWhile_cons, if_pos (by simpa using h), ih]

theorem beforeHash_of_notMem {uri : Str} (h : '#' ∉ uri) : beforeHash uri = uri := by
  rw [beforeHash, splitOn_of_notMem h]; rfl

/-! Fragments -/

theorem zipIdx_filter_alternate (pairs : List (Str × Str)) (n k : Nat) (hk : k % 2 = 0)
    (hn : n = k + 2 * pairs.length - 1) :
    (((alternate pairs).zipIdx k).filter (fun si => (si.2 + 1) % 2 == 0 || si.2 == n)).map Prod.fst
      = pairs.map Prod.snd := by
  induction pairs generalizing k with
  | nil => rfl
  | cons p ps ih =>
    have h0 : alternate (p :: ps) = p.1 :: p.2 :: alternate ps := rfl
    rw [h0, List.zipIdx_cons, List.zipIdx_cons, List.filter_cons_of_neg, List.filter_cons_of_pos,
      List.map_cons, List.map_cons, ih (k + 1 + 1) (by omega) (by simp at hn; omega)]
    · simp; left; omega
    · simp at hn; simp; omega

theorem fragmentText_eq (segs : List Str) (hne : segs ≠ []) :
    fragmentText segs = '/' :: joinWith ['/'] segs := by
  induction segs with
  | nil => exact absurd rfl hne
  | cons s segs ih =>
    cases segs with
    | nil => simp [fragmentText, joinWith]
    | cons t segs =>
      have := ih (by simp)
      rw [fragmentText] at this ⊢
      rw [List.flatMap_cons, this, joinWith.eq_3 _ s (t :: segs) (by simp)]
      simp

theorem lstrip_slash_joinWith (segs : List Str) (hne : ∀ s ∈ segs.head?, s ≠ [] ∧ '/' ∉ s) :
    lstrip (· == '/') (joinWith ['/'] segs) = joinWith ['/'] segs := by
  apply lstrip_eq_self
  intro c hc
  cases segs with
  | nil => simp [joinWith] at hc
  | cons s segs =>
    obtain ⟨h1, h2⟩ := hne s (by simp)
    cases s with
    | nil => exact absurd rfl h1
    | cons d s =>
      have : c = d := by
        cases segs with
        | nil => simp [joinWith] at hc; exact hc.symm
        | cons t segs => simp [joinWith] at hc; exact hc.symm
      subst this
      simp only [List.mem_cons, not_or] at h2
      simp [Ne.symm h2.1]

theorem alternate_length (pairs : List (Str × Str)) : (alternate pairs).length = 2 * pairs.length := by
  induction pairs with
  | nil => rfl
  | cons p ps ih =>
    have h0 : alternate (p :: ps) = p.1 :: p.2 :: alternate ps := rfl
    rw [h0]; simp [ih]; omega

/-- Canonical name of an alternating fragment, with or without the leading slash. -/
theorem fragmentToCname_alternate (pairs : List (Str × Str)) (hne : pairs ≠ [])
    (hs : ∀ p ∈ pairs, '/' ∉ p.1 ∧ '/' ∉ p.2) (hk : ∀ p ∈ pairs.head?, p.1 ≠ []) :
    fragmentToCname (fragmentText (alternate pairs)) =
      joinWith ['.'] (pairs.map (fun p => cleanJsName p.2)) := by
  have hane : alternate pairs ≠ [] := by
    cases pairs with
    | nil => exact absurd rfl hne
    | cons p ps => simp [alternate]
  have hmem : ∀ s ∈ alternate pairs, '/' ∉ s := by
    intro s hm
    obtain ⟨p, hp, hsp⟩ := List.mem_flatMap.1 hm
    simp at hsp
    rcases hsp with rfl | rfl
    · exact (hs p hp).1
    · exact (hs p hp).2
  have hl : lstrip (· == '/') (fragmentText (alternate pairs)) = joinWith ['/'] (alternate pairs) := by
    rw [fragmentText_eq _ hane]
    have : lstrip (· == '/') ('/' :: joinWith ['/'] (alternate pairs))
        = lstrip (· == '/') (joinWith ['/'] (alternate pairs)) := by simp [lstrip]
    rw [this]
    apply lstrip_slash_joinWith
    intro s hs'
    refine ⟨?_, hmem s (List.mem_of_head? hs')⟩
    cases pairs with
    | nil => exact absurd rfl hne
    | cons p ps => simp [alternate] at hs'; subst hs'; exact hk p (by simp)
  unfold fragmentToCname
  rw [hl, splitOn_joinWith _ hane hmem]
  simp only
  have := zipIdx_filter_alternate pairs ((alternate pairs).length - 1) 0 (by omega)
    (by rw [alternate_length]; omega)
  congr 1
  rw [show (fun si : Str × Nat => cleanJsName si.1) = cleanJsName ∘ Prod.fst from rfl, ← List.map_map, this,
    List.map_map]
  rfl

/-! Cache -/

theorem lru_fresh {κ ρ : Type} [DecidableEq κ] (f : κ → Res ρ) (c : Lru κ ρ) (k : κ)
    (h : k ∉ AList.keys c.entries) : (c.call f k).1 = f k := by
  unfold Lru.call
  rw [AList.get?_eq_none.2 h]
  cases f k <;> rfl

theorem lru_keys {κ ρ : Type} [DecidableEq κ] (f : κ → Res ρ) (c : Lru κ ρ) (k x : κ)
    (h : x ∈ AList.keys (c.call f k).2.2.entries) : x = k ∨ x ∈ AList.keys c.entries := by
  unfold Lru.call at h
  cases hg : AList.get? c.entries k with
  | some r =>
    rw [hg] at h
    simp only [AList.keys, List.map_cons, List.mem_cons] at h
    rcases h with h | h
    · exact .inl h
    · right
      have : x ∈ AList.keys (AList.erase c.entries k) := h
      rw [AList.keys_erase] at this
      exact (List.mem_filter.1 this).1
  | none =>
    rw [hg] at h
    cases hf : f k with
    | error e => rw [hf] at h; exact .inr h
    | ok r =>
      rw [hf] at h
      simp only at h
      have : x ∈ AList.keys ((k, r) :: c.entries) := by
        split at h
        · exact h
        · rw [AList.keys, List.map_take] at h; exact List.mem_of_mem_take h
      simpa [AList.keys] using this

end Verif.Names
