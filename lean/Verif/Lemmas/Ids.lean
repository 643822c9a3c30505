import Verif.Spec.Ids
import Verif.Lemmas.Uri
import Verif.Lemmas.Names
namespace Verif.Ids
open Spec
open Names (Mgr Env beforeHash)

theorem beforeHash_eq (s : Str) : beforeHash s = document s := by
  rw [beforeHash, document]
  induction s with
  | nil => rfl
  | cons c s ih =>
    rw [splitOn]
    by_cases h : c = '#'
    · simp [h]
    · rw [if_neg h]
      cases e : splitOn '#' s with
      | nil => exact absurd e (splitOn_ne_nil _ _)
      | cons w ws =>
        rw [e] at ih
        simp at ih
        simp [h, ih]

theorem document_notMem (s : Str) : '#' ∉ document s := by
  intro h
  have := List.all_takeWhile (p := fun c : Char => decide (c ≠ '#')) (l := s)
  rw [List.all_eq_true] at this
  simpa using this '#' h

theorem document_is {doc frag id : Str} (h : Is doc frag id) : document id = doc := by
  obtain ⟨rfl, hd, -⟩ := h
  rw [← beforeHash_eq, beforeHash, splitOn_append hd]; rfl

theorem scope_is {doc frag id : Str} (h : Is doc frag id) (base : Str) :
    Uri.scope id base = (if doc = [] then document base else doc) ++ '#' :: frag := by
  obtain ⟨rfl, hd, hf⟩ := h
  rw [Uri.scope_two hd hf, beforeHash_eq]
  cases doc <;> simp

/-- What `absolute` gives. -/
theorem absolute_is (m : Mgr) (s : Str) :
    ∃ d f, Is d f (absolute m s) ∧ (document m.curUri ≠ [] → s ≠ [] → d ≠ []) ∧ (d = [] → document m.curUri = []) := by
  rw [absolute]
  by_cases h : '#' ∈ s
  · rw [if_pos h]
    rcases Uri.splitOn_hash_cases s with ⟨hn, -⟩ | ⟨d, f, rest, hs, hd, hf⟩
    · exact absurd h hn
    · rw [Uri.scope, hs]
      refine ⟨if d.isEmpty then beforeHash m.curUri else d, f, ⟨by simp [beforeHash], ?_, hf⟩, ?_, ?_⟩
      · split
        · rw [beforeHash_eq]; exact document_notMem _
        · exact hd
      · intro hc _
        split
        · rw [beforeHash_eq]; exact hc
        · next hd => simpa using hd
      · split
        · rw [beforeHash_eq]; exact id
        · next hd => intro e; exact absurd e (by simpa using hd)
  · rw [if_neg h]
    have his : Is s [] (s ++ ['#']) := ⟨rfl, h, by simp⟩
    rw [scope_is his]
    refine ⟨_, [], ⟨rfl, ?_, by simp⟩, ?_, ?_⟩
    · split
      · exact document_notMem _
      · exact h
    · intro _ hs; rw [if_neg hs]; exact hs
    · split
      · exact id
      · next hs => intro e; exact absurd e hs

/-- An identifier is kept, up to the current document. -/
theorem absolute_of_is {d f id : Str} (h : Is d f id) (m : Mgr) :
    absolute m id = (if d = [] then document m.curUri else d) ++ '#' :: f := by
  rw [absolute, if_pos (by rw [h.1]; simp), scope_is h]

theorem cnRe_hash {dig : Char → Bool} (hdig : Digits dig) {s : Str} (h : '#' ∈ s) : cnRe dig s = false := by
  have key : ∀ t : Str, '#' ∈ t → t.all (cnChar dig) = false := by
    intro t ht
    rw [List.all_eq_false]
    refine ⟨'#', ht, ?_⟩
    rw [cnChar, hdig.2]
    decide
  rw [cnRe]
  split
  · next hl =>
    have : '#' ∈ s.dropLast := by
      have hne : s ≠ [] := by rintro rfl; simp at h
      have e := List.dropLast_concat_getLast hne
      have hg : s.getLast hne = '\n' := by
        rw [List.getLast?_eq_some_getLast hne] at hl; exact Option.some.inj hl
      rw [← e, hg, List.mem_append] at h
      rcases h with h | h
      · exact h
      · simp at h
    rw [key _ this]; simp
  · rw [key _ h]; simp

/-- The cache is the only thing a lookup changes. -/
theorem getCnameId_same (env : Env) (m : Mgr) (s : Str) :
    (m.getCnameId env s).2.curUri = m.curUri ∧ (m.getCnameId env s).2.cur = m.cur
      ∧ (m.getCnameId env s).2.reg = m.reg ∧ (m.getCnameId env s).2.idCache = m.idCache := by
  rw [Mgr.getCnameId]
  split
  · exact ⟨rfl, rfl, rfl, rfl⟩
  · split <;> exact ⟨rfl, rfl, rfl, rfl⟩

/-- A manager that has not been asked yet. -/
theorem getCnameId_fresh (env : Env) (m : Mgr) (hc : m.cnCache.entries = []) (s id : Str) (hs : s.head? ≠ some '.')
    (h : Names.cnameId m.reg env s m.cur = .ok id) :
    (m.getCnameId env s).1 = .ok (Names.relativeId m.curUri id) := by
  have hd : Names.resolveDots m.cur s = .ok s := by
    unfold Names.resolveDots
    split
    · simp at hs
    · rfl
  simp only [Mgr.getCnameId, hd, Decor.Lru.call, hc, AList.get?, h]

/-- Made relative to the current document and absolute again. -/
theorem absolute_relativeId {d f id : Str} (h : Is d f id) (hd : d ≠ []) (m m' : Mgr) (hm : m'.curUri = m.curUri) :
    absolute m' (Names.relativeId m.curUri id) = id := by
  rw [Names.relativeId]
  simp only [beforeHash_eq]
  by_cases hp : (document m.curUri ++ ['#']).isPrefixOf id = true
  · rw [if_pos hp]
    have hpre := List.isPrefixOf_iff_prefix.mp hp
    obtain ⟨rest, hrest⟩ := hpre
    have hdoc : document m.curUri = d := by
      have h1 := document_is h
      rw [← hrest] at h1
      have h2 : Is (document m.curUri) rest (document m.curUri ++ '#' :: rest) → document (document m.curUri ++ '#' :: rest)
        = document m.curUri := document_is
      rw [← h1]
      rw [show document m.curUri ++ ['#'] ++ rest = document m.curUri ++ '#' :: rest by simp]
      rw [← beforeHash_eq (document m.curUri ++ '#' :: rest), beforeHash, splitOn_append (document_notMem _)]; rfl
    have hstrip : strip (· == '#') (document m.curUri ++ ['#']) = document m.curUri := by
      rw [hdoc]
      cases d with
      | nil => exact absurd rfl hd
      | cons c d =>
        have hn := h.2.1
        rw [strip]
        have hc : (c == '#') = false := by
          have : c ≠ '#' := fun e => hn (by simp [e])
          simpa using this
        have e1 : lstrip (· == '#') (c :: (d ++ ['#'])) = c :: (d ++ ['#']) := by
          rw [lstrip, List.dropWhile_cons, hc, if_neg (by simp)]
        rw [List.cons_append, e1]
        rw [show (c :: (d ++ ['#'])).reverse = '#' :: (c :: d).reverse by simp]
        rw [lstrip, List.dropWhile_cons]
        rw [if_pos (by simp)]
        have hlast : ∀ l : Str, '#' ∉ l → List.dropWhile (fun x => x == '#') l = l := by
          intro l hl
          cases l with
          | nil => rfl
          | cons a l =>
            have : (a == '#') = false := by
              have : a ≠ '#' := fun e => hl (by simp [e])
              simpa using this
            rw [List.dropWhile_cons, this]; simp
        rw [hlast _ (by simpa [and_comm] using hn)]; simp
    rw [hstrip, hdoc, h.1, List.drop_left]
    have : Is [] f ('#' :: f) := ⟨rfl, by simp, h.2.2⟩
    rw [absolute_of_is this m', if_pos rfl, hm, hdoc]
  · rw [if_neg hp, absolute_of_is h m', if_neg hd, h.1]

end Verif.Ids

namespace Verif.FilePaths
open Spec

theorem parse_normal (s : Str) : Normal (parse s) := by
  constructor
  · simp only [parse, slashes]; split <;> omega
  · intro x hx
    simp only [parse, List.mem_filter] at hx
    have := hx.2
    simp at this
    exact ⟨this.1, this.2, splitOn_notMem hx.1⟩

theorem filter_eq_self' (l : List Str) (h : ∀ x ∈ l, x ≠ [] ∧ x ≠ ['.']) :
    (l.filter fun x => x ≠ [] && x ≠ ['.']) = l := by
  rw [List.filter_eq_self]
  intro x hx
  simp [h x hx]

/-- Writing a path and parsing it. -/
theorem parse_render (p : PPath) (h : Normal p) : parse (render p) = p := by
  obtain ⟨r, ps⟩ := p
  obtain ⟨hr, hp⟩ := h
  simp only at hr hp
  have hsplit : ps ≠ [] → splitOn '/' (joinWith ['/'] ps) = ps := fun hne => splitOn_joinWith ps hne fun x hx => (hp x hx).2.2
  have hfilter := filter_eq_self' ps fun x hx => ⟨(hp x hx).1, (hp x hx).2.1⟩
  have hhead : ps ≠ [] → ∃ c s, joinWith ['/'] ps = c :: s ∧ c ≠ '/' := by
    intro hne
    cases ps with
    | nil => exact absurd rfl hne
    | cons x l =>
      obtain ⟨h1, h2, h3⟩ := hp x (by simp)
      cases x with
      | nil => exact absurd rfl h1
      | cons c x =>
        have hc : c ≠ '/' := fun e => h3 (by simp [e])
        cases l with
        | nil => exact ⟨c, x, rfl, hc⟩
        | cons y l => exact ⟨c, x ++ ['/'] ++ joinWith ['/'] (y :: l), rfl, hc⟩
  by_cases hne : ps = []
  · subst hne
    have : r = 0 ∨ r = 1 ∨ r = 2 := by omega
    rcases this with rfl | rfl | rfl <;> decide
  · obtain ⟨c, s, hcs, hc⟩ := hhead hne
    have hsp := hsplit hne
    rw [render, if_neg (by simp [hne]), parse]
    have e0 : ∀ t, splitOn '/' ('/' :: t) = [] :: splitOn '/' t := fun t => by rw [splitOn, if_pos rfl]
    have : r = 0 ∨ r = 1 ∨ r = 2 := by omega
    congr 1
    · have hs : ∀ k, slashes (List.replicate k '/' ++ c :: s) = match k with | 0 => 0 | 2 => 2 | _ => 1 := by
        intro k
        have : (List.replicate k '/' ++ c :: s).takeWhile (· == '/') = List.replicate k '/' := by
          rw [List.takeWhile_append_of_pos (by intro a ha; simp [List.eq_of_mem_replicate ha])]
          simp [hc]
        rw [slashes, this, List.length_replicate]; try rfl
      simp only [hcs, hs]
      rcases this with rfl | rfl | rfl <;> rfl
    · rcases this with rfl | rfl | rfl
      · simp only [List.replicate_zero, List.nil_append, hsp]; exact hfilter
      · simp only [List.replicate_succ, List.replicate_zero, List.cons_append, List.nil_append, e0, hsp]
        rw [List.filter_cons, if_neg (by simp)]; exact hfilter
      · simp only [List.replicate_succ, List.replicate_zero, List.cons_append, List.nil_append, e0, hsp]
        rw [List.filter_cons, if_neg (by simp), List.filter_cons, if_neg (by simp)]; exact hfilter

end Verif.FilePaths
