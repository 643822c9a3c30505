import Verif.Spec.Symbols
namespace Verif.Symbols
open Spec
variable {O : Type}

theorem truthy_iff (w : World O) (v : V O) : v.truthy w = true ↔ Truthy w v := by
  cases v <;> simp [V.truthy, Truthy]

theorem dotted_eq (l : List Str) : dotted l = joinWith ['.'] l := by
  induction l with
  | nil => rfl
  | cons a l ih => cases l with
    | nil => rfl
    | cons b l => simp [dotted, joinWith, ih]

theorem dotted_cons {a : Str} {l : List Str} (h : l ≠ []) : dotted (a :: l) = a ++ '.' :: dotted l := by
  cases l with
  | nil => exact absurd rfl h
  | cons b l => rfl

theorem dotted_append {p l : List Str} (hp : p ≠ []) (hl : l ≠ []) :
    dotted (p ++ l) = dotted p ++ '.' :: dotted l := by
  induction p with
  | nil => exact absurd rfl hp
  | cons a p ih =>
    cases p with
    | nil => simp [dotted_cons hl, dotted]
    | cons b p =>
      rw [List.cons_append, dotted_cons (by simp), ih (by simp), dotted_cons (a := a) (l := b :: p) (by simp)]; simp

theorem dots_skip (i : Nat) (a s : Str) (h : '.' ∉ a) : dots i (a ++ s) = dots (i + a.length) s := by
  induction a generalizing i with
  | nil => simp
  | cons c a ih =>
    rw [List.mem_cons, not_or] at h
    rw [List.cons_append, dots, if_neg (Ne.symm h.1), ih _ h.2]; simp; congr 1; omega

/-- The ways to cut a dotted name. -/
def cuts : List Str → List Str → List (List Str × List Str)
  | _, [] => []
  | pre, a :: l => (pre ++ [a], l) :: cuts (pre ++ [a]) l

/-- The text before the rest. -/
def before (pre : List Str) : Str := if pre = [] then [] else dotted pre ++ ['.']

theorem dots_cuts (pre segs : List Str) (h : ∀ a ∈ segs, '.' ∉ a) (hne : segs ≠ []) :
    dots (before pre).length (dotted segs ++ ['.']) = (cuts pre segs).map fun c => (dotted c.1).length := by
  induction segs generalizing pre with
  | nil => exact absurd rfl hne
  | cons a l ih =>
    have ha := h a (by simp)
    have e : (before pre).length + a.length = (dotted (pre ++ [a])).length := by
      rw [before]
      split
      · next hp => subst hp; simp [dotted]
      · next hp => rw [dotted_append hp (by simp)]; simp [dotted]; omega
    cases l with
    | nil => simp only [dotted, cuts]; rw [dots_skip _ _ _ ha]; simp [dots, e]
    | cons b l =>
      rw [dotted_cons (by simp), List.append_assoc, dots_skip _ _ _ ha, List.cons_append, dots, if_pos rfl, e, cuts,
        List.map_cons]
      congr 1
      rw [← ih (pre ++ [a]) (fun x hx => h x (by simp [hx])) (by simp)]
      congr 1
      simp [before]

theorem cuts_mem (pre segs : List Str) (c : List Str × List Str) :
    c ∈ cuts pre segs ↔ ∃ m, m ≠ [] ∧ c.1 = pre ++ m ∧ m ++ c.2 = segs := by
  induction segs generalizing pre with
  | nil =>
    simp only [cuts, List.not_mem_nil, false_iff]
    rintro ⟨m, hm, -, h2⟩
    exact hm (List.append_eq_nil_iff.mp h2).1
  | cons a l ih =>
    rw [cuts, List.mem_cons, ih]
    constructor
    · rintro (rfl | ⟨m, hm, h1, h2⟩)
      · exact ⟨[a], by simp⟩
      · exact ⟨a :: m, by simp, by simp [h1], by simp [h2]⟩
    · rintro ⟨m, hm, h1, h2⟩
      cases m with
      | nil => exact absurd rfl hm
      | cons b m =>
        simp only [List.cons_append, List.cons.injEq] at h2
        obtain ⟨rfl, h2⟩ := h2
        cases m with
        | nil => left; simp only [List.nil_append] at h2; subst h2; exact Prod.ext h1 rfl
        | cons x m => right; exact ⟨x :: m, by simp, by simp [h1], h2⟩

theorem walk_reaches (w : World O) (v : V O) (as : List Str) (u : V O) (h : ∀ a ∈ as, a ≠ []) :
    walk w v as = some u ↔ Reaches w (Truthy w) v as u := by
  induction as generalizing v with
  | nil =>
    simp only [walk, Option.some.injEq]
    constructor
    · rintro rfl; exact .here _
    · intro h; cases h; rfl
  | cons a as ih =>
    rw [walk, if_neg (h a (by simp))]
    constructor
    · intro e
      split at e
      · exact absurd e (by simp)
      · next x hx =>
        split at e
        · next ht => exact .step _ _ x _ _ hx ((truthy_iff w x).mp ht) ((ih x fun a ha => h a (by simp [ha])).mp e)
        · exact absurd e (by simp)
    · intro e
      cases e with
      | step _ _ x _ _ hx ht hr =>
        rw [hx]; simp only
        rw [if_pos ((truthy_iff w x).mpr ht)]
        exact (ih x fun a ha => h a (by simp [ha])).mpr hr

theorem tryAt_cut (w : World O) (m p : List Str) (hm : m ≠ []) (hs : Names (m ++ p)) (u : V O) :
    tryAt w (some (dotted (m ++ p))) (dotted (m ++ p)) (dotted m).length = some u ↔ Denotes w (Truthy w) m p u := by
  have e1 : (dotted (m ++ p)).take (dotted m).length = dotted m := by
    by_cases hp : p = []
    · subst hp; simp
    · rw [dotted_append hm hp]; simp
  have e2 : (dotted (m ++ p)).drop ((dotted m).length + 1) = dotted p := by
    by_cases hp : p = []
    · subst hp; simp [dotted]
    · rw [dotted_append hm hp, ← List.drop_drop]; simp
  rw [tryAt]
  simp only [e1, e2, Denotes]
  cases hi : w.importMod (dotted m) with
  | none => simp
  | some o =>
    simp only [Option.some.injEq, exists_eq_left']
    rw [← walk_reaches w (.obj o) p u fun a ha => (hs.2 a (by simp [ha])).1]
    by_cases hp : p = []
    · subst hp; simp [dotted, splitOn, walk]
    · rw [dotted_eq p, splitOn_joinWith p hp fun a ha => (hs.2 a (by simp [ha])).2]

theorem findSome?_reverse_cuts (w : World O) (segs : List Str) (hs : Names segs) :
    (dots 0 (dotted segs ++ ['.'])).reverse.findSome? (tryAt w (some (dotted segs)) (dotted segs))
      = (cuts [] segs).reverse.findSome? fun c => tryAt w (some (dotted segs)) (dotted segs) (dotted c.1).length := by
  have := dots_cuts [] segs (fun a ha => (hs.2 a ha).2) hs.1
  simp only [before, if_true, List.length_nil] at this
  rw [this, ← List.map_reverse, List.findSome?_map]
  rfl

theorem cuts_sorted (pre segs : List Str) : (cuts pre segs).Pairwise fun c d => c.1.length < d.1.length := by
  induction segs generalizing pre with
  | nil => exact List.Pairwise.nil
  | cons a l ih =>
    refine List.Pairwise.cons ?_ (ih _)
    intro c hc
    obtain ⟨m, hm, h1, -⟩ := (cuts_mem _ _ _).mp hc
    rw [h1]
    have : 0 < m.length := List.length_pos_iff.mpr hm
    simp; exact this

theorem findSome?_eq {α β : Type} (f : α → Option β) (l : List α) (b : β) :
    l.findSome? f = some b ↔ ∃ l1 a l2, l = l1 ++ a :: l2 ∧ f a = some b ∧ ∀ x ∈ l1, f x = none :=
  List.findSome?_eq_some_iff

theorem importText_best (w : World O) (ev : Str → Option Str) (segs : List Str) (hs : Names segs)
    (hev : ev (dotted segs) = some (dotted segs)) (v : V O) :
    importText w ev (dotted segs) = v ↔ Best w segs v ∨ ((∀ u, ¬ Best w segs u) ∧ v = .text (dotted segs)) := by
  have key : ∀ u, (dots 0 (dotted segs ++ ['.'])).reverse.findSome? (tryAt w (some (dotted segs)) (dotted segs)) = some u
      ↔ Best w segs u := by
    intro u
    rw [findSome?_reverse_cuts w segs hs, findSome?_eq]
    constructor
    · rintro ⟨l1, ⟨mod, path⟩, l2, hl, hf, hn⟩
      have hmem : (mod, path) ∈ cuts [] segs := by
        rw [← List.mem_reverse, hl]; simp
      obtain ⟨m, hm, h1, h2⟩ := (cuts_mem _ _ _).mp hmem
      simp only [List.nil_append] at h1 h2
      subst h1 h2
      refine ⟨mod, path, hm, rfl, (tryAt_cut w mod path hm hs u).mp hf, ?_⟩
      intro mod' path' u' he hlt hd
      have hm' : mod' ≠ [] := by rintro rfl; simp at hlt
      have hmem' : (mod', path') ∈ cuts [] (mod ++ path) := (cuts_mem _ _ _).mpr ⟨mod', hm', rfl, he.symm⟩
      rw [← List.mem_reverse, hl, List.mem_append, List.mem_cons] at hmem'
      have hsort := cuts_sorted [] (mod ++ path)
      rw [← List.reverse_reverse (cuts [] (mod ++ path)), List.pairwise_reverse, hl, List.pairwise_append,
        List.pairwise_cons] at hsort
      rcases hmem' with h | h | h
      · have := hn _ h
        have hd' := (tryAt_cut w mod' path' hm' (he ▸ hs) u').mpr hd
        rw [← he] at hd'
        exact absurd (this.symm.trans hd') (by simp)
      · cases h; omega
      · have := hsort.2.1.1 _ h
        simp only at this; omega
    · rintro ⟨mod, path, hm, rfl, hd, hmax⟩
      have hmem : (mod, path) ∈ (cuts [] (mod ++ path)).reverse := by
        rw [List.mem_reverse]; exact (cuts_mem _ _ _).mpr ⟨mod, hm, rfl, rfl⟩
      obtain ⟨l1, l2, hl⟩ := List.append_of_mem hmem
      refine ⟨l1, (mod, path), l2, hl, (tryAt_cut w mod path hm hs u).mpr hd, ?_⟩
      rintro ⟨mod', path'⟩ hx
      have hmem' : (mod', path') ∈ cuts [] (mod ++ path) := by
        rw [← List.mem_reverse, hl]; simp [hx]
      obtain ⟨m', hm', h1, h2⟩ := (cuts_mem _ _ _).mp hmem'
      simp only [List.nil_append] at h1 h2
      subst h1
      have hsort := cuts_sorted [] (mod ++ path)
      rw [← List.reverse_reverse (cuts [] (mod ++ path)), List.pairwise_reverse, hl, List.pairwise_append] at hsort
      have hlt := hsort.2.2 _ hx (mod, path) (by simp)
      simp only at hlt ⊢
      cases e : tryAt w (some (dotted (mod ++ path))) (dotted (mod ++ path)) (dotted mod').length with
      | none => rfl
      | some x =>
        rw [← h2] at e
        exact absurd ((tryAt_cut w mod' path' hm' (h2 ▸ hs) x).mp e) (hmax mod' path' x h2.symm hlt)
  rw [importText, hev]
  cases e : (dots 0 (dotted segs ++ ['.'])).reverse.findSome? (tryAt w (some (dotted segs)) (dotted segs)) with
  | some u =>
    have hu := (key u).mp e
    simp only
    constructor
    · rintro rfl; exact .inl hu
    · rintro (h | ⟨h, -⟩)
      · have := (key v).mpr h
        rw [e] at this; exact Option.some.inj this
      · exact absurd hu (h u)
  | none =>
    have hn : ∀ u, ¬ Best w segs u := fun u hu => by
      have := (key u).mpr hu; rw [e] at this; exact absurd this (by simp)
    simp only
    constructor
    · rintro rfl; exact .inr ⟨hn, rfl⟩
    · rintro (h | ⟨-, rfl⟩)
      · exact absurd h (hn v)
      · rfl

/-- What the name denotes is returned if it passes the check. -/
theorem convert_best (w : World O) (ev : Str → Option Str) (t : Ty) (l : List Str) (hl : Names l)
    (hp : Plain w ev (dotted l)) (o : O) (hb : Best w l (.obj o)) :
    convert w ev t (.text (dotted l)) = if checkSymbol w t (.obj o) then .ok (.obj o) else .error .conversionError := by
  have := (importText_best w ev l hl hp.2 (.obj o)).mpr (.inl hb)
  simp only [convert, builtin, hp.1, Option.getD_none, this, checked]

theorem checkSymbol_of (w : World O) (t : Ty) (ht : t ≠ .staticmethod ∧ t ≠ .classmethod) (o : O) :
    checkSymbol w t (.obj o) = true ↔ Of w t o := by
  cases t <;> simp_all [checkSymbol, V.is, Of]

theorem convert_obj (w : World O) (ev : Str → Option Str) (t : Ty) (o : O) (hh : w.hashable o = true) :
    convert w ev t (.obj o) = .ok (.obj o) ↔ checkSymbol w t (.obj o) = true := by
  simp only [convert, builtin, hh, if_true, checked]
  split <;> simp_all

end Verif.Symbols
