import Verif.Spec.Tools
import Verif.Lemmas.Strings
/-
Lemmas for C258-C265.
-/
namespace Verif.Tools
open Strings (Occurs)

theorem hashLoop_flatten {σ β : Type} {h : Hash σ β} (hs : h.Stream) (bs : List (List β)) (hb : ∀ b ∈ bs, b ≠ [])
    (rest : List (List β)) (s : σ) : hashLoop h (bs ++ [] :: rest) s = h.update s bs.flatten := by
  induction bs generalizing s with
  | nil => simp [hashLoop, hs.nil]
  | cons b bs ih =>
    have hne : b.length ≠ 0 := fun e => hb b (List.mem_cons_self ..) (List.eq_nil_of_length_eq_zero e)
    rw [List.cons_append, hashLoop, if_pos hne, ih (fun c hc => hb c (List.mem_cons_of_mem _ hc)), hs.append,
      List.flatten_cons]

theorem hashLoop_file {σ β : Type} {h : Hash σ β} (hs : h.Stream) {k : Nat} (hk : 0 < k) (n : Nat) (c : List β)
    (hn : c.length < n) (s : σ) : hashLoop h (fileReads k n c) s = h.update s c := by
  induction n generalizing c s with
  | zero => omega
  | succ n ih =>
    rw [fileReads, hashLoop]
    cases c with
    | nil => simp [hs.nil]
    | cons x c =>
      have h1 : (List.take k (x :: c)).length ≠ 0 := by simp; omega
      rw [if_pos h1, ih _ (by simp at hn ⊢; omega), hs.append, List.take_append_drop]

theorem find_first {α : Type} (p : α → Bool) (l : List α) :
    (∀ x, l.find? p = some x → FirstOf (fun y => p y = true) l x) ∧ (l.find? p = none → ∀ y ∈ l, ¬ p y = true) := by
  constructor
  · intro x h
    obtain ⟨hp, as, bs, e, hn⟩ := List.find?_eq_some_iff_append.1 h
    exact ⟨as, bs, e, hp, fun y hy => by simpa using hn y hy⟩
  · intro h; exact List.find?_eq_none.1 h

theorem mem_insertKey {υ : Type} (lt : Str → Str → Bool) (p q : Str × υ) (l : List (Str × υ)) :
    q ∈ insertKey lt p l ↔ q = p ∨ q ∈ l := by
  induction l with
  | nil => simp [insertKey]
  | cons r l ih =>
    rw [insertKey]
    split
    · simp only [List.mem_cons, ih]
      constructor
      · rintro (h | h | h) <;> simp [h]
      · rintro (h | h | h) <;> simp [h]
    · simp

theorem mem_sortItems {υ : Type} (lt : Str → Str → Bool) (q : Str × υ) (l : List (Str × υ)) :
    q ∈ sortItems lt l ↔ q ∈ l := by
  induction l with
  | nil => simp [sortItems]
  | cons p l ih => rw [sortItems, mem_insertKey, ih, List.mem_cons]

theorem insertKey_sorted {υ : Type} {lt : Str → Str → Bool} (hl : StrictTotal lt) (p : Str × υ) (l : List (Str × υ))
    (hp : ∀ q ∈ l, q.1 ≠ p.1) (h : l.Pairwise (fun a b => lt a.1 b.1 = true)) :
    (insertKey lt p l).Pairwise (fun a b => lt a.1 b.1 = true) := by
  induction l with
  | nil => simp [insertKey]
  | cons q l ih =>
    rw [List.pairwise_cons] at h
    rw [insertKey]
    split
    · next hq =>
      rw [List.pairwise_cons]
      refine ⟨fun r hr => ?_, ih (fun r hr => hp r (List.mem_cons_of_mem _ hr)) h.2⟩
      rcases (mem_insertKey ..).1 hr with rfl | hr
      · exact hq
      · exact h.1 r hr
    · next hq =>
      have hpq : lt p.1 q.1 = true :=
        (hl.total p.1 q.1 fun e => hp q (List.mem_cons_self ..) e.symm).resolve_right hq
      rw [List.pairwise_cons]
      refine ⟨fun r hr => ?_, List.pairwise_cons.2 h⟩
      rcases List.mem_cons.1 hr with rfl | hr
      · exact hpq
      · exact hl.trans _ _ _ hpq (h.1 r hr)

theorem sortItems_sorted {υ : Type} {lt : Str → Str → Bool} (hl : StrictTotal lt) (l : List (Str × υ))
    (h : (l.map Prod.fst).Nodup) : (sortItems lt l).Pairwise (fun a b => lt a.1 b.1 = true) := by
  induction l with
  | nil => simp [sortItems]
  | cons p l ih =>
    rw [List.map_cons, List.nodup_cons] at h
    refine insertKey_sorted hl p _ (fun q hq e => h.1 ?_) (ih h.2)
    rw [← e]
    exact List.mem_map_of_mem ((mem_sortItems ..).1 hq)

theorem sorted_unique {υ : Type} {lt : Str → Str → Bool} (hl : StrictTotal lt) (l m : List (Str × υ))
    (h1 : l.Pairwise (fun a b => lt a.1 b.1 = true)) (h2 : m.Pairwise (fun a b => lt a.1 b.1 = true))
    (h : ∀ p, p ∈ l ↔ p ∈ m) : l = m := by
  have no : ∀ a b : Str, lt a b = true → lt b a = true → False := fun a b x y => by
    have := hl.trans _ _ _ x y
    rw [hl.irrefl] at this; cases this
  induction l generalizing m with
  | nil =>
    cases m with
    | nil => rfl
    | cons q m => exact absurd ((h q).2 (List.mem_cons_self ..)) (List.not_mem_nil)
  | cons p l ih =>
    cases m with
    | nil => exact absurd ((h p).1 (List.mem_cons_self ..)) (List.not_mem_nil)
    | cons q m =>
      rw [List.pairwise_cons] at h1 h2
      have e : p = q := by
        rcases List.mem_cons.1 ((h p).1 (List.mem_cons_self ..)) with e | e
        · exact e
        · rcases List.mem_cons.1 ((h q).2 (List.mem_cons_self ..)) with e' | e'
          · exact e'.symm
          · exact (no _ _ (h1.1 q e') (h2.1 p e)).elim
      subst e
      rw [ih m h1.2 h2.2 fun r => ?_]
      constructor
      · intro hr
        rcases List.mem_cons.1 ((h r).1 (List.mem_cons_of_mem _ hr)) with e | e
        · exact (no _ _ (e ▸ h1.1 r hr) (e ▸ h1.1 r hr)).elim
        · exact e
      · intro hr
        rcases List.mem_cons.1 ((h r).2 (List.mem_cons_of_mem _ hr)) with e | e
        · exact (no _ _ (e ▸ h2.1 r hr) (e ▸ h2.1 r hr)).elim
        · exact e

theorem chainDict_attr (w : World) (k : Str) (cs : List Nat) : Attr w k cs (AList.get? (chainDict (cs.map w.dict)) k) := by
  induction cs with
  | nil => exact .nil
  | cons c cs ih =>
    rw [List.map_cons, chainDict, AList.get?_update _ (w.wf c)]
    cases h : AList.get? (w.dict c) k with
    | some v => exact .here h
    | none => exact .there h ih

theorem findSome_attr (w : World) (k : Str) (cs : List Nat) :
    Attr w k cs (cs.findSome? (fun b => AList.get? (w.dict b) k)) := by
  induction cs with
  | nil => exact .nil
  | cons c cs ih =>
    rw [List.findSome?_cons]
    cases h : AList.get? (w.dict c) k with
    | some v => exact .here h
    | none => exact .there h ih

theorem Attr.unique {w : World} {k : Str} {cs : List Nat} {a b : Option Nat} (h : Attr w k cs a) (h' : Attr w k cs b) :
    a = b := by
  induction h with
  | nil => cases h'; rfl
  | here h => cases h' with
    | here g => rw [h] at g; exact g
    | there g => rw [h] at g; cases g
  | there h _ ih => cases h' with
    | here g => rw [h] at g; cases g
    | there _ t => exact ih t

theorem wf_filter {υ : Type} (p : Str × υ → Bool) {d : AList Str υ} (h : d.WF) : AList.WF (d.filter p) :=
  List.Nodup.sublist (List.Sublist.map _ List.filter_sublist) h

theorem wf_chainDict (ms : List (AList Str Nat)) : (chainDict ms).WF := by
  induction ms with
  | nil => exact AList.wf_nil
  | cons m ms ih => exact AList.wf_update ih m

theorem get?_filter {υ : Type} (p : Str → Bool) (d : AList Str υ) (k : Str) :
    AList.get? (d.filter (fun q => p q.1)) k = if p k then AList.get? d k else none := by
  induction d with
  | nil => simp [AList.get?]
  | cons q d ih =>
    obtain ⟨a, v⟩ := q
    by_cases hp : p a
    · rw [List.filter_cons_of_pos (by exact hp)]
      by_cases e : a = k
      · subst e; simp [AList.get?, hp]
      · simp [AList.get?, e, ih]
    · rw [List.filter_cons_of_neg (by simpa using hp), ih]
      by_cases e : a = k
      · subst e; simp [hp]
      · simp [AList.get?, e]

theorem cutFirst_none {sep s : Str} (hne : sep ≠ []) : cutFirst sep s = none ↔ ¬ Occurs sep s := by
  induction s with
  | nil =>
    rw [cutFirst]
    cases sep with
    | nil => exact absurd rfl hne
    | cons c sep =>
      simp only [List.isPrefixOf, Bool.false_eq_true, if_false, true_iff]
      rintro ⟨a, b, h⟩; simp at h
  | cons c s ih =>
    rw [cutFirst]
    by_cases hp : sep.isPrefixOf (c :: s) = true
    · rw [if_pos hp]
      obtain ⟨b, hb⟩ := List.isPrefixOf_iff_prefix.1 hp
      simp only [reduceCtorEq, false_iff, Classical.not_not]
      exact ⟨[], b, hb.symm⟩
    · rw [if_neg hp]
      have hocc : Occurs sep (c :: s) ↔ Occurs sep s := by
        constructor
        · rintro ⟨a, b, h⟩
          cases a with
          | nil => exact absurd (List.isPrefixOf_iff_prefix.2 ⟨b, h.symm⟩) hp
          | cons d a =>
            simp only [List.cons_append, List.cons.injEq] at h
            exact ⟨a, b, h.2⟩
        · rintro ⟨a, b, h⟩; exact ⟨c :: a, b, by rw [h]; rfl⟩
      rw [hocc, ← ih]
      cases cutFirst sep s <;> simp

theorem cutFirst_some {sep s a b : Str} (hne : sep ≠ []) (h : cutFirst sep s = some (a, b)) : FirstCut sep s a b := by
  induction s generalizing a with
  | nil =>
    rw [cutFirst] at h
    cases sep with
    | nil => exact absurd rfl hne
    | cons c sep => simp [List.isPrefixOf] at h
  | cons c s ih =>
    rw [cutFirst] at h
    by_cases hp : sep.isPrefixOf (c :: s) = true
    · rw [if_pos hp] at h
      obtain ⟨t, ht⟩ := List.isPrefixOf_iff_prefix.1 hp
      simp only [Option.some.injEq, Prod.mk.injEq] at h
      obtain ⟨rfl, rfl⟩ := h
      refine ⟨by rw [← ht]; simp, ?_⟩
      rintro ⟨x, y, e⟩
      have := congrArg List.length e
      have hl : 0 < sep.length := by cases sep with | nil => exact absurd rfl hne | cons _ _ => simp
      simp at this
      omega
    · rw [if_neg hp] at h
      cases hc : cutFirst sep s with
      | none => rw [hc] at h; cases h
      | some ab =>
        obtain ⟨a', b'⟩ := ab
        rw [hc] at h
        simp only [Option.some.injEq, Prod.mk.injEq] at h
        obtain ⟨rfl, rfl⟩ := h
        obtain ⟨h1, h2⟩ := ih hc
        refine ⟨by rw [h1]; simp, ?_⟩
        rintro ⟨x, y, e⟩
        cases x with
        | nil =>
          apply hp
          rw [List.isPrefixOf_iff_prefix, h1]
          have p1 : sep <+: c :: a' ++ sep.dropLast := ⟨y, e.symm⟩
          have p2 : c :: a' ++ sep.dropLast <+: c :: (a' ++ sep ++ b') := by
            rw [List.cons_append, List.append_assoc]
            exact (List.prefix_cons_inj c).2 ((List.prefix_append_right_inj a').2
              ((List.dropLast_prefix sep).trans (List.prefix_append _ _)))
          exact p1.trans p2
        | cons d x =>
          simp only [List.cons_append, List.cons.injEq] at e
          exact h2 ⟨x, y, e.2⟩

theorem splitN_fromLeft {sep : Str} (hne : sep ≠ []) (n : Nat) (s : Str) : FromLeft sep n s (splitN sep n s) := by
  induction n generalizing s with
  | zero => exact .done
  | succ n ih =>
    rw [splitN]
    cases hc : cutFirst sep s with
    | none => exact .absent ((cutFirst_none hne).1 hc)
    | some ab => exact .cut (cutFirst_some hne hc) (ih ab.2)

theorem rsplit_fromRight {sep : Str} (hne : sep ≠ []) (n : Nat) (s : Str) :
    FromRight sep n s (Strings.rsplit sep n s) := by
  induction n generalizing s with
  | zero => exact .done
  | succ n ih =>
    rw [Strings.rsplit]
    cases hc : Strings.cutLast sep s with
    | none => exact .absent ((Strings.cutLast_none hne).1 hc)
    | some ab => exact .cut (Strings.cutLast_some hne hc) (ih ab.1)

theorem FromLeft.ne_nil {sep : Str} {n : Nat} {s : Str} {ps : List Str} (h : FromLeft sep n s ps) : ps ≠ [] := by
  cases h <;> simp

theorem FromLeft.join {sep : Str} {n : Nat} {s : Str} {ps : List Str} (h : FromLeft sep n s ps) : joinWith sep ps = s := by
  induction h with
  | done => rfl
  | absent => rfl
  | @cut n s a b ps h t ih =>
    cases ps with
    | nil => exact absurd rfl t.ne_nil
    | cons p ps =>
      rw [joinWith, ih, h.1]
      simp

theorem FromLeft.length {sep : Str} {n : Nat} {s : Str} {ps : List Str} (h : FromLeft sep n s ps) : ps.length ≤ n + 1 := by
  induction h with
  | done => simp
  | absent => simp
  | cut _ _ ih => simp; omega

theorem occurs_append {sep a : Str} (b : Str) (h : Occurs sep a) : Occurs sep (a ++ b) := by
  obtain ⟨x, y, e⟩ := h
  exact ⟨x, y ++ b, by rw [e]; simp⟩

theorem occurs_prepend {sep b : Str} (a : Str) (h : Occurs sep b) : Occurs sep (a ++ b) := by
  obtain ⟨x, y, e⟩ := h
  exact ⟨a ++ x, y, by rw [e]; simp⟩

theorem FromLeft.clean {sep : Str} {n : Nat} {s : Str} {ps : List Str} (h : FromLeft sep n s ps) (hl : ps.length ≤ n) :
    ∀ p ∈ ps, ¬ Occurs sep p := by
  induction h with
  | done => simp at hl
  | absent h => simpa using h
  | cut h t ih =>
    intro p hp
    rcases List.mem_cons.1 hp with rfl | hp
    · exact fun ho => h.2 (occurs_append _ ho)
    · exact ih (by simpa using hl) p hp

theorem FromRight.ne_nil {sep : Str} {n : Nat} {s : Str} {ps : List Str} (h : FromRight sep n s ps) : ps ≠ [] := by
  cases h <;> simp

theorem FromRight.join {sep : Str} {n : Nat} {s : Str} {ps : List Str} (h : FromRight sep n s ps) : joinWith sep ps = s := by
  induction h with
  | done => rfl
  | absent => rfl
  | cut h t ih => rw [Strings.joinWith_append_singleton _ _ t.ne_nil, ih, h.1]

theorem FromRight.length {sep : Str} {n : Nat} {s : Str} {ps : List Str} (h : FromRight sep n s ps) :
    ps.length ≤ n + 1 := by
  induction h with
  | done => simp
  | absent => simp
  | cut _ _ ih => simp; omega

theorem FromRight.clean {sep : Str} {n : Nat} {s : Str} {ps : List Str} (h : FromRight sep n s ps) (hl : ps.length ≤ n) :
    ∀ p ∈ ps, ¬ Occurs sep p := by
  induction h with
  | done => simp at hl
  | absent h => simpa using h
  | cut h t ih =>
    intro p hp
    rcases List.mem_append.1 hp with hp | hp
    · exact ih (by simpa using hl) p hp
    · rw [List.mem_singleton.1 hp]
      exact fun ho => h.2 (occurs_prepend _ ho)

/-- Pieces take up at least the separators between them. -/
theorem pieces_le {sep : Str} (hne : sep ≠ []) (ps : List Str) : ps.length ≤ (joinWith sep ps).length + 1 := by
  have hl : 0 < sep.length := by cases sep with | nil => exact absurd rfl hne | cons _ _ => simp
  induction ps with
  | nil => simp
  | cons p ps ih =>
    cases ps with
    | nil => simp
    | cons q ps =>
      rw [show joinWith sep (p :: q :: ps) = p ++ sep ++ joinWith sep (q :: ps) from rfl]
      simp only [List.length_append, List.length_cons] at ih ⊢
      omega

end Verif.Tools
