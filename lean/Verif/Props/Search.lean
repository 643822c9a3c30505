import Verif.Props.Compare
import Verif.Props.QueryObj
import Verif.Model.Search
/-
C301 members, C302 number and parts of the results of a query, C303 searching a document.
-/
namespace Verif.Query
open Doc

theorem after_isSome (obj : Val) (hobj : WellFormed obj) (l : List Val) (hl : ∀ o ∈ l, WellFormed o) :
    (after obj l).isSome = true ↔ ∃ o ∈ l, Equal o obj := by
  induction l with
  | nil => simp [after]
  | cons o os ih =>
    have := C296_equal o obj (hl o (by simp)) hobj
    rw [after]
    split
    · rename_i h; simp only [Option.isSome_some, true_iff]; exact ⟨o, by simp, this.1 h⟩
    · rename_i h
      rw [ih (fun x hx => hl x (by simp [hx]))]
      simp only [List.mem_cons, exists_eq_or_imp]
      constructor
      · exact .inr
      · rintro (h' | h')
        · exact absurd (this.2 h') h
        · exact h'

/-! ### C301 -/

/-- **C301**: an object is in a query exactly when iterating over the query would give an equal one. -/
theorem C301_member (rx : Rx) (w : World) (i : Nat) (l : List Val) (obj : Val) (hobj : WellFormed obj)
    (hl : ∀ o ∈ l, WellFormed o) (h : (w.read rx i).1 = .ok l) :
    ∃ b, (w.contains rx i obj).1 = .ok b ∧ (b = true ↔ ∃ o ∈ l, Equal o obj) := by
  unfold World.read at h
  unfold World.contains
  split at h
  · simp at h
  · rename_i c w' hc
    rw [hc]
    cases c with
    | lst r =>
      simp only [readCache, Except.ok.injEq] at h
      subst h
      exact ⟨_, rfl, after_isSome obj hobj _ hl⟩
    | revIter id r =>
      simp only [readCache] at h ⊢
      by_cases hd : id ∈ w'.done
      · rw [if_pos hd] at h ⊢
        simp only [Except.ok.injEq] at h
        subst h
        exact ⟨false, rfl, by simp⟩
      · rw [if_neg hd] at h ⊢
        simp only [Except.ok.injEq] at h
        subst h
        have hs := after_isSome obj hobj _ hl
        cases ha : after obj (w'.list r).reverse with
        | none => rw [ha] at hs; exact ⟨false, rfl, by simpa using hs⟩
        | some rest => rw [ha] at hs; exact ⟨true, rfl, by simpa using hs⟩

/-- **C301**, what holds: once a query that is not reversed has been read, asking changes nothing, and the answer is about
the results. -/
theorem C301_again_partial (rx : Rx) (w : World) (i : Nat) (l : List Val) (obj : Val) (h : HasResult w i l)
    (hobj : WellFormed obj) (hl : ∀ o ∈ l, WellFormed o) :
    (w.contains rx i obj).2 = w ∧ ∃ b, (w.contains rx i obj).1 = .ok b ∧ (b = true ↔ ∃ o ∈ l, Equal o obj) := by
  have hr := read_of_result rx h
  refine ⟨?_, C301_member rx w i l obj hobj hl (by rw [hr])⟩
  obtain ⟨q, r, hq, hc, _⟩ := h
  simp [World.contains, World.resultCache, hq, hc]

/-- **C301** fails: once an object was looked for in a reversed query and not found, the query has no results left; nothing
is found there any more. -/
theorem C301_reversed_violated (rx : Rx) (w : World) (i : Nat) (q : Q) (id r : Nat) (hq : w.qs[i]? = some q)
    (hc : q.cache = some (.revIter id r)) (obj : Val) (hn : (w.contains rx i obj).1 = .ok false) :
    let w' := (w.contains rx i obj).2
    (w'.read rx i).1 = .ok [] ∧ ∀ obj', (w'.contains rx i obj').1 = .ok false := by
  have hrc : ∀ v : World, v.qs[i]? = some q → v.resultCache rx i = (.ok (.revIter id r), v) := by
    intro v hv; simp [World.resultCache, hv, hc]
  have key : ∃ w', (w.contains rx i obj).2 = w' ∧ w'.qs[i]? = some q ∧ id ∈ w'.done := by
    refine ⟨_, rfl, ?_⟩
    unfold World.contains at hn ⊢
    rw [hrc w hq] at hn ⊢
    simp only at hn ⊢
    split at hn
    · rename_i hd; rw [if_pos hd]; exact ⟨hq, hd⟩
    · rename_i hd
      rw [if_neg hd]
      cases ha : after obj (w.list r).reverse with
      | none => simp only; exact ⟨hq, by simp⟩
      | some rest => rw [ha] at hn; simp at hn
  obtain ⟨w', he, hq', hd⟩ := key
  simp only [he]
  constructor
  · simp [World.read, hrc w' hq', readCache, hd]
  · intro obj'
    simp [World.contains, hrc w' hq', hd]

private def rx0 : Rx := ⟨fun _ _ _ _ => .error .exception⟩

/-- A query over [1, 2, 3], and the same reversed. -/
private def w0 : World := ⟨[[.int 1, .int 2, .int 3]], [], 0, [⟨.lst 0, false, false, false, none⟩, ⟨.lst 0, false, false, true, none⟩]⟩

example : (w0.read rx0 0).1 = .ok [.int 1, .int 2, .int 3] ∧ (w0.contains rx0 0 (.int 2)).1 = .ok true ∧
    (w0.contains rx0 0 (.bool true)).1 = .ok true ∧ (w0.contains rx0 0 (.str ['1'])).1 = .ok false :=
  ⟨by decide +kernel, by decide +kernel, by decide +kernel, by decide +kernel⟩

example : HasResult (w0.contains rx0 0 (.int 2)).2 0 [.int 1, .int 2, .int 3] := ⟨_, 1, rfl, rfl, rfl⟩

/-- 2 is found in the reversed query, then 3 is not. -/
example : (w0.contains rx0 1 (.int 2)).1 = .ok true ∧ ((w0.contains rx0 1 (.int 2)).2.contains rx0 1 (.int 3)).1 = .ok false ∧
    ((w0.contains rx0 1 (.int 2)).2.read rx0 1).1 = .ok [.int 1] ∧
    ((w0.contains rx0 1 (.int 4)).2.read rx0 1).1 = .ok [] :=
  ⟨by decide +kernel, by decide +kernel, by decide +kernel, by decide +kernel⟩

/-! ### C302 -/

/-- **C302**, what holds: the number of results of a query that is not reversed, whether there are none, and a part of
them, agree with what iterating gives. -/
theorem C302_results_partial (rx : Rx) (w : World) (i : Nat) (q : Q) (l : List Val) (hq : w.qs[i]? = some q)
    (hrev : q.reverse = false) (hcache : ∀ id r, q.cache ≠ some (.revIter id r)) (h : (w.read rx i).1 = .ok l) :
    (w.count rx i).1 = .ok l.length ∧ (∃ b, (w.isEmpty rx i).1 = .ok b ∧ (b = true ↔ l = [])) ∧
    ∀ start stop : Option Int, (∀ k, start = some k → 0 ≤ k) → (∀ k, stop = some k → 0 ≤ k) →
      ∃ part, (w.slice rx i start stop).1 = .ok part ∧ ∀ (n : Nat) (x : Val), part[n]? = some x ↔
        (∃ s : Nat, s = (start.getD 0).toNat ∧ l[s + n]? = some x ∧ ∀ k : Int, stop = some k → ((s + n : Nat) : Int) < k) := by
  have hc : ∃ r w', w.resultCache rx i = (.ok (.lst r), w') ∧ w'.list r = l := by
    unfold World.read at h
    split at h
    · simp at h
    · rename_i c w' hc
      cases c with
      | lst r => exact ⟨r, w', hc, by simpa [readCache] using h⟩
      | revIter id r =>
        exfalso
        unfold World.resultCache at hc
        rw [hq] at hc
        simp only at hc
        split at hc
        · rename_i c' hc'
          simp only [Prod.mk.injEq, Except.ok.injEq] at hc
          exact hcache id r (by rw [hc', hc.1])
        · split at hc
          · simp at hc
          · split at hc
            · simp at hc
            · rw [hrev] at hc
              simp at hc
  obtain ⟨r, w', hc, rfl⟩ := hc
  refine ⟨?_, ?_, ?_⟩
  · simp [World.count, World.len, hc]
  · refine ⟨(w'.list r).length == 0, by simp [World.isEmpty, World.len, hc], by simp⟩
  · intro start stop h1 h2
    have hb : (bound start && bound stop) = true := by
      cases start with
      | none => cases stop with
        | none => rfl
        | some k => simpa [bound] using h2 k rfl
      | some j => cases stop with
        | none => simpa [bound] using h1 j rfl
        | some k => simpa [bound] using ⟨h1 j rfl, h2 k rfl⟩
    unfold World.slice
    rw [hb]
    simp only [Bool.not_true, Bool.false_eq_true, if_false, hc]
    refine ⟨_, rfl, ?_⟩
    intro n x
    cases start with
    | none => cases stop with
      | none => simp
      | some k =>
        have := h2 k rfl
        simp only [List.getElem?_take, Option.getD_none, Option.some.injEq, exists_eq_left, Int.toNat_zero, Nat.zero_add,
          forall_eq']
        by_cases hk : n < k.toNat
        · rw [if_pos hk]
          have : (n : Int) < k := by omega
          simp [this]
        · rw [if_neg hk]
          have : ¬ (n : Int) < k := by omega
          simp [this]
    | some j => cases stop with
      | none =>
        have := h1 j rfl
        simp
      | some k =>
        have := h1 j rfl
        have := h2 k rfl
        simp only [List.getElem?_drop, List.getElem?_take, Option.getD_some, Option.some.injEq, exists_eq_left, forall_eq']
        by_cases hk : j.toNat + n < k.toNat
        · rw [if_pos hk]
          have : ((j.toNat + n : Nat) : Int) < k := by omega
          simp only [this, and_true]
        · rw [if_neg hk]
          have : ¬ ((j.toNat + n : Nat) : Int) < k := by omega
          simp only [this, and_false]
          simp

/-- **C302** fails: a reversed query has neither a number of results nor parts. -/
theorem C302_reversed_violated (rx : Rx) (w : World) (i : Nat) (q : Q) (id r : Nat) (hq : w.qs[i]? = some q)
    (hc : q.cache = some (.revIter id r)) (start stop : Option Int) :
    (w.count rx i).1 = .error .typeError ∧ (w.isEmpty rx i).1 = .error .typeError ∧
      ∀ l, (w.slice rx i start stop).1 ≠ .ok l := by
  have hrc : w.resultCache rx i = (.ok (.revIter id r), w) := by simp [World.resultCache, hq, hc]
  refine ⟨by simp [World.count, World.len, hrc], by simp [World.isEmpty, World.len, hrc], ?_⟩
  intro l
  unfold World.slice
  split
  · simp
  · simp [hrc]

/-- **C302** fails: the last results cannot be asked for by a negative bound. -/
theorem C302_negative_violated (rx : Rx) (w : World) (i : Nat) (k : Int) (hk : k < 0) (stop : Option Int) :
    (w.slice rx i (some k) stop).1 = .error .assertionError ∧ (w.slice rx i stop (some k)).1 = .error .assertionError := by
  have : bound (some k) = false := by simp [bound, hk]
  simp [World.slice, this]

example : (w0.count rx0 0).1 = .ok 3 ∧ (w0.isEmpty rx0 0).1 = .ok false ∧
    (w0.slice rx0 0 (some 1) (some 9)).1 = .ok [.int 2, .int 3] ∧ (w0.slice rx0 0 none (some 2)).1 = .ok [.int 1, .int 2] :=
  ⟨by decide +kernel, by decide +kernel, by decide +kernel, by decide +kernel⟩
example : ((w0.contains rx0 1 (.int 3)).2.count rx0 1).1 = .error .typeError := by decide +kernel

/-! ### C303 -/

theorem searchLoop_filter (rx : Rx) (obj : Val) (f : Filter) (hf : f.anyOf = false) (hn : f.negate = false) (places : List Place)
    (hv : ∀ p ∈ places, ∀ v, getDescendant obj p.keys = .ok v → Plain f v) (r : List (Str × Val))
    (h : searchLoop rx obj (some f) places = (r, none)) :
    ∀ x, x ∈ r ↔ ∃ p ∈ places, x.1 = p.path ∧ getDescendant obj p.keys = .ok x.2 ∧ MatchesAll rx f x.2 := by
  induction places generalizing r with
  | nil => simp [searchLoop] at h; simp [h]
  | cons p ps ih =>
    have ih := ih (fun q hq => hv q (by simp [hq]))
    rw [searchLoop] at h
    cases hg : getDescendant obj p.keys with
    | error e => rw [hg] at h; simp at h
    | ok val =>
      rw [hg] at h
      simp only at h
      have hcall := fun b => call_all (rx := rx) (obj := val) hf (hv p (by simp) val hg) b
      generalize f.call rx val = G at h hcall
      obtain ⟨res, g⟩ := G
      cases res with
      | error e => simp at h
      | ok b =>
        obtain ⟨h1, h2⟩ := hcall b rfl
        simp only at h1; subst h1
        rw [hn] at h2
        intro x
        cases b with
        | false =>
          simp only at h
          have hnm : ¬ MatchesAll rx g val := by simpa using h2
          rw [ih r h x]
          simp only [List.mem_cons, exists_eq_or_imp, hg, Except.ok.injEq]
          constructor
          · exact .inr
          · rintro (⟨_, e, hm⟩ | h')
            · exact absurd (e ▸ hm) hnm
            · exact h'
        | true =>
          simp only at h
          generalize hs : searchLoop rx obj (some g) ps = R at h
          obtain ⟨r', e⟩ := R
          simp only [Prod.mk.injEq] at h
          obtain ⟨rfl, rfl⟩ := h
          have hm : MatchesAll rx g val := h2.1 rfl
          simp only [List.mem_cons, exists_eq_or_imp, hg, Except.ok.injEq, ih r' hs x]
          constructor
          · rintro (rfl | h')
            · exact .inl ⟨rfl, rfl, hm⟩
            · exact .inr h'
          · rintro (⟨a, b, _⟩ | h')
            · exact .inl (by rw [← a]; subst b; rfl)
            · exact .inr h'

/-- **C303**, what holds: a search with criteria gives the places of the path whose values satisfy them all, with their
values. -/
theorem C303_criteria_partial (rx : Rx) (obj : Val) (places : List Place) (attrs : List Str) (criteria : List (Str × Val))
    (hne : attrs ≠ [] ∨ criteria ≠ [])
    (hv : ∀ p ∈ places, ∀ v, getDescendant obj p.keys = .ok v → Plain (.mk' attrs criteria false false) v)
    (r : List (Str × Val)) (h : searchObject rx obj places attrs criteria = (r, none)) :
    ∀ x, x ∈ r ↔ ∃ p ∈ places, x.1 = p.path ∧ getDescendant obj p.keys = .ok x.2 ∧
      MatchesAll rx (.mk' attrs criteria false false) x.2 := by
  have : (attrs.isEmpty && criteria.isEmpty) = false := by
    rcases hne with h | h
    · cases attrs <;> simp_all
    · cases criteria <;> simp_all
  rw [searchObject, this] at h
  exact searchLoop_filter rx obj _ rfl rfl places hv r h

/-- **C303** fails: a search without criteria finds nothing, whatever the path leads to. -/
theorem C303_plain_violated (rx : Rx) (obj : Val) (places : List Place) : (searchObject rx obj places [] []).1 = [] := by
  rw [searchObject]
  simp only [List.isEmpty_nil, Bool.and_self, if_true]
  induction places with
  | nil => rfl
  | cons p ps ih => rw [searchLoop]; split <;> first | rfl | exact ih

/-- **C303** fails: looking for the first place that satisfies the criteria, when there is none, is a RuntimeError and not
an empty result. -/
theorem C303_first_violated (rx : Rx) (obj : Val) (places : List Place) (attrs : List Str) (criteria : List (Str × Val))
    (h : searchObject rx obj places attrs criteria = ([], none)) :
    searchFirst rx obj places attrs criteria = .error .runtimeError := by
  simp [searchFirst, h]

private def doc0 : Val := .dict [("a".toList, .dict [("x".toList, .int 1)]), ("b".toList, .dict [("x".toList, .int 2)])]
private def places0 : List Place := [⟨"a".toList, [.name "a".toList]⟩, ⟨"b".toList, [.name "b".toList]⟩]

example : searchObject rx0 doc0 places0 [] [("x".toList, .int 2)] = ([("b".toList, .dict [("x".toList, .int 2)])], none) ∧
    searchObject rx0 doc0 places0 ["x".toList] [] = ([("a".toList, .dict [("x".toList, .int 1)]), ("b".toList, .dict [("x".toList, .int 2)])], none) ∧
    searchFirst rx0 doc0 places0 [] [("x".toList, .int 3)] = .error .runtimeError :=
  ⟨by decide +kernel, by decide +kernel, by decide +kernel⟩

example : ∀ p ∈ places0, ∀ v, getDescendant doc0 p.keys = .ok v → Plain (.mk' [] [("x".toList, .int 2)] false false) v := by
  intro p hp v hv
  simp only [places0, List.mem_cons, List.not_mem_nil, or_false] at hp
  rcases hp with rfl | rfl
  all_goals
    refine ⟨?_, by simp [Filter.mk']⟩
    intro c hc
    have : c = ⟨["x".toList], [], false, .int 2⟩ := by
      have : (Filter.mk' [] [("x".toList, .int 2)] false false).crits = [⟨["x".toList], [], false, .int 2⟩] := by decide +kernel
      rw [this] at hc; simpa using hc
    subst this
    exact ⟨by simp, solid_single _ _, .inl rfl⟩

end Verif.Query
