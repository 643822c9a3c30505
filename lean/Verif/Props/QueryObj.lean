import Verif.Lemmas.QueryObj
import Verif.Props.Query
/-
C50-C55 query objects; C99 case-insensitive operators; C100 refining; C101 transforming operators.
-/
namespace Verif.Query

/-! ### C50 -/

/-- Missing: objects without a hash, and queries that have no filter. With `distinct=True` a filter
yields the first occurrence of each object that it yields without: a subsequence, with no two equal
objects, in which each of them is represented. -/
theorem C50_distinct_partial (rx : Rx) (f : Filter) (objs r : List Val) (hh : ∀ o ∈ r, hashable o = true)
    (h : filterOrExclude rx false f (objs, none) = (r, none)) :
    filterOrExclude rx true f (objs, none) = (firsts r, none) ∧ (firsts r).Sublist r ∧
    (firsts r).Pairwise (fun x y => same y x = false) ∧ (∀ x ∈ r, ∃ y ∈ firsts r, same x y = true) := by
  refine ⟨?_, firsts_spec r hh⟩
  have := select_firsts rx objs f [] r hh (by simp) (filterOrExclude_none h)
  have e : (firsts r).filter (fun x => !pyIn x []) = firsts r := by
    rw [List.filter_eq_self]; simp [pyIn]
  rw [e] at this
  simp [filterOrExclude, this]

/-- A query built with `distinct=True` and read without a filter returns duplicates. -/
theorem C50_distinct_violated : ∃ (rx : Rx) (l : List Val),
    ((World.run rx [.query l true]).read rx 0).1 = .ok l ∧ l ≠ firsts l :=
  ⟨noRx, [.int 1, .int 1], by decide +kernel, by decide +kernel⟩

/-- A distinct filter over dictionaries ends with a TypeError. -/
theorem C50_distinct_unhashable (rx : Rx) (objs : List Val) (hne : objs ≠ []) (hd : ∀ o ∈ objs, ∃ d, o = .dict d ∧ d ≠ []) :
    filterOrExclude rx true (.mk' [] [] false false) (objs, none) = ([], some .typeError) := by
  cases objs with
  | nil => exact absurd rfl hne
  | cons o objs =>
    obtain ⟨d, rfl, hdne⟩ := hd o (by simp)
    have ht : (Val.dict d).truthy = true := by
      cases d with
      | nil => exact absurd rfl hdne
      | cons a d => rfl
    simp [filterOrExclude, select, ht, Filter.call, Filter.mk', critLoop, attrLoop, hashable]

example : filterOrExclude noRx true (.mk' [] [] false false) ([.int 1, .str "a".toList, .bool true, .int 1], none)
    = ([.int 1, .str "a".toList], none) := by decide +kernel

/-! ### C51 -/

/-- What `HasResult` means to a caller: the query can be read any number of times and gives that list. -/
theorem C51_result_read (rx : Rx) (w : World) (i : Nat) (l : List Val) (h : HasResult w i l) :
    w.read rx i = (.ok l, w) := read_of_result rx h

/-- And a query that has been read (not backwards) has the result it returned. -/
theorem C51_read_result (rx : Rx) (ops : List QOp) (i : Nat) (l : List Val)
    (hu : Unordered (World.run rx ops) i)
    (hc : ∀ q, (World.run rx ops).qs[i]? = some q → ∀ id r, q.cache ≠ some (.revIter id r))
    (h : ((World.run rx ops).read rx i).1 = .ok l) : HasResult ((World.run rx ops).read rx i).2 i l := by
  have hw := wf_run rx ops
  generalize World.run rx ops = w at *
  obtain ⟨q, hq, ho, hr⟩ := hu
  have hil := (List.getElem?_eq_some_iff.1 hq).1
  cases hcq : q.cache with
  | some c =>
    cases c with
    | revIter id r => exact absurd hcq (hc q hq id r)
    | lst r =>
      have hres : HasResult w i (w.list r) :=
        ⟨q, r, hq, hcq, by simp [World.list, List.getElem?_eq_getElem (hw.valid i q r hq hcq)]⟩
      rw [read_of_result rx hres] at h ⊢
      simp only [Except.ok.injEq] at h; rw [← h]; exact hres
  | none =>
    have hd := drain_world rx w q.src
    unfold World.read World.resultCache at h ⊢
    rw [hq] at h ⊢
    simp only [hcq] at h ⊢
    generalize drain rx w q.src = G at h hd ⊢
    obtain ⟨⟨l', e⟩, w1⟩ := G
    cases e with
    | some e => simp at h
    | none =>
      simp only [ho, hr, Bool.false_eq_true, if_false, World.newList, readCache, World.list] at h ⊢
      simp only [Except.ok.injEq] at h
      refine ⟨{ q with cache := some (.lst w1.lists.length) }, w1.lists.length, ?_, rfl, ?_⟩
      · have : i < w1.qs.length := by simp only at hd; rw [hd.2.1]; exact hil
        simp [this, ho, hr]
      · simp at h; simp [h]

theorem unionLoop_result (rx : Rx) (js : List Nat) (res : Nat → List Val) {w : World} (hw : Wf w) {i r : Nat}
    {q : Q} {cur : List Val} (hq : w.qs[i]? = some q) (hc : q.cache = some (.lst r)) (hcur : w.lists[r]? = some cur)
    (hres : ∀ j ∈ js, j ≠ i → HasResult w j (res j)) :
    ∃ w', unionLoop rx r w js = (.ok (), w') ∧ w'.qs = w.qs ∧
      w'.lists[r]? = some (js.foldl (fun acc j => acc ++ if j = i then acc else res j) cur) := by
  induction js generalizing w cur with
  | nil => exact ⟨w, rfl, rfl, hcur⟩
  | cons j js ih =>
    rw [unionLoop]
    have hi : HasResult w i cur := ⟨q, r, hq, hc, hcur⟩
    have hj : HasResult w j (if j = i then cur else res j) := by
      split
      · rename_i e; subst e; exact hi
      · rename_i e; exact hres j (by simp) e
    obtain ⟨r', h1, h2, _⟩ := resultCache_of_result rx hj
    rw [h1]
    simp only [readCache, list_of_getElem? h2, list_of_getElem? hcur]
    have hrl := (List.getElem?_eq_some_iff.1 hcur).1
    obtain ⟨w', e1, e2, e3⟩ := ih (w := { w with lists := w.lists.set r (cur ++ if j = i then cur else res j) })
      (cur := cur ++ if j = i then cur else res j) (wf_setList hw r _) hq (by simp [List.getElem?_set, hrl])
      (fun j' hj' hne => hasResult_setList hw hq hc hne (hres j' (by simp [hj']) hne))
    exact ⟨w', e1, e2, e3⟩

/-- `q.union(...)` on queries that have been read: the objects of `q` followed by those of the others
(here `q` is not among the others). -/
theorem C51_union (rx : Rx) (ops : List QOp) (i : Nat) (js : List Nat) (res : Nat → List Val)
    (hi : HasResult (World.run rx ops) i (res i)) (hu : Unordered (World.run rx ops) i)
    (hjs : ∀ j ∈ js, HasResult (World.run rx ops) j (res j)) (hn : i ∉ js) :
    ∃ k w', (World.run rx ops).union rx i js = (.ok k, w') ∧
      (w'.read rx k).1 = .ok (res i ++ js.flatMap res) := by
  have hw := wf_run rx ops
  generalize World.run rx ops = w at *
  obtain ⟨q, hq, ho, _⟩ := hu
  obtain ⟨r, h1, h2, q', hq', hc⟩ := resultCache_of_result rx hi
  rw [hq] at hq'; simp at hq'; subst hq'
  obtain ⟨w', e1, e2, e3⟩ := unionLoop_result rx js res hw hq hc h2 (fun j hj _ => hjs j hj)
  unfold World.union
  rw [hq, h1]
  simp only [e1, World.newQ]
  refine ⟨w'.qs.length, _, rfl, ?_⟩
  rw [(read_list rx (r := r) (d := q.distinct) (by simp [ho])).1]
  have hf : ∀ (l : List Nat) (acc : List Val), i ∉ l →
      l.foldl (fun acc j => acc ++ if j = i then acc else res j) acc = acc ++ l.flatMap res := by
    intro l
    induction l with
    | nil => simp
    | cons j l ih =>
      intro acc hl
      simp only [List.mem_cons, not_or] at hl
      rw [List.foldl_cons, ih _ hl.2, if_neg (fun e => hl.1 e.symm)]
      simp
  rw [hf js _ hn] at e3
  congr 1
  simp [World.list, e3]

/-- Whether or not `q` is among the others: exactly the objects of `q` and of the others. -/
theorem C51_union_members (rx : Rx) (ops : List QOp) (i : Nat) (js : List Nat) (res : Nat → List Val)
    (hi : HasResult (World.run rx ops) i (res i)) (hu : Unordered (World.run rx ops) i)
    (hjs : ∀ j ∈ js, HasResult (World.run rx ops) j (res j)) :
    ∃ k w' l, (World.run rx ops).union rx i js = (.ok k, w') ∧ (w'.read rx k).1 = .ok l ∧
      ∀ x, x ∈ l ↔ x ∈ res i ∨ ∃ j ∈ js, x ∈ res j := by
  have hw := wf_run rx ops
  generalize World.run rx ops = w at *
  obtain ⟨q, hq, ho, _⟩ := hu
  obtain ⟨r, h1, h2, q', hq', hc⟩ := resultCache_of_result rx hi
  rw [hq] at hq'; simp at hq'; subst hq'
  obtain ⟨w', e1, e2, e3⟩ := unionLoop_result rx js res hw hq hc h2 (fun j hj _ => hjs j hj)
  unfold World.union
  rw [hq, h1]
  simp only [e1, World.newQ]
  refine ⟨w'.qs.length, _, _, rfl, (read_list rx (r := r) (d := q.distinct) (by simp [ho])).1, ?_⟩
  simp only [World.list, e3, Option.getD_some]
  have hf : ∀ (l : List Nat) (acc : List Val) (x : Val), (∀ y ∈ res i, y ∈ acc) →
      (x ∈ l.foldl (fun acc j => acc ++ if j = i then acc else res j) acc ↔ x ∈ acc ∨ ∃ j ∈ l, x ∈ res j) := by
    intro l
    induction l with
    | nil => simp
    | cons j l ih =>
      intro acc x hacc
      rw [List.foldl_cons, ih _ x (fun y hy => by simp [hacc y hy])]
      simp only [List.mem_append, List.mem_cons, exists_eq_or_imp]
      by_cases hji : j = i
      · subst hji
        simp only [if_true]
        constructor
        · rintro ((h | h) | h)
          · exact .inl h
          · exact .inl h
          · exact .inr (.inr h)
        · rintro (h | h | h)
          · exact .inl (.inl h)
          · exact .inl (.inl (hacc x h))
          · exact .inr h
      · rw [if_neg hji, or_assoc]
  intro x
  exact hf js (res i) x (fun y hy => hy)

theorem keepLoop_result (rx : Rx) (keep : Bool) (js : List Nat) (res : Nat → List Val) {w : World} (cur : List Val)
    (hres : ∀ j ∈ js, HasResult w j (res j)) :
    keepLoop rx keep w cur js = (.ok (cur.filter (fun x => js.all (fun j => pyIn x (res j) == keep))), w) := by
  induction js generalizing cur with
  | nil => simp only [keepLoop, List.all_nil]; rw [List.filter_eq_self.2 (by simp)]
  | cons j js ih =>
    obtain ⟨r, h1, h2, _⟩ := resultCache_of_result rx (hres j (by simp))
    rw [keepLoop, h1]
    simp only [list_of_getElem? h2]
    rw [ih _ (fun j hj => hres j (by simp [hj])), List.filter_filter]
    congr 2
    apply List.filter_congr
    intro x _
    simp [Bool.and_comm]

/-- `q.intersection(...)` and `q.difference(...)` on queries that have been read: the objects of `q`, in
order, that are in all the others, respectively in none of them. -/
theorem C51_restrict (rx : Rx) (keep : Bool) (ops : List QOp) (i : Nat) (js : List Nat) (res : Nat → List Val)
    (hi : HasResult (World.run rx ops) i (res i)) (hu : Unordered (World.run rx ops) i)
    (hjs : ∀ j ∈ js, HasResult (World.run rx ops) j (res j)) :
    ∃ k w', (World.run rx ops).restrict rx keep i js = (.ok k, w') ∧
      (w'.read rx k).1 = .ok ((res i).filter (fun x => js.all (fun j => pyIn x (res j) == keep))) := by
  generalize World.run rx ops = w at *
  obtain ⟨q, hq, ho, _⟩ := hu
  obtain ⟨r, h1, h2, q', hq', hc⟩ := resultCache_of_result rx hi
  unfold World.restrict
  rw [hq, h1]
  simp only [list_of_getElem? h2, keepLoop_result rx keep js res (res i) hjs]
  cases js with
  | nil =>
    simp only [List.isEmpty_nil, if_true, World.newQ]
    refine ⟨w.qs.length, _, rfl, ?_⟩
    rw [(read_list rx (r := r) (d := q.distinct) (by simp [ho])).1]
    simp only [World.list, h2, List.all_nil]; rw [List.filter_eq_self.2 (by simp)]; rfl
  | cons j js =>
    simp only [List.isEmpty_cons, Bool.false_eq_true, if_false, World.newQ, World.newList]
    refine ⟨w.qs.length, _, rfl, ?_⟩
    rw [(read_list rx (r := w.lists.length) (d := q.distinct) (by simp [ho])).1]
    simp [World.list]

/-- Example world: two lists, both read. -/
def exOps : List QOp := [.query [.int 1, .int 2] false, .query [.int 2, .int 3] false, .read 0, .read 1]

example : ((World.run noRx (exOps ++ [.union 0 [1]])).read noRx 2).1 = .ok [.int 1, .int 2, .int 2, .int 3] ∧
    ((World.run noRx (exOps ++ [.restrict true 0 [1]])).read noRx 2).1 = .ok [.int 2] ∧
    ((World.run noRx (exOps ++ [.restrict false 0 [1]])).read noRx 2).1 = .ok [.int 1] := by decide +kernel

example : HasResult (World.run noRx exOps) 0 [.int 1, .int 2] ∧ HasResult (World.run noRx exOps) 1 [.int 2, .int 3] ∧
    Unordered (World.run noRx exOps) 0 :=
  ⟨⟨_, 2, rfl, rfl, rfl⟩, ⟨_, 3, rfl, rfl, rfl⟩, ⟨_, rfl, rfl, rfl⟩⟩

/-! ### C52 -/

/-- `intersection` and `difference` leave the results of all queries as they were. -/
theorem C52_restrict_unchanged (rx : Rx) (keep : Bool) (ops : List QOp) (i : Nat) (js : List Nat) (m : Nat) (l : List Val)
    (h : HasResult (World.run rx ops) m l) : HasResult ((World.run rx ops).restrict rx keep i js).2 m l := by
  have hw := wf_run rx ops
  generalize World.run rx ops = w at *
  unfold World.restrict
  split
  · exact h
  · rename_i q hq
    have hj := resultCache_spec rx hw i
    generalize hg : w.resultCache rx i = G at hj ⊢
    obtain ⟨r, w1⟩ := G
    obtain ⟨k1, k2, _⟩ := hj
    cases r with
    | error e => exact k2 m l h
    | ok c =>
      cases c with
      | revIter id r => exact k2 m l h
      | lst r =>
        simp only
        have hu := keepLoop_spec rx keep js k1 (w1.list r)
        generalize keepLoop rx keep w1 (w1.list r) js = G at hu ⊢
        obtain ⟨res, w2⟩ := G
        have := hu.2 m l (k2 m l h)
        cases res with
        | error e => exact this
        | ok l' =>
          simp only
          split
          · exact hasResult_newQ _ this
          · exact hasResult_newQ _ (hasResult_newList l' this)

/-- Missing: the receiver. `union` leaves the results of all other queries as they were. -/
theorem C52_union_unchanged_partial (rx : Rx) (ops : List QOp) (i : Nat) (js : List Nat) (m : Nat) (l : List Val)
    (h : HasResult (World.run rx ops) m l) (hm : m ≠ i) : HasResult ((World.run rx ops).union rx i js).2 m l := by
  have hw := wf_run rx ops
  generalize World.run rx ops = w at *
  unfold World.union
  split
  · exact h
  · rename_i q hq
    have hj := resultCache_spec rx hw i
    generalize hg : w.resultCache rx i = G at hj ⊢
    obtain ⟨r, w1⟩ := G
    obtain ⟨k1, k2, k3, k4, k5⟩ := hj
    cases r with
    | error e => exact k2 m l h
    | ok c =>
      cases c with
      | revIter id r =>
        simp only
        split
        · exact hasResult_newQ _ (k2 m l h)
        · have := resultCache_spec rx k1 (js.headD 0)
          generalize w1.resultCache rx (js.headD 0) = G at this ⊢
          obtain ⟨r, w2⟩ := G
          cases r <;> exact this.2.1 m l (k2 m l h)
      | lst r =>
        simp only
        have hu := unionLoop_spec rx js k1 (k4 r rfl)
        generalize unionLoop rx r w1 js = G at hu ⊢
        obtain ⟨res, w2⟩ := G
        have := hu.2 m l hm (k2 m l h)
        cases res with
        | error e => exact this
        | ok u => exact hasResult_newQ _ this

/-- `union` adds the objects of the others to the result of the receiver. -/
theorem C52_union_receiver_violated : ∃ (rx : Rx) (ops : List QOp) (i j : Nat) (l l' : List Val),
    ((World.run rx ops).read rx i).1 = .ok l ∧ ((World.run rx (ops ++ [.union i [j]])).read rx i).1 = .ok l' ∧ l ≠ l' :=
  ⟨noRx, exOps, 0, 1, [.int 1, .int 2], [.int 1, .int 2, .int 2, .int 3], by decide +kernel⟩

/-! ### C53 -/

open Classical in
/-- `get` on objects that the criteria can be evaluated on (and plain, as in C45): the object, when exactly
one matches; an exception otherwise. -/
theorem C53_get (rx : Rx) (f : Filter) (objs : List Val) (hf : f.anyOf = false ∧ f.negate = false)
    (hp : ∀ o ∈ objs, Plain f o) (hok : ∀ o ∈ objs, ∃ b, (f.call rx o).1 = .ok b) (x : Val) :
    (get rx false f objs = .ok x ↔ objs.filter (fun o => o.truthy && decide (MatchesAll rx f o)) = [x]) ∧
    ((∀ y, get rx false f objs ≠ .ok y) → get rx false f objs = .error .exception) := by
  obtain ⟨r, hr⟩ : ∃ r, select rx false f [] objs = (r, none) := by
    clear x
    induction objs with
    | nil => exact ⟨[], rfl⟩
    | cons o objs ih =>
      obtain ⟨r, hr⟩ := ih (fun o ho => hp o (by simp [ho])) (fun o ho => hok o (by simp [ho]))
      obtain ⟨b, hb⟩ := hok o (by simp)
      have := call_pure (hp o (by simp)) (by simp [hf.1]) b hb
      rw [select, this]
      cases b <;> simp [hr] <;> split <;> simp
  have e := select_eq rx f (MatchesAll rx f) objs (fun o ho _ b hb => by
    have := call_all hf.1 (hp o ho) b hb
    rw [hf.2] at this; exact this) r hr
  rw [← e]
  simp only [get, filterOrExclude, hr]
  rcases r with _ | ⟨a, _ | ⟨b, r⟩⟩ <;> simp

/-- `next` returns the first object that matches; the objects after it are not evaluated, so nothing is
asked of them. -/
theorem C53_next (rx : Rx) (f : Filter) (pre post : List Val) (x : Val) (hf : f.anyOf = false ∧ f.negate = false)
    (hp : ∀ o ∈ pre ++ [x], Plain f o) (hok : ∀ o ∈ pre ++ [x], ∃ b, (f.call rx o).1 = .ok b)
    (hpre : ∀ o ∈ pre, o.truthy = true → ¬ MatchesAll rx f o) (ht : x.truthy = true) (hx : MatchesAll rx f x) :
    next rx false f (pre ++ x :: post) = .ok x := by
  have : ∃ r e, select rx false f [] (pre ++ x :: post) = (x :: r, e) := by
    induction pre with
    | nil =>
      obtain ⟨b, hb⟩ := hok x (by simp)
      have hc := call_pure (hp x (by simp)) (by simp [hf.1]) b hb
      have := (call_all hf.1 (hp x (by simp)) b hb).2.2 hx
      rw [hf.2] at this; simp at this; subst this
      rw [List.nil_append, select, if_neg (by simp [ht]), hc]
      exact ⟨_, _, rfl⟩
    | cons o pre ih =>
      obtain ⟨r, e, h⟩ := ih (fun o ho => hp o (by simp at ho ⊢; grind)) (fun o ho => hok o (by simp at ho ⊢; grind))
        (fun o ho => hpre o (by simp [ho]))
      rw [List.cons_append, select]
      split
      · exact ⟨r, e, h⟩
      · rename_i hto
        obtain ⟨b, hb⟩ := hok o (by simp)
        have hc := call_pure (hp o (by simp)) (by simp [hf.1]) b hb
        have h2 := (call_all hf.1 (hp o (by simp)) b hb).2
        have hb' : b = false := by
          cases b with
          | false => rfl
          | true => exact absurd (h2.1 (by simp [hf.2])) (hpre o (by simp) (by simpa using hto))
        subst hb'
        rw [hc]
        exact ⟨r, e, h⟩
  obtain ⟨r, e, h⟩ := this
  simp only [next, filterOrExclude, h]
  cases e <;> rfl

/-- `next` raises StopIteration when no object matches. -/
theorem C53_next_none (rx : Rx) (f : Filter) (objs : List Val) (hf : f.anyOf = false ∧ f.negate = false)
    (hp : ∀ o ∈ objs, Plain f o) (hok : ∀ o ∈ objs, ∃ b, (f.call rx o).1 = .ok b)
    (hn : ∀ o ∈ objs, o.truthy = true → ¬ MatchesAll rx f o) :
    next rx false f objs = .error .stopIteration := by
  have : select rx false f [] objs = ([], none) := by
    induction objs with
    | nil => rfl
    | cons o objs ih =>
      have ih := ih (fun o ho => hp o (by simp [ho])) (fun o ho => hok o (by simp [ho])) (fun o ho => hn o (by simp [ho]))
      rw [select]
      split
      · exact ih
      · rename_i hto
        obtain ⟨b, hb⟩ := hok o (by simp)
        have hc := call_pure (hp o (by simp)) (by simp [hf.1]) b hb
        have h2 := (call_all hf.1 (hp o (by simp)) b hb).2
        have hb' : b = false := by
          cases b with
          | false => rfl
          | true => exact absurd (h2.1 (by simp [hf.2])) (hn o (by simp) (by simpa using hto))
        subst hb'
        rw [hc]
        exact ih
  simp [next, filterOrExclude, this]

example : get noRx false (.mk' [] [("a".toList, .int 1)] false false) [obj1, obj2] = .ok obj1 ∧
    get noRx false (.mk' ["a".toList] [] false false) [obj1, obj2] = .error .exception ∧
    next noRx false (.mk' ["a".toList] [] false false) [.dict [], obj2, obj1] = .ok obj2 ∧
    next noRx false (.mk' ["b".toList] [] false false) [obj2, obj1] = .error .stopIteration := by decide +kernel

/-! ### C54 -/

/-- `first()` is the first object of the result, None when it is empty; `q[k]` is the object at position `k`,
IndexError from the length on. -/
theorem C54_first_item (rx : Rx) (w : World) (i : Nat) (l : List Val) (h : HasResult w i l) :
    (w.first rx i).1 = .ok (l.head?.getD .none) ∧
    (∀ (k : Nat) (hk : k < l.length), (w.getItem rx i k).1 = .ok l[k]) ∧
    (∀ k : Nat, l.length ≤ k → (w.getItem rx i k).1 = .error .indexError) ∧
    (w.len rx i).1 = .ok l.length := by
  obtain ⟨r, h1, h2, _⟩ := resultCache_of_result rx h
  refine ⟨?_, ?_, ?_, ?_⟩
  · simp only [World.first, World.getItem, h1, list_of_getElem? h2]
    cases l <;> simp
  · intro k hk
    unfold World.getItem
    rw [if_neg (by omega), h1]
    simp [list_of_getElem? h2, hk]
  · intro k hk
    unfold World.getItem
    rw [if_neg (by omega), h1]
    simp [list_of_getElem? h2, hk]
  · simp [World.len, h1, list_of_getElem? h2]

/-- `last()` raises AssertionError on every query. -/
theorem C54_last_always_fails (rx : Rx) (w : World) (i : Nat) : (w.last rx i).1 = .error .assertionError := by
  simp [World.last, World.getItem]

/-- So it is not the last object of the result. -/
theorem C54_last_violated : ∃ (rx : Rx) (w : World) (i : Nat) (l : List Val) (x : Val),
    HasResult w i l ∧ l.getLast? = some x ∧ (w.last rx i).1 ≠ .ok x :=
  ⟨noRx, World.run noRx exOps, 0, [.int 1, .int 2], .int 2, ⟨_, 2, rfl, rfl, rfl⟩, rfl, by
    rw [C54_last_always_fails]; simp⟩

/-! ### C55 -/

/-- Missing: ordered queries. `reverse()` of a query that has been read gives its objects in reverse order,
as often as it is read. -/
theorem C55_reverse_partial (rx : Rx) (ops : List QOp) (i : Nat) (l : List Val)
    (hi : HasResult (World.run rx ops) i l) (hu : Unordered (World.run rx ops) i) :
    ∃ k w', (World.run rx ops).reversed rx i = (.ok k, w') ∧ (w'.read rx k).1 = .ok l.reverse ∧
      HasResult (w'.read rx k).2 k l.reverse ∧ HasResult w' i l := by
  have hw := wf_run rx ops
  generalize World.run rx ops = w at *
  obtain ⟨q, hq, ho, hr⟩ := hu
  obtain ⟨r, h1, h2, _⟩ := resultCache_of_result rx hi
  have hnd : w.fresh ∉ w.done := fun h => by have := hw.old _ h; omega
  unfold World.reversed
  rw [hq, h1]
  simp only [World.newQ]
  refine ⟨w.qs.length, _, rfl, ?_, ?_, ?_⟩
  · simp [World.read, World.resultCache, drain, hnd, World.newList, World.list, h2, ho, hr, readCache]
  · simp only [World.read, World.resultCache, drain, hnd, World.newList, World.list, h2, ho, hr, readCache,
      List.getElem?_append_right (Nat.le_refl w.qs.length), Nat.sub_self, List.getElem?_cons_zero, if_false,
      Bool.false_eq_true, Option.getD_some]
    exact ⟨⟨.rev w.fresh r, q.distinct, q.orderBy, q.reverse, some (.lst w.lists.length)⟩, w.lists.length,
      by simp [List.getElem?_set, ho, hr], rfl, by simp⟩
  · exact hasResult_newQ (w := { w with fresh := w.fresh + 1 }) _ hi

/-- Reading an ordered query for the first time raises TypeError, whatever the query reads from (unless that
raises itself). -/
theorem C55_order_by_fails (rx : Rx) (w : World) (i : Nat) (reverse : Bool) (k : Nat) (w' : World)
    (h : w.orderBy i reverse = some (k, w')) : ∃ e, (w'.read rx k).1 = .error e := by
  unfold World.orderBy at h
  split at h
  · simp at h
  · rename_i q hq
    simp only [World.newQ, Option.some.injEq, Prod.mk.injEq] at h
    obtain ⟨rfl, rfl⟩ := h
    unfold World.read World.resultCache
    rw [List.getElem?_append_right (Nat.le_refl _)]
    simp only [Nat.sub_self, List.getElem?_cons_zero]
    split
    · rename_i e w1 h1
      exact ⟨_, rfl⟩
    · rename_i c w1 h1
      split at h1
      · simp at h1
      · simp [World.newList] at h1

/-- And the second reading returns the objects unsorted. -/
theorem C55_order_by_violated : ∃ (rx : Rx) (ops : List QOp) (k : Nat),
    ((World.run rx ops).read rx k).1 = .error .typeError ∧
    ((World.run rx (ops ++ [.read k])).read rx k).1 = .ok [.int 2, .int 1] :=
  ⟨noRx, [.query [.int 2, .int 1] false, .orderBy 0 false], 1, by decide +kernel⟩

example : ((World.run noRx (exOps ++ [.reversed 0])).read noRx 2).1 = .ok [.int 2, .int 1] ∧
    ((World.run noRx (exOps ++ [.reversed 0, .read 2])).read noRx 2).1 = .ok [.int 2, .int 1] := by decide +kernel

/-! ### C99 -/

/-- Missing: `iendswith`, and texts with a final newline. On patterns without special characters the
case-insensitive operators compare up to case. -/
theorem C99_ignore_case_partial (rx : Rx) (fold : Char → Char) (hrx : RxLiteral rx fold) (a b : Str) (hb : Literal b)
    (hn : ∀ t, a.map fold ≠ t ++ ['\n']) :
    (∃ r, applyOp rx "ieq".toList (.str a) (.str b) = .ok r ∧ (r.truthy = true ↔ a.map fold = b.map fold)) ∧
    (∃ r, applyOp rx "istartswith".toList (.str a) (.str b) = .ok r ∧ (r.truthy = true ↔ b.map fold <+: a.map fold)) ∧
    (∃ r, applyOp rx "icontains".toList (.str a) (.str b) = .ok r ∧ (r.truthy = true ↔ b.map fold <:+: a.map fold)) := by
  have key : ∀ p : Prop, [Decidable p] → ∃ r, matchVal (.ok (decide p)) = .ok r ∧ (r.truthy = true ↔ p) := by
    intro p hp
    by_cases h : p
    · exact ⟨.bool true, by simp [matchVal, h], by simp [Val.truthy, h]⟩
    · exact ⟨.none, by simp [matchVal, h], by simp [Val.truthy, h]⟩
  have op : ∀ o : Str, isStringOp o = true → applyOp rx o (.str a) (.str b) = stringOp rx o a b := by
    intro o ho; unfold applyOp; rw [if_pos ho]
  have e1 : stringOp rx "ieq".toList a b = matchVal (rx.run true true (['^'] ++ b ++ ['$']) a) := by
    rw [stringOp, if_neg (by decide +kernel), if_neg (by decide +kernel), if_pos rfl]
  have e2 : stringOp rx "istartswith".toList a b = matchVal (rx.run true true (['^'] ++ b) a) := by
    rw [stringOp, if_neg (by decide +kernel), if_neg (by decide +kernel), if_neg (by decide +kernel), if_pos rfl]
  have e3 : stringOp rx "icontains".toList a b = matchVal (rx.run false true b a) := by
    rw [stringOp, if_neg (by decide +kernel), if_neg (by decide +kernel), if_neg (by decide +kernel),
      if_neg (by decide +kernel), if_neg (by decide +kernel), if_pos rfl]
  refine ⟨?_, ?_, ?_⟩
  · rw [op _ (by decide +kernel), e1, hrx.whole b a hb]
    obtain ⟨r, h1, h2⟩ := key (a.map fold = b.map fold ∨ a.map fold = b.map fold ++ ['\n'])
    refine ⟨r, h1, h2.trans ⟨?_, .inl⟩⟩
    rintro (h | h)
    · exact h
    · exact absurd h (hn _)
  · rw [op _ (by decide +kernel), e2, hrx.start b a hb]
    exact key _
  · rw [op _ (by decide +kernel), e3, hrx.search b a hb]
    exact key _

/-- `iendswith` does not hold of a text that ends with the pattern but does not begin with it. -/
theorem C99_iendswith_violated (rx : Rx) (fold : Char → Char) (hrx : RxLiteral rx fold) (a b : Str) (hb : Literal b)
    (hlen : b.length + 1 < a.length) : applyOp rx "iendswith".toList (.str a) (.str b) = .ok .none := by
  have e : stringOp rx "iendswith".toList a b = matchVal (rx.run true true (b ++ ['$']) a) := by
    rw [stringOp, if_neg (by decide +kernel), if_neg (by decide +kernel), if_neg (by decide +kernel),
      if_neg (by decide +kernel), if_pos rfl]
  unfold applyOp
  rw [if_pos (by decide +kernel)]
  simp only
  rw [e, hrx.tail b a hb]
  have : ¬ (a.map fold = b.map fold ∨ a.map fold = b.map fold ++ ['\n']) := by
    rintro (h | h) <;> (have := congrArg List.length h; simp at this; omega)
  simp [matchVal, this]

/-- An engine as `RxLiteral` asks for: here with literal patterns only, and the identity as folding. -/
def litRx : Rx where
  run anchored _ p a :=
    if anchored then
      match p with
      | '^' :: p =>
        if p.getLast? = some '$' then .ok (decide (a = p.dropLast ∨ a = p.dropLast ++ ['\n']))
        else .ok (decide (p <+: a))
      | p => .ok (decide (a = p.dropLast ∨ a = p.dropLast ++ ['\n']))
    else .ok (decide (p <:+: a))

example : RxLiteral litRx id where
  whole b a _ := by simp [litRx]
  start b a hb := by
    have : b.getLast? ≠ some '$' := fun h => by
      have := hb '$' (List.mem_of_getLast? h)
      exact this (by decide +kernel)
    simp [litRx, this]
  tail b a hb := by
    have hne : ∀ p, b ++ ['$'] ≠ '^' :: p := by
      intro p h
      cases b with
      | nil => simp at h
      | cons c b =>
        simp only [List.cons_append, List.cons.injEq] at h
        exact hb c (by simp) (by rw [h.1]; decide +kernel)
    have : litRx.run true true (b ++ ['$']) a =
        .ok (decide (a = (b ++ ['$']).dropLast ∨ a = (b ++ ['$']).dropLast ++ ['\n'])) := by
      simp only [litRx, if_true]
    rw [this]; simp
  search b a _ := by simp [litRx]

/-! ### C100 -/

theorem drain_chain (rx : Rx) (fs : List (Filter × Bool)) {w : World} (hw : Wf w) {i : Nat} {q : Q}
    (hq : w.qs[i]? = some q) (hc : q.cache = none) (ho : q.orderBy = false) (hr : q.reverse = false) (s : Stream)
    (hs : (drain rx w q.src).1 = s) (k : Nat) (w' : World) (h : chain w i fs = some (k, w'))  :
    ∃ q', w'.qs[k]? = some q' ∧ q'.cache = none ∧ q'.orderBy = false ∧ q'.reverse = false ∧
      (drain rx w' q'.src).1 = composeAll rx q.distinct s fs ∧ Wf w' := by
  induction fs generalizing w i q s with
  | nil =>
    simp only [chain, Option.some.injEq, Prod.mk.injEq] at h
    obtain ⟨rfl, rfl⟩ := h
    exact ⟨q, hq, hc, ho, hr, hs, hw⟩
  | cons fb fs ih =>
    obtain ⟨f, b⟩ := fb
    rw [chain] at h
    have hwr := @wf_refine w hw i f b
    unfold World.refine at h hwr
    rw [hq] at h hwr
    simp only [World.newQ] at h hwr
    have hwr := hwr rfl
    have hnd : w.fresh ∉ w.done := fun h => by have := hw.old _ h; omega
    -- draining does not depend on the queries
    have indep : ∀ (src : Src) (a b : World), a.lists = b.lists → a.done = b.done →
        (drain rx a src).1 = (drain rx b src).1 := by
      intro src a b h1 h2
      cases src with
      | lst r => simp [drain, World.list, h1]
      | rev id r => simp only [drain, World.list, h1, h2]; split <;> rfl
      | gen id f d s =>
        have key : ∀ (src : Src), (drain rx a src).1 = (drain rx b src).1 ∧
            (drain rx a src).2.done = (drain rx b src).2.done := by
          intro src
          induction src with
          | lst r => simp [drain, World.list, h1, h2]
          | rev id r => simp only [drain, World.list, h1, h2]; split <;> simp [h2]
          | gen id f d s ih =>
            simp only [drain, h2]
            split
            · simp [h2]
            · simp [ih.1, ih.2]
        exact (key _).1
    refine ih (w := { w with fresh := w.fresh + 1, qs := w.qs ++ [_] }) (i := w.qs.length)
      (q := ⟨.gen w.fresh f (b || q.distinct) q.src, b || q.distinct, q.orderBy, q.reverse, none⟩) hwr (by simp) rfl ho hr _ ?_ h
    simp only [drain, hnd, if_false]
    rw [indep q.src { w with fresh := w.fresh + 1, qs := w.qs ++ [_] } w rfl rfl, hs]

/-- Missing: intermediate queries that have been read. A chain of refinements of a query that was not read,
read at the end, gives what the filters give one after the other. -/
theorem C100_chain_partial (rx : Rx) (ops : List QOp) (l : List Val) (d : Bool) (fs : List (Filter × Bool)) (k : Nat) (w' : World)
    (h : chain (World.run rx (ops ++ [.query l d])) (World.run rx ops).qs.length fs = some (k, w')) :
    (w'.read rx k).1 = match composeAll rx d (l, none) fs with
      | (r, none) => .ok r
      | (_, some e) => .error e := by
  have hw := wf_run rx (ops ++ [.query l d])
  have hrun : World.run rx (ops ++ [.query l d]) = (World.run rx ops).step rx (.query l d) := by
    simp [World.run]
  rw [hrun] at hw h
  obtain ⟨q', h1, h2, h3, h4, h5, h6⟩ := drain_chain rx fs hw
    (q := ⟨.lst (World.run rx ops).lists.length, d, false, false, none⟩)
    (by simp [World.step, World.newList, World.newQ]) rfl rfl rfl (l, none)
    (by simp [World.step, World.newList, World.newQ, drain, World.list]) k w' h
  simp only at h5
  rw [← h5]
  unfold World.read World.resultCache
  rw [h1]
  simp only [h2]
  generalize drain rx w' q'.src = G
  obtain ⟨⟨r, e⟩, w1⟩ := G
  cases e with
  | some e => rfl
  | none => simp [h3, h4, World.newList, readCache, World.list]

theorem composeAll_error (rx : Rx) (hs : List (Filter × Bool)) : ∀ (d : Bool) (s : Stream), s.2 ≠ none →
    (composeAll rx d s hs).2 ≠ none := by
  induction hs with
  | nil => intro d s h; exact h
  | cons fb hs ih =>
    intro d s h
    rw [composeAll]
    apply ih
    unfold filterOrExclude
    split
    · simp
    · exact h

theorem composeAll_append (rx : Rx) (gs hs : List (Filter × Bool)) : ∀ (d : Bool) (s : Stream),
    ∃ d', composeAll rx d s (gs ++ hs) = composeAll rx d' (composeAll rx d s gs) hs := by
  induction gs with
  | nil => intro d s; exact ⟨d, rfl⟩
  | cons fb gs ih => intro d s; exact ih _ _

/-- An exception raised by a filter of the chain, on an object that reaches it, reaches the reader of the last query:
the later filters do not hide it. -/
theorem C100_exceptions (rx : Rx) (ops : List QOp) (l : List Val) (d : Bool) (gs hs : List (Filter × Bool)) (k : Nat)
    (w' : World) (h : chain (World.run rx (ops ++ [.query l d])) (World.run rx ops).qs.length (gs ++ hs) = some (k, w'))
    (r : List Val) (e : Exc) (he : composeAll rx d (l, none) gs = (r, some e)) :
    ∃ e', (w'.read rx k).1 = .error e' := by
  rw [C100_chain_partial rx ops l d _ k w' h]
  obtain ⟨d', hd⟩ := composeAll_append rx gs hs d (l, none)
  rw [hd, he]
  have := composeAll_error rx hs d' (r, some e) (by simp)
  revert this
  generalize composeAll rx d' (r, some e) hs = G
  obtain ⟨r', e'⟩ := G
  cases e' with
  | none => intro h; exact absurd rfl h
  | some e' => intro _; exact ⟨e', rfl⟩

/-- Unhashable objects make the first filter raise when duplicates are to be removed. -/
example : composeAll noRx false ([.int 1, .list []], none) [(.mk' [] [] false false, true)] = ([.int 1], none) ∧
    composeAll noRx false ([.int 1, .list [.int 2]], none) [(.mk' [] [] false false, true)] = ([.int 1], some .typeError) ∧
    ((World.run noRx [.query [.int 1, .list [.int 2]] false, .refine 0 (.mk' [] [] false false) true,
      .refine 1 (.mk' [] [] false false) false]).read noRx 2).1 = .error .typeError := by decide +kernel

/-- Refining a filtered query that has been read gives nothing: its generator is exhausted. -/
theorem C100_refine_after_read_violated : ∃ (rx : Rx) (f : Filter) (l : List Val),
    ((World.run rx [.query l false, .refine 0 f false, .refine 1 f false]).read rx 2).1 = .ok l ∧
    ((World.run rx [.query l false, .refine 0 f false, .read 1, .refine 1 f false]).read rx 2).1 = .ok [] ∧ l ≠ [] :=
  ⟨noRx, .mk' [] [] false false, [.int 1], by decide +kernel⟩

example : ((World.run noRx [.query [obj1, obj2] false, .refine 0 (.mk' ["a".toList] [] false false) false,
    .refine 1 (.mk' [] [("a".toList, .int 2)] false false) false]).read noRx 2).1 = .ok [obj2] := by decide +kernel

/-! ### C101 -/

/-- `attr__size__op=n` compares the length of the attribute with `n`. -/
theorem C101_size (rx : Rx) (l : List Val) (n : Int) :
    foldOps rx ["size".toList, "eq".toList] (.list l) (.int n) = .ok (.bool (decide ((l.length : Int) = n))) ∧
    foldOps rx ["size".toList, "ne".toList] (.list l) (.int n) = .ok (.bool (decide ((l.length : Int) ≠ n))) ∧
    foldOps rx ["size".toList, "lt".toList] (.list l) (.int n) = .ok (.bool (decide ((l.length : Int) < n))) ∧
    foldOps rx ["size".toList, "le".toList] (.list l) (.int n) = .ok (.bool (decide ((l.length : Int) ≤ n))) ∧
    foldOps rx ["size".toList, "gt".toList] (.list l) (.int n) = .ok (.bool (decide ((l.length : Int) > n))) ∧
    foldOps rx ["size".toList, "ge".toList] (.list l) (.int n) = .ok (.bool (decide ((l.length : Int) ≥ n))) := by
  have hs : ∀ b, applyOp rx "size".toList (.list l) b = .ok (.int l.length) := by
    intro b
    unfold applyOp
    rw [if_neg (by decide +kernel), if_neg (by decide +kernel), if_neg (by decide +kernel), if_neg (by decide +kernel),
      if_neg (by decide +kernel), if_neg (by decide +kernel), if_neg (by decide +kernel), if_neg (by decide +kernel),
      if_pos rfl]
  refine ⟨?_, ?_, ?_, ?_, ?_, ?_⟩ <;> rw [foldOps, hs] <;> simp only [foldOps]
  · have : applyOp rx "eq".toList (.int l.length) (.int n) = .ok (.bool (pyEq (.int l.length) (.int n))) := by
      unfold applyOp
      rw [if_neg (by decide +kernel), if_neg (by decide +kernel), if_neg (by decide +kernel), if_neg (by decide +kernel),
        if_neg (by decide +kernel), if_pos rfl]
    rw [this]; simp only [pyEq, num]; congr 2
    rw [Bool.eq_iff_iff]; grind
  · have : applyOp rx "ne".toList (.int l.length) (.int n) = .ok (.bool (!pyEq (.int l.length) (.int n))) := by
      unfold applyOp
      rw [if_neg (by decide +kernel), if_neg (by decide +kernel), if_neg (by decide +kernel), if_neg (by decide +kernel),
        if_neg (by decide +kernel), if_neg (by decide +kernel), if_pos (by decide +kernel)]
    rw [this]; simp only [pyEq, num]; congr 2
    rw [Bool.eq_iff_iff]; grind
  · have : applyOp rx "lt".toList (.int l.length) (.int n) = boolVal (pyCmp .lt (.int l.length) (.int n)) := by
      unfold applyOp
      rw [if_neg (by decide +kernel), if_pos rfl]
    rw [this]; simp [pyCmp, num, boolVal, Cmp.onInt]
  · have : applyOp rx "le".toList (.int l.length) (.int n) = boolVal (pyCmp .le (.int l.length) (.int n)) := by
      unfold applyOp
      rw [if_neg (by decide +kernel), if_neg (by decide +kernel), if_pos rfl]
    rw [this]; simp [pyCmp, num, boolVal, Cmp.onInt]
  · have : applyOp rx "gt".toList (.int l.length) (.int n) = boolVal (pyCmp .gt (.int l.length) (.int n)) := by
      unfold applyOp
      rw [if_neg (by decide +kernel), if_neg (by decide +kernel), if_neg (by decide +kernel), if_neg (by decide +kernel),
        if_pos rfl]
    rw [this]; simp [pyCmp, num, boolVal, Cmp.onInt]
  · have : applyOp rx "ge".toList (.int l.length) (.int n) = boolVal (pyCmp .ge (.int l.length) (.int n)) := by
      unfold applyOp
      rw [if_neg (by decide +kernel), if_neg (by decide +kernel), if_neg (by decide +kernel), if_pos rfl]
    rw [this]; simp [pyCmp, num, boolVal, Cmp.onInt]

/-- Without a comparison the length is not compared: `n__size=2` holds of any non-empty list. -/
theorem C101_size_alone_violated (rx : Rx) (l : List Val) (n : Val) (hl : l ≠ []) :
    applyOpsTest rx ["size".toList] false (.list l) n = .ok true := by
  have hs : applyOp rx "size".toList (.list l) n = .ok (.int l.length) := by
    unfold applyOp
    rw [if_neg (by decide +kernel), if_neg (by decide +kernel), if_neg (by decide +kernel), if_neg (by decide +kernel),
      if_neg (by decide +kernel), if_neg (by decide +kernel), if_neg (by decide +kernel), if_neg (by decide +kernel),
      if_pos rfl]
  have : l.length ≠ 0 := by simpa using hl
  simp only [applyOpsTest, foldOps, hs, Bool.false_eq_true, if_false, Val.truthy]
  congr 1
  simp; omega

/-- `attr__intersects=[...]` holds exactly when the attribute and the list have an element in common
(elements with a hash). -/
theorem C101_intersects (rx : Rx) (a b : List Val) (ha : ∀ x ∈ a, hashable x = true) (hb : ∀ x ∈ b, hashable x = true) :
    applyOpsTest rx ["intersects".toList] false (.list a) (.list b) =
      .ok (decide (∃ x ∈ a, ∃ y ∈ b, same x y = true)) := by
  have hs : applyOp rx "intersects".toList (.list a) (.list b) = .ok (.list (a.filter (fun x => pyIn x b))) := by
    unfold applyOp
    rw [if_neg (by decide +kernel), if_neg (by decide +kernel), if_neg (by decide +kernel), if_neg (by decide +kernel),
      if_neg (by decide +kernel), if_neg (by decide +kernel), if_neg (by decide +kernel), if_neg (by decide +kernel),
      if_neg (by decide +kernel), if_neg (by decide +kernel), if_neg (by decide +kernel), if_pos rfl]
    have h1 : a.all hashable = true := List.all_eq_true.2 ha
    have h2 : b.all hashable = true := List.all_eq_true.2 hb
    simp [h1, h2]
  simp only [applyOpsTest, foldOps, hs, Bool.false_eq_true, if_false, Except.ok.injEq]
  rw [Bool.eq_iff_iff, decide_eq_true_iff]
  have : (Val.list (a.filter (fun x => pyIn x b))).truthy = true ↔ a.filter (fun x => pyIn x b) ≠ [] := by
    cases a.filter (fun x => pyIn x b) <;> simp [Val.truthy]
  rw [this, ne_eq, List.filter_eq_nil_iff]
  simp only [pyIn, same, List.any_eq_true]
  grind

example : filterOrExclude noRx false (.mk' [] [("n__intersects".toList, .list [.int 4, .int 9])] false false) ([obj1, obj2], none)
    = ([obj1], none) := by decide +kernel

end Verif.Query
