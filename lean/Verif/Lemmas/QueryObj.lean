import Verif.Lemmas.Query
/-
Lemmas for the query objects.
-/
namespace Verif.Query

/-- The identities of the iterators an iterable reads from. -/
def srcIds : Src → List Nat
  | .lst _ => []
  | .rev id _ => [id]
  | .gen id _ _ s => id :: srcIds s

/-- The identity of a one-shot result. -/
def cacheIds : Option Cache → List Nat
  | some (.revIter id _) => [id]
  | _ => []

/-- Cached results are list objects of their own; the iterators that exist are not fresh. -/
structure Wf (w : World) : Prop where
  valid : ∀ (i : Nat) (q : Q) (r : Nat), w.qs[i]? = some q → q.cache = some (Cache.lst r) → r < w.lists.length
  own : ∀ (i j : Nat) (p q : Q) (r : Nat), w.qs[i]? = some p → w.qs[j]? = some q →
    p.cache = some (Cache.lst r) → q.cache = some (Cache.lst r) → i = j
  old : ∀ id ∈ w.done, id < w.fresh
  ids : ∀ (i : Nat) (q : Q), w.qs[i]? = some q → ∀ id ∈ srcIds q.src ++ cacheIds q.cache, id < w.fresh

theorem wf_empty : Wf ⟨[], [], 0, []⟩ := ⟨by simp, by simp, by simp, by simp⟩

/-- Draining only consumes iterators. -/
theorem drain_world (rx : Rx) (w : World) (s : Src) :
    (drain rx w s).2.lists = w.lists ∧ (drain rx w s).2.qs = w.qs ∧ (drain rx w s).2.fresh = w.fresh ∧
    (∀ id ∈ (drain rx w s).2.done, id ∈ w.done ∨ id ∈ srcIds s) ∧ (∀ id ∈ w.done, id ∈ (drain rx w s).2.done) := by
  induction s with
  | lst r => simp only [drain]; grind
  | rev id r => rw [drain]; split <;> simp [srcIds] <;> grind
  | gen id f d s ih =>
    rw [drain]
    split
    · simp [srcIds]; grind
    · generalize drain rx w s = G at ih ⊢
      obtain ⟨st, w'⟩ := G
      simp only at ih ⊢
      refine ⟨ih.1, ih.2.1, ih.2.2.1, ?_, ?_⟩
      · intro x hx
        simp only [List.mem_cons] at hx
        rcases hx with rfl | hx
        · simp [srcIds]
        · rcases ih.2.2.2.1 x hx with h | h
          · exact .inl h
          · exact .inr (by simp [srcIds, h])
      · intro x hx
        simp [ih.2.2.2.2 x hx]

/-- A new query without a result. -/
theorem wf_newQ {w : World} (h : Wf w) (q : Q) (hc : q.cache = none) (hs : ∀ id ∈ srcIds q.src, id < w.fresh) :
    Wf (w.newQ q).2 := by
  have key : ∀ (i : Nat) (p : Q), (w.qs ++ [q])[i]? = some p → w.qs[i]? = some p ∨ p = q := by
    intro i p hp
    rw [List.getElem?_append] at hp
    split at hp
    · exact .inl hp
    · right
      rw [List.getElem?_singleton] at hp
      split at hp <;> simp_all
  constructor
  · intro i p r hp hpc
    rcases key i p hp with hp | rfl
    · exact h.valid i p r hp hpc
    · simp [hc] at hpc
  · intro i j p p' r hp hp' hpc hpc'
    rcases key i p hp with hp | rfl
    · rcases key j p' hp' with hp' | rfl
      · exact h.own i j p p' r hp hp' hpc hpc'
      · simp [hc] at hpc'
    · simp [hc] at hpc
  · exact h.old
  · intro i p hp
    rcases key i p hp with hp | rfl
    · exact h.ids i p hp
    · simpa [hc, cacheIds, World.newQ] using hs

theorem wf_fresh {w : World} (h : Wf w) : Wf { w with fresh := w.fresh + 1 } :=
  ⟨h.valid, h.own, fun id hd => Nat.lt_succ_of_lt (h.old id hd),
    fun i q hq id hi => Nat.lt_succ_of_lt (h.ids i q hq id hi)⟩

theorem wf_newList {w : World} (h : Wf w) (l : List Val) : Wf (w.newList l).2 :=
  ⟨fun i q r hq hc => by have := h.valid i q r hq hc; simp [World.newList]; omega, h.own, h.old, h.ids⟩

theorem wf_setList {w : World} (h : Wf w) (r : Nat) (l : List Val) : Wf { w with lists := w.lists.set r l } :=
  ⟨fun i q r hq hc => by simpa using h.valid i q r hq hc, h.own, h.old, h.ids⟩

theorem wf_refine {w : World} (h : Wf w) {i : Nat} {f : Filter} {d : Bool} {k : Nat} {w' : World}
    (hr : w.refine i f d = some (k, w')) : Wf w' := by
  unfold World.refine at hr
  split at hr
  · simp at hr
  · rename_i q hq
    simp only [Option.some.injEq] at hr
    have : w' = (World.newQ { w with fresh := w.fresh + 1 } _).2 := (congrArg Prod.snd hr).symm
    rw [this]
    apply wf_newQ (wf_fresh h) _ rfl
    intro id hi
    simp only [srcIds, List.mem_cons] at hi
    rcases hi with rfl | hi
    · simp
    · have := h.ids i q hq id (by simp [hi]); simp; omega

/-- What computing a result does: keeps the invariant, keeps all results, and answers with the result. -/
theorem resultCache_spec (rx : Rx) {w : World} (h : Wf w) (i : Nat) :
    Wf (w.resultCache rx i).2 ∧
    (∀ m l, HasResult w m l → HasResult (w.resultCache rx i).2 m l) ∧
    (∀ m, Unordered w m → Unordered (w.resultCache rx i).2 m) ∧
    (∀ r, (w.resultCache rx i).1 = .ok (.lst r) →
      ∃ q, (w.resultCache rx i).2.qs[i]? = some q ∧ q.cache = some (.lst r)) ∧
    (∀ id r, (w.resultCache rx i).1 = .ok (.revIter id r) → id < (w.resultCache rx i).2.fresh) := by
  unfold World.resultCache
  split
  · exact ⟨h, fun _ _ hm => hm, fun _ hm => hm, by simp, by simp⟩
  · rename_i q hq
    split
    · rename_i c hc
      refine ⟨h, fun _ _ hm => hm, fun _ hm => hm, ?_, ?_⟩
      · intro r hr
        simp only [Except.ok.injEq] at hr; subst hr
        exact ⟨q, hq, hc⟩
      · intro id r hr
        simp only [Except.ok.injEq] at hr; subst hr
        exact h.ids i q hq id (by simp [hc, cacheIds])
    · rename_i hc
      have hd := drain_world rx w q.src
      generalize drain rx w q.src = G at hd ⊢
      obtain ⟨⟨l, e⟩, w1⟩ := G
      simp only at hd
      obtain ⟨h1, h2, h3, h4, h5⟩ := hd
      have hw1 : Wf w1 := by
        refine ⟨?_, ?_, ?_, ?_⟩
        · intro i q r; rw [h2, h1]; exact h.valid i q r
        · intro i j p q r; rw [h2]; exact h.own i j p q r
        · intro id hid; rw [h3]
          rcases h4 id hid with hh | hh
          · exact h.old id hh
          · exact h.ids i q hq id (by simp [hh])
        · intro i q; rw [h2, h3]; exact h.ids i q
      have hres : ∀ m l, HasResult w m l → HasResult w1 m l := by
        rintro m l ⟨p, r, hp, hpc, hl⟩
        exact ⟨p, r, by rw [h2]; exact hp, hpc, by rw [h1]; exact hl⟩
      have huno : ∀ m, Unordered w m → Unordered w1 m := by
        rintro m ⟨p, hp⟩; exact ⟨p, by rw [h2]; exact hp⟩
      have hq1 : w1.qs[i]? = some q := by rw [h2]; exact hq
      cases e with
      | some e => exact ⟨hw1, hres, huno, by simp, by simp⟩
      | none =>
        simp only [World.newList]
        have hil : i < w1.qs.length := by
          have := (List.getElem?_eq_some_iff.1 hq1).1; exact this
        -- the world with a new cache for query i
        have setWf : ∀ (c : Cache) (fr : Nat), w1.fresh ≤ fr → (∀ r, c = .lst r → r = w1.lists.length) →
            (∀ id ∈ cacheIds (some c), id < fr) →
            Wf { w1 with lists := w1.lists ++ [l], fresh := fr, qs := w1.qs.set i { q with cache := some c } } := by
          intro c fr hfr hcl hci
          refine ⟨?_, ?_, ?_, ?_⟩
          · intro m p r hp hpc
            simp only [List.getElem?_set, List.length_append, List.length_singleton] at hp ⊢
            split at hp
            · simp only [hil, if_true, Option.some.injEq] at hp
              subst hp
              simp only [Option.some.injEq] at hpc
              rw [hcl r hpc]; omega
            · have := hw1.valid m p r hp hpc; omega
          · intro m n p p' r hp hp' hpc hpc'
            simp only [List.getElem?_set] at hp hp'
            split at hp <;> split at hp'
            · omega
            · simp only [hil, if_true, Option.some.injEq] at hp
              subst hp
              simp only [Option.some.injEq] at hpc
              have := hcl r hpc
              have := hw1.valid n p' r hp' hpc'
              omega
            · simp only [hil, if_true, Option.some.injEq] at hp'
              subst hp'
              simp only [Option.some.injEq] at hpc'
              have := hcl r hpc'
              have := hw1.valid m p r hp hpc
              omega
            · exact hw1.own m n p p' r hp hp' hpc hpc'
          · intro id hid
            have := hw1.old id hid; simp only; omega
          · intro m p hp id hid
            simp only [List.getElem?_set] at hp ⊢
            split at hp
            · simp only [hil, if_true, Option.some.injEq] at hp
              subst hp
              simp only [List.mem_append] at hid
              rcases hid with hid | hid
              · have := hw1.ids i q hq1 id (by simp [hid]); omega
              · exact hci id hid
            · have := hw1.ids m p hp id hid; omega
        have setRes : ∀ (c : Cache) (fr : Nat), ∀ m l', HasResult w m l' →
            HasResult { w1 with lists := w1.lists ++ [l], fresh := fr, qs := w1.qs.set i { q with cache := some c } } m l' := by
          intro c fr m l' hm
          obtain ⟨p, r, hp, hpc, hl⟩ := hres m l' hm
          have hmi : m ≠ i := by
            rintro rfl; rw [hq1] at hp; simp at hp; subst hp; simp [hc] at hpc
          refine ⟨p, r, ?_, hpc, ?_⟩
          · simp only [List.getElem?_set]; rw [if_neg (fun e => hmi e.symm)]; exact hp
          · simp only
            rw [List.getElem?_append_left (List.getElem?_eq_some_iff.1 hl).1]; exact hl
        have setUno : ∀ (c : Cache) (fr : Nat), ∀ m, Unordered w m →
            Unordered { w1 with lists := w1.lists ++ [l], fresh := fr, qs := w1.qs.set i { q with cache := some c } } m := by
          intro c fr m hm
          obtain ⟨p, hp, ho⟩ := huno m hm
          by_cases hmi : i = m
          · subst hmi
            rw [hq1] at hp; simp at hp; subst hp
            exact ⟨{ q with cache := some c }, by simp [List.getElem?_set, hil], ho⟩
          · exact ⟨p, by simp only [List.getElem?_set]; rw [if_neg hmi]; exact hp, ho⟩
        split
        · refine ⟨setWf (.lst w1.lists.length) w1.fresh (Nat.le_refl _) (by simp) (by simp [cacheIds]),
            setRes _ _, setUno _ _, by simp, by simp⟩
        · split
          · refine ⟨setWf (.revIter w1.fresh w1.lists.length) (w1.fresh + 1) (by omega) (by simp) (by simp [cacheIds]),
              setRes _ _, setUno _ _, by simp, ?_⟩
            intro id r hr
            simp only [Except.ok.injEq, Cache.revIter.injEq] at hr
            simp only; omega
          · refine ⟨setWf (.lst w1.lists.length) w1.fresh (Nat.le_refl _) (by simp) (by simp [cacheIds]),
              setRes _ _, setUno _ _, ?_, by simp⟩
            intro r hr
            simp only [Except.ok.injEq, Cache.lst.injEq] at hr
            subst hr
            exact ⟨{ q with cache := some (.lst w1.lists.length) }, by simp [List.getElem?_set, hil], rfl⟩

/-- The result of a query that has been read is answered without changing anything. -/
theorem resultCache_of_result (rx : Rx) {w : World} {i : Nat} {l : List Val} (h : HasResult w i l) :
    ∃ r, w.resultCache rx i = (.ok (.lst r), w) ∧ w.lists[r]? = some l ∧
      ∃ q, w.qs[i]? = some q ∧ q.cache = some (.lst r) := by
  obtain ⟨q, r, hq, hc, hl⟩ := h
  exact ⟨r, by simp [World.resultCache, hq, hc], hl, q, hq, hc⟩

theorem list_of_getElem? {w : World} {r : Nat} {l : List Val} (h : w.lists[r]? = some l) : w.list r = l := by
  simp [World.list, h]

theorem readCache_spec {w : World} (h : Wf w) (c : Cache) (hc : ∀ id r, c = .revIter id r → id < w.fresh) :
    Wf (readCache w c).2 ∧ (∀ m l, HasResult w m l → HasResult (readCache w c).2 m l) ∧
    (∀ m, Unordered w m → Unordered (readCache w c).2 m) ∧ (readCache w c).2.qs = w.qs ∧
    (readCache w c).2.lists = w.lists := by
  cases c with
  | lst r => exact ⟨h, fun _ _ hm => hm, fun _ hm => hm, rfl, rfl⟩
  | revIter id r =>
    simp only [readCache]
    split
    · exact ⟨h, fun _ _ hm => hm, fun _ hm => hm, rfl, rfl⟩
    · refine ⟨⟨h.valid, h.own, ?_, h.ids⟩, fun _ _ hm => hm, fun _ hm => hm, rfl, rfl⟩
      intro x hx
      simp only [List.mem_cons] at hx
      rcases hx with rfl | hx
      · exact hc _ r rfl
      · exact h.old x hx

theorem hasResult_newQ {w : World} {m : Nat} {l : List Val} (q : Q) (h : HasResult w m l) :
    HasResult (w.newQ q).2 m l := by
  obtain ⟨p, r, hp, hpc, hl⟩ := h
  refine ⟨p, r, ?_, hpc, hl⟩
  simp only [World.newQ]
  rw [List.getElem?_append_left (List.getElem?_eq_some_iff.1 hp).1]; exact hp

theorem hasResult_newList {w : World} {m : Nat} {l : List Val} (l' : List Val) (h : HasResult w m l) :
    HasResult (w.newList l').2 m l := by
  obtain ⟨p, r, hp, hpc, hl⟩ := h
  refine ⟨p, r, hp, hpc, ?_⟩
  simp only [World.newList]
  rw [List.getElem?_append_left (List.getElem?_eq_some_iff.1 hl).1]; exact hl

/-- Writing the list object of one query does not change the results of the others. -/
theorem hasResult_setList {w : World} (hw : Wf w) {m i r : Nat} {l l' : List Val} {q : Q} (hq : w.qs[i]? = some q)
    (hc : q.cache = some (.lst r)) (hmi : m ≠ i) (h : HasResult w m l) :
    HasResult { w with lists := w.lists.set r l' } m l := by
  obtain ⟨p, r', hp, hpc, hl⟩ := h
  refine ⟨p, r', hp, hpc, ?_⟩
  have : r ≠ r' := by rintro rfl; exact hmi (hw.own m i p q r hp hq hpc hc)
  simp only [List.getElem?_set]
  rw [if_neg this]; exact hl

theorem unionLoop_spec (rx : Rx) (js : List Nat) {w : World} (hw : Wf w) {i r : Nat}
    (hq : ∃ q, w.qs[i]? = some q ∧ q.cache = some (Cache.lst r)) :
    Wf (unionLoop rx r w js).2 ∧ (∀ m l, m ≠ i → HasResult w m l → HasResult (unionLoop rx r w js).2 m l) := by
  induction js generalizing w with
  | nil => exact ⟨hw, fun _ _ _ hm => hm⟩
  | cons j js ih =>
    rw [unionLoop]
    have hj := resultCache_spec rx hw j
    have hqk : ∃ q, (w.resultCache rx j).2.qs[i]? = some q ∧ q.cache = some (Cache.lst r) := by
      obtain ⟨q, h1, h2⟩ := hq
      have hr := hj.2.1 i _ ⟨q, r, h1, h2, List.getElem?_eq_getElem (hw.valid i q r h1 h2)⟩
      -- the cache of i is still r
      have : w.qs[i]? = some q := h1
      unfold World.resultCache
      split
      · exact ⟨q, h1, h2⟩
      · rename_i qj hqj
        split
        · exact ⟨q, h1, h2⟩
        · rename_i hcj
          have hij : j ≠ i := by rintro rfl; rw [h1] at hqj; simp at hqj; subst hqj; simp [h2] at hcj
          have hd := drain_world rx w qj.src
          generalize drain rx w qj.src = G at hd ⊢
          obtain ⟨⟨l, e⟩, w1⟩ := G
          simp only at hd
          cases e with
          | some e => exact ⟨q, by rw [hd.2.1]; exact h1, h2⟩
          | none =>
            simp only [World.newList]
            split
            · exact ⟨q, by simp only [List.getElem?_set, hd.2.1]; rw [if_neg hij]; exact h1, h2⟩
            · split <;> exact ⟨q, by simp only [List.getElem?_set, hd.2.1]; rw [if_neg hij]; exact h1, h2⟩
    generalize w.resultCache rx j = G at hj hqk ⊢
    obtain ⟨res, w1⟩ := G
    obtain ⟨k1, k2, k3, k4, k5⟩ := hj
    cases res with
    | error e => exact ⟨k1, fun m l _ hm => k2 m l hm⟩
    | ok c =>
      simp only at hqk ⊢
      have hc := readCache_spec k1 c (fun id r hcc => by subst hcc; exact k5 id r rfl)
      generalize readCache w1 c = G at hc ⊢
      obtain ⟨l, w2⟩ := G
      obtain ⟨c1, c2, c3, c4, c5⟩ := hc
      simp only at c1 c2 c3 c4 c5 ⊢
      obtain ⟨q, q1, q2⟩ := hqk
      have := ih (wf_setList c1 r (w2.list r ++ l)) ⟨q, by simp only [c4]; exact q1, q2⟩
      refine ⟨this.1, fun m l' hm hres => this.2 m l' hm ?_⟩
      exact hasResult_setList c1 (by rw [c4]; exact q1) q2 hm (c2 m l' (k2 m l' hres))

theorem keepLoop_spec (rx : Rx) (keep : Bool) (js : List Nat) {w : World} (hw : Wf w) (res : List Val) :
    Wf (keepLoop rx keep w res js).2 ∧ (∀ m l, HasResult w m l → HasResult (keepLoop rx keep w res js).2 m l) := by
  induction js generalizing w res with
  | nil => exact ⟨hw, fun _ _ hm => hm⟩
  | cons j js ih =>
    rw [keepLoop]
    have hj := resultCache_spec rx hw j
    generalize w.resultCache rx j = G at hj ⊢
    obtain ⟨r, w1⟩ := G
    obtain ⟨k1, k2, _⟩ := hj
    cases r with
    | error e => exact ⟨k1, k2⟩
    | ok c =>
      cases c with
      | lst r =>
        have := ih k1 (res.filter (fun x => pyIn x (w1.list r) == keep))
        exact ⟨this.1, fun m l hm => this.2 m l (k2 m l hm)⟩
      | revIter id r => exact ⟨k1, k2⟩

theorem wf_read (rx : Rx) {w : World} (h : Wf w) (i : Nat) : Wf (w.read rx i).2 := by
  have hj := resultCache_spec rx h i
  unfold World.read
  generalize w.resultCache rx i = G at hj ⊢
  obtain ⟨r, w1⟩ := G
  cases r with
  | error e => exact hj.1
  | ok c =>
    have hc := readCache_spec hj.1 c (fun id r hcc => by subst hcc; exact hj.2.2.2.2 id r rfl)
    simp only at hc ⊢
    generalize readCache w1 c = G at hc ⊢
    obtain ⟨l, w2⟩ := G
    exact hc.1

theorem resultCache_ids (rx : Rx) {w : World} (h : Wf w) {i : Nat} {id r : Nat}
    (hr : (w.resultCache rx i).1 = .ok (.revIter id r)) : id < (w.resultCache rx i).2.fresh :=
  (resultCache_spec rx h i).2.2.2.2 id r hr

theorem wf_union (rx : Rx) {w : World} (h : Wf w) (i : Nat) (js : List Nat) : Wf (w.union rx i js).2 := by
  unfold World.union
  split
  · exact h
  · rename_i q hq
    have hj := resultCache_spec rx h i
    generalize hg : w.resultCache rx i = G at hj ⊢
    obtain ⟨r, w1⟩ := G
    obtain ⟨k1, k2, k3, k4, k5⟩ := hj
    cases r with
    | error e => exact k1
    | ok c =>
      cases c with
      | revIter id r =>
        simp only
        split
        · exact wf_newQ k1 _ rfl (by simpa [srcIds] using k5 id r rfl)
        · have := resultCache_spec rx k1 (js.headD 0)
          generalize w1.resultCache rx (js.headD 0) = G at this ⊢
          obtain ⟨r, w2⟩ := G
          cases r <;> exact this.1
      | lst r =>
        simp only
        have hu := unionLoop_spec rx js k1 (k4 r rfl)
        generalize unionLoop rx r w1 js = G at hu ⊢
        obtain ⟨res, w2⟩ := G
        cases res with
        | error e => exact hu.1
        | ok u => exact wf_newQ hu.1 _ rfl (by simp [srcIds])

theorem wf_restrict (rx : Rx) (keep : Bool) {w : World} (h : Wf w) (i : Nat) (js : List Nat) :
    Wf (w.restrict rx keep i js).2 := by
  unfold World.restrict
  split
  · exact h
  · rename_i q hq
    have hj := resultCache_spec rx h i
    generalize hg : w.resultCache rx i = G at hj ⊢
    obtain ⟨r, w1⟩ := G
    obtain ⟨k1, k2, k3, k4, k5⟩ := hj
    cases r with
    | error e => exact k1
    | ok c =>
      cases c with
      | revIter id r => exact k1
      | lst r =>
        simp only
        have hu := keepLoop_spec rx keep js k1 (w1.list r)
        generalize keepLoop rx keep w1 (w1.list r) js = G at hu ⊢
        obtain ⟨res, w2⟩ := G
        cases res with
        | error e => exact hu.1
        | ok l =>
          simp only
          split
          · exact wf_newQ hu.1 _ rfl (by simp [srcIds])
          · exact wf_newQ (wf_newList hu.1 l) _ rfl (by simp [srcIds])

theorem wf_reversed (rx : Rx) {w : World} (h : Wf w) (i : Nat) : Wf (w.reversed rx i).2 := by
  unfold World.reversed
  split
  · exact h
  · have hj := resultCache_spec rx h i
    generalize w.resultCache rx i = G at hj ⊢
    obtain ⟨r, w1⟩ := G
    cases r with
    | error e => exact hj.1
    | ok c =>
      cases c with
      | revIter id r => exact hj.1
      | lst r => exact wf_newQ (wf_fresh hj.1) _ rfl (by simp [srcIds])

theorem wf_step (rx : Rx) {w : World} (h : Wf w) (op : QOp) : Wf (w.step rx op) := by
  cases op with
  | query l d => exact wf_newQ (wf_newList h l) _ rfl (by simp [srcIds])
  | refine i f d =>
    simp only [World.step]
    split
    · rename_i k w' hr; exact wf_refine h hr
    · exact h
  | read i => exact wf_read rx h i
  | len i =>
    have hj := resultCache_spec rx h i
    simp only [World.step, World.len]
    generalize w.resultCache rx i = G at hj ⊢
    obtain ⟨r, w1⟩ := G
    cases r with
    | error e => exact hj.1
    | ok c => cases c <;> exact hj.1
  | item i k =>
    have hj := resultCache_spec rx h i
    simp only [World.step, World.getItem]
    split
    · exact h
    · generalize w.resultCache rx i = G at hj ⊢
      obtain ⟨r, w1⟩ := G
      cases r with
      | error e => exact hj.1
      | ok c =>
        cases c with
        | lst r => simp only; split <;> exact hj.1
        | revIter id r => exact hj.1
  | union i js => exact wf_union rx h i js
  | restrict k i js => exact wf_restrict rx k h i js
  | reversed i => exact wf_reversed rx h i
  | orderBy i r =>
    simp only [World.step]
    unfold World.orderBy
    cases hq : w.qs[i]? with
    | none => exact h
    | some q => exact wf_newQ h _ rfl (fun id hi => h.ids i q hq id (by simp [hi]))

theorem wf_run (rx : Rx) (ops : List QOp) : Wf (World.run rx ops) := by
  unfold World.run
  generalize hw : (⟨[], [], 0, []⟩ : World) = w
  have h : Wf w := hw ▸ wf_empty
  clear hw
  induction ops generalizing w with
  | nil => exact h
  | cons op ops ih => exact ih _ (wf_step rx h op)

/-- Reading a query that has been read. -/
theorem read_of_result (rx : Rx) {w : World} {i : Nat} {l : List Val} (h : HasResult w i l) :
    w.read rx i = (.ok l, w) := by
  obtain ⟨r, h1, h2, _⟩ := resultCache_of_result rx h
  simp [World.read, h1, readCache, list_of_getElem? h2]

/-- Reading a new query over a list object. -/
theorem read_list (rx : Rx) {w : World} {i r : Nat} {d : Bool} (h : w.qs[i]? = some ⟨.lst r, d, false, false, none⟩) :
    (w.read rx i).1 = .ok (w.list r) ∧ HasResult (w.read rx i).2 i (w.list r) := by
  have hil := (List.getElem?_eq_some_iff.1 h).1
  constructor
  · simp [World.read, World.resultCache, h, drain, World.newList, readCache, World.list]
  · simp only [World.read, World.resultCache, h, drain, World.newList, readCache, Bool.false_eq_true, if_false]
    exact ⟨⟨.lst r, d, false, false, some (.lst w.lists.length)⟩, w.lists.length,
      by simp [List.getElem?_set, hil], rfl, by simp⟩

/-! ### distinct -/

/-- What equality and hashing see of a hashable value. -/
def code : Val → Val
  | .bool b => .int (if b then 1 else 0)
  | v => v

theorem same_iff {x y : Val} (hx : hashable x = true) (hy : hashable y = true) :
    same x y = true ↔ code x = code y := by
  cases x <;> cases y <;> simp_all [same, hashable, pyEq, code, num] <;> grind

theorem mem_firsts {l : List Val} {x : Val} (h : x ∈ firsts l) : x ∈ l := by
  induction l with
  | nil => simp [firsts] at h
  | cons y l ih =>
    simp only [firsts, List.mem_cons, List.mem_filter] at h
    rcases h with rfl | h
    · simp
    · simp [ih h.1]

theorem pyIn_iff {x : Val} {l : List Val} (hx : hashable x = true) (hl : ∀ y ∈ l, hashable y = true) :
    pyIn x l = true ↔ ∃ y ∈ l, code x = code y := by
  unfold pyIn
  rw [List.any_eq_true]
  constructor
  · rintro ⟨y, hy, h⟩; exact ⟨y, hy, (same_iff hx (hl y hy)).1 h⟩
  · rintro ⟨y, hy, h⟩; exact ⟨y, hy, (same_iff hx (hl y hy)).2 h⟩

theorem select_firsts (rx : Rx) (objs : List Val) (f : Filter) (seen r : List Val)
    (hh : ∀ o ∈ r, hashable o = true) (hs : ∀ o ∈ seen, hashable o = true)
    (h : select rx false f seen objs = (r, none)) :
    select rx true f seen objs = ((firsts r).filter (fun x => !pyIn x seen), none) := by
  induction objs generalizing f seen r with
  | nil => simp [select] at h ⊢; simp [h, firsts]
  | cons o objs ih =>
    rw [select] at h ⊢
    split
    · rename_i ht; rw [if_pos ht] at h; exact ih f seen r hh hs h
    · rename_i ht; rw [if_neg ht] at h
      generalize f.call rx o = G at h ⊢
      obtain ⟨res, g⟩ := G
      cases res with
      | error e => simp at h
      | ok b =>
        cases b with
        | false => exact ih g seen r hh hs h
        | true =>
          simp only [Bool.false_eq_true, if_false, if_true] at h ⊢
          -- the plain selection does not look at `seen`
          have indep : ∀ (objs : List Val) (f : Filter) (s t : List Val),
              select rx false f s objs = select rx false f t objs := by
            intro objs
            induction objs with
            | nil => intros; rfl
            | cons o objs ih =>
              intro f s t
              rw [select, select]
              split
              · exact ih f s t
              · generalize f.call rx o = G
                obtain ⟨res, g⟩ := G
                cases res with
                | error e => rfl
                | ok b => cases b <;> simp [ih g s t]
          generalize hsl : select rx false g seen objs = S at h
          obtain ⟨r', e⟩ := S
          simp only [Prod.mk.injEq] at h
          obtain ⟨rfl, rfl⟩ := h
          have hho := hh o (by simp)
          have hhr : ∀ x ∈ r', hashable x = true := fun x hx => hh x (by simp [hx])
          rw [if_neg (by simp [hho])]
          have hhf : ∀ x ∈ firsts r', hashable x = true := fun x hx => hhr x (mem_firsts hx)
          split
          · rename_i hin
            rw [ih g seen r' hhr hs hsl]
            simp only [firsts, List.filter_cons, hin, Bool.not_true, Bool.false_eq_true, if_false,
              List.filter_filter, Prod.mk.injEq, and_true]
            apply List.filter_congr
            intro x hx
            cases hp : pyIn x seen with
            | true => simp
            | false =>
              simp only [Bool.not_false, Bool.true_and, Bool.true_eq, Bool.not_eq_true']
              cases hsm : same x o with
              | false => rfl
              | true =>
                obtain ⟨y, hy, hc⟩ := (pyIn_iff hho hs).1 hin
                have := (same_iff (hhf x hx) hho).1 hsm
                have : pyIn x seen = true := (pyIn_iff (hhf x hx) hs).2 ⟨y, hy, by rw [this, hc]⟩
                rw [hp] at this; simp at this
          · rename_i hin
            have hs' : ∀ y ∈ seen ++ [o], hashable y = true := by
              intro y hy; simp only [List.mem_append, List.mem_singleton] at hy
              rcases hy with hy | rfl
              · exact hs y hy
              · exact hho
            rw [ih g (seen ++ [o]) r' hhr hs' (by rw [indep objs g (seen ++ [o]) seen]; exact hsl)]
            simp only [firsts, List.filter_cons, hin, Bool.not_false, if_true,
              List.filter_filter, Prod.mk.injEq, and_true, List.cons.injEq, true_and]
            apply List.filter_congr
            intro x hx
            simp only [pyIn, List.any_append, List.any_cons, List.any_nil, Bool.or_false, same, Bool.not_or]

theorem firsts_spec (l : List Val) (hl : ∀ x ∈ l, hashable x = true) :
    (firsts l).Sublist l ∧ (firsts l).Pairwise (fun x y => same y x = false) ∧
    (∀ x ∈ l, ∃ y ∈ firsts l, same x y = true) := by
  induction l with
  | nil => simp [firsts]
  | cons x l ih =>
    obtain ⟨h1, h2, h3⟩ := ih (fun y hy => hl y (by simp [hy]))
    refine ⟨?_, ?_, ?_⟩
    · exact (List.filter_sublist.trans h1).cons₂ x
    · rw [firsts, List.pairwise_cons]
      refine ⟨?_, h2.sublist List.filter_sublist⟩
      intro y hy
      simpa using (List.mem_filter.1 hy).2
    · intro y hy
      rcases List.mem_cons.1 hy with rfl | hy'
      · exact ⟨y, by simp [firsts], by simp [same]⟩
      · obtain ⟨z, hz, hs⟩ := h3 y hy'
        cases hzx : same z x with
        | false => exact ⟨z, by simp [firsts, hz, hzx], hs⟩
        | true =>
          refine ⟨x, by simp [firsts], ?_⟩
          have hhz := hl z (by simp [mem_firsts hz])
          rw [same_iff (hl y hy) (hl x (by simp)), (same_iff (hl y hy) hhz).1 hs,
            (same_iff hhz (hl x (by simp))).1 hzx]

end Verif.Query
