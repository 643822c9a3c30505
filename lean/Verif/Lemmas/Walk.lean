import Verif.Spec.Walk
/-
Lemmas for C247-C252.
-/
namespace Verif.Walk

/-- `f` assigns `h` of the item where `h` gives one. -/
structure Local (f : Func) (h : Key → Val → Res Val) : Prop where
  list : ∀ {l : List Val} {i lv v w}, l[i]? = some v → h (.pos i) v = .ok w → f.onList l i lv = .ok (l.set i w)
  dict : ∀ {m : AList Str Val} {k lv v w}, AList.get? m k = some v → h (.name k) v = .ok w →
    f.onDict m k lv = .ok (AList.set m k w)

theorem set_self_list {l : List Val} {i : Nat} {v : Val} (h : l[i]? = some v) : l.set i v = l := by
  apply List.ext_getElem?
  intro j
  rw [List.getElem?_set]
  by_cases e : i = j
  · subst e
    have hi : i < l.length := by
      rcases Nat.lt_or_ge i l.length with hi | hi
      · exact hi
      · rw [List.getElem?_eq_none hi] at h; cases h
    rw [if_pos rfl, if_pos hi, h]
  · simp [e]

theorem get_mid {d r : AList Str Val} {k : Str} {v : Val} (h : k ∉ AList.keys d) :
    AList.get? (d ++ (k, v) :: r) k = some v := by
  rw [AList.get?_append, AList.get?_eq_none.2 h]
  simp [AList.get?]

theorem set_mid {d r : AList Str Val} {k : Str} {v x : Val} (h : k ∉ AList.keys d) :
    AList.set (d ++ (k, v) :: r) k x = d ++ (k, x) :: r := by
  induction d with
  | nil => simp [AList.set]
  | cons p d ih =>
    obtain ⟨a, b⟩ := p
    rw [AList.keys_cons, List.mem_cons, not_or] at h
    have hne : a ≠ k := fun e => h.1 e.symm
    simp only [List.cons_append, AList.set, hne, if_false]
    rw [ih h.2]

theorem set_self_dict {m : AList Str Val} {k : Str} {v : Val} (h : AList.get? m k = some v) :
    AList.set m k v = m := by
  induction m with
  | nil => cases h
  | cons p m ih =>
    obtain ⟨a, b⟩ := p
    by_cases e : a = k
    · subst e
      simp only [AList.get?, if_true, Option.some.injEq] at h
      simp [AList.set, h]
    · simp only [AList.get?, e, if_false] at h
      simp only [AList.set, e, if_false]
      rw [ih h]

theorem local_look : Local look (fun _ v => .ok v) where
  list h e := by cases e; rw [set_self_list h]; rfl
  dict h e := by cases e; rw [set_self_dict h]; rfl

theorem local_assign (h : Key → Val → Res Val) : Local (assign h) h where
  list a e := by simp only [assign]; rw [a]; simp only [e]
  dict a e := by simp only [assign]; rw [a]; simp only [e]

/-- `_scope_refs` in terms of an item. -/
def scopeAt (base : Str) : Key → Val → Res Val
  | .pos _, v => .ok v
  | .name _, v => scopeRef base v

theorem local_scope (base : Str) : Local (scopeRefsAt base) (scopeAt base) where
  list h e := by simp only [scopeAt, Except.ok.injEq] at e; subst e; rw [set_self_list h]; rfl
  dict a e := by simp only [scopeAt] at e; simp only [scopeRefsAt]; rw [a]; simp only [e]

theorem mid_get {d r : List Val} {a : Val} : (d ++ a :: r)[d.length]? = some a := by
  simp

theorem mid_set {d r : List Val} {a x : Val} : (d ++ a :: r).set d.length x = d ++ x :: r := by
  simp

section
variable {f : Func} {h : Key → Val → Res Val}

/-- The walk ends, at any level. -/
def Ends (f : Func) (v w : Val) : Prop := ∀ lv, ∃ N c, ∀ n, N ≤ n → walk f n lv v = .ok (w, c)

theorem list_loop (hf : Local f h) (new : Nat → Val) (lv : Nat) :
    ∀ (r wr d : List Val), wr.length = r.length →
      (∀ j a, r[j]? = some a → h (.pos (d.length + j)) a = .ok (new (d.length + j))) →
      (∀ j b, wr[j]? = some b → Ends f (new (d.length + j)) b) →
      ∃ N c, ∀ n, N ≤ n → walkList f n lv d.length (d ++ r) = .ok (d ++ wr, c) := by
  intro r
  induction r with
  | nil =>
    intro wr d hl _ _
    have : wr = [] := by cases wr with
      | nil => rfl
      | cons x y => simp at hl
    subst this
    refine ⟨1, [], fun n hn => ?_⟩
    obtain ⟨n, rfl⟩ : ∃ k, n = k + 1 := ⟨n - 1, by omega⟩
    rw [walkList, if_neg (by simp)]
  | cons a r ih =>
    intro wr d hl hs he
    cases wr with
    | nil => simp at hl
    | cons b wr =>
      have hd : (d ++ [b]).length = d.length + 1 := by simp
      obtain ⟨N1, c1, h1⟩ := he 0 b rfl (lv + 1)
      obtain ⟨N2, c2, h2⟩ := ih wr (d ++ [b]) (by simpa using hl)
        (fun j x hx => by
          have := hs (j + 1) x (by simpa using hx)
          rw [hd]
          rwa [show d.length + 1 + j = d.length + (j + 1) by omega])
        (fun j x hx => by
          have := he (j + 1) x (by simpa using hx)
          rw [hd]
          rwa [show d.length + 1 + j = d.length + (j + 1) by omega])
      refine ⟨max N1 N2 + 1, (.list (d ++ a :: r), .pos d.length, lv) :: (c1 ++ c2), fun n hn => ?_⟩
      obtain ⟨n, rfl⟩ : ∃ k, n = k + 1 := ⟨n - 1, by omega⟩
      have h1' := h1 n (by omega)
      have h2' := h2 n (by omega)
      have hset := hs 0 a rfl
      simp only [Nat.add_zero] at hset h1'
      rw [walkList, if_pos (by simp), hf.list mid_get hset]
      simp only [mid_set, mid_get, h1']
      rw [hd, List.append_assoc, List.append_assoc] at h2'
      simp only [List.singleton_append] at h2'
      rw [h2']

theorem dict_loop (hf : Local f h) (new : Str → Val) (lv : Nat) :
    ∀ (r wr d : AList Str Val), AList.keys wr = AList.keys r → (AList.keys (d ++ r)).Nodup →
      (∀ k a, (k, a) ∈ r → h (.name k) a = .ok (new k)) →
      (∀ k b, (k, b) ∈ wr → Ends f (new k) b) →
      ∃ N c, ∀ n, N ≤ n → walkDict f n lv (AList.keys r) (d ++ r) = .ok (d ++ wr, c) := by
  intro r
  induction r with
  | nil =>
    intro wr d hl _ _ _
    have : wr = [] := by cases wr with
      | nil => rfl
      | cons x y => simp [AList.keys] at hl
    subst this
    refine ⟨1, [], fun n hn => ?_⟩
    obtain ⟨n, rfl⟩ : ∃ k, n = k + 1 := ⟨n - 1, by omega⟩
    rw [AList.keys_nil, walkDict]
  | cons p r ih =>
    obtain ⟨k, a⟩ := p
    intro wr d hl hn hs he
    cases wr with
    | nil => simp [AList.keys] at hl
    | cons q wr =>
      obtain ⟨k', b⟩ := q
      rw [AList.keys_cons, AList.keys_cons, List.cons.injEq] at hl
      obtain ⟨hk, hl⟩ := hl
      simp only at hk
      subst hk
      have hnd : k' ∉ AList.keys d := by
        simp only [AList.keys, List.map_append, List.map_cons, List.nodup_append] at hn
        exact fun hm => hn.2.2 k' hm k' (by simp) rfl
      obtain ⟨N1, c1, h1⟩ := he k' b (by simp) (lv + 1)
      obtain ⟨N2, c2, h2⟩ := ih wr (d ++ [(k', b)]) hl
        (by simpa [AList.keys] using hn)
        (fun k x hx => hs k x (List.mem_cons_of_mem _ hx))
        (fun k x hx => he k x (List.mem_cons_of_mem _ hx))
      refine ⟨max N1 N2 + 1, (.dict (d ++ (k', a) :: r), .name k', lv) :: (c1 ++ c2), fun n hn => ?_⟩
      obtain ⟨n, rfl⟩ : ∃ k, n = k + 1 := ⟨n - 1, by omega⟩
      have h1' := h1 n (by omega)
      have h2' := h2 n (by omega)
      rw [AList.keys_cons, walkDict, hf.dict (get_mid hnd) (hs k' a (by simp))]
      simp only [set_mid hnd, get_mid hnd, h1']
      rw [List.append_assoc, List.append_assoc] at h2'
      simp only [List.singleton_append] at h2'
      rw [h2']

theorem through_ends (hf : Local f h) {v w : Val} (t : Through h v w) : Ends f v w := by
  induction t with
  | @atom v a =>
    intro lv
    refine ⟨1, [], fun n hn => ?_⟩
    obtain ⟨n, rfl⟩ : ∃ k, n = k + 1 := ⟨n - 1, by omega⟩
    cases v with
    | list l => exact absurd rfl (a.1 l)
    | dict m => exact absurd rfl (a.2 m)
    | _ => rw [walk] <;> simp
  | @list l w len new set each ih =>
    intro lv
    obtain ⟨N, c, hN⟩ := list_loop hf new lv l w [] len (by simpa using set) (by simpa using ih)
    refine ⟨N + 1, c, fun n hn => ?_⟩
    obtain ⟨n, rfl⟩ : ∃ k, n = k + 1 := ⟨n - 1, by omega⟩
    have := hN n (by omega)
    simp only [List.length_nil, List.nil_append] at this
    rw [walk, this]
  | @dict m w nodup keys new set each ih =>
    intro lv
    have wfw : AList.WF w := by unfold AList.WF AList.keys; rw [keys]; exact nodup
    obtain ⟨N, c, hN⟩ := dict_loop hf new lv m w [] keys (by simpa [AList.keys] using nodup)
      (fun k a hm => set k a (AList.get?_of_mem nodup hm)) (fun k b hm => ih k b (AList.get?_of_mem wfw hm))
    refine ⟨N + 1, c, fun n hn => ?_⟩
    obtain ⟨n, rfl⟩ : ∃ k, n = k + 1 := ⟨n - 1, by omega⟩
    have := hN n (by omega)
    simp only [List.nil_append] at this
    rw [walk, this]

end

/-! ### Calls -/

/-- The call for a position, from a level on. -/
def CallAt (lv : Nat) (v : Val) (p : List Key) (c : Call) : Prop :=
  ∃ q k, p = q ++ [k] ∧ At v q c.1 ∧ c.2.1 = k ∧ c.2.2 = lv + q.length

/-- No position comes after one below it, or twice. -/
def Ordered (ps : List (List Key)) : Prop := ps.Pairwise (fun p q => ¬ q <+: p)

theorem ordered_cons {k : Key} {tr rest : List (List Key × Call)} {c : Call}
    (h0 : ∀ t ∈ tr, t.1 ≠ []) (h1 : Ordered (tr.map Prod.fst)) (h2 : Ordered (rest.map Prod.fst))
    (h3 : ∀ t ∈ rest, ∃ k' q, t.1 = k' :: q ∧ k' ≠ k) :
    Ordered ((([k], c) :: (tr.map (fun t => (k :: t.1, t.2)) ++ rest)).map Prod.fst) := by
  unfold Ordered at *
  rw [List.map_cons, List.map_append, List.pairwise_cons, List.pairwise_append]
  refine ⟨fun q hq => ?_, ?_, h2, fun p hp q hq => ?_⟩
  · rcases List.mem_append.1 hq with hq | hq
    · simp only [List.map_map, List.mem_map, Function.comp] at hq
      obtain ⟨t, ht, rfl⟩ := hq
      have := h0 t ht
      intro hp
      obtain ⟨s, hs⟩ := hp
      simp only [List.cons_append, List.cons.injEq, true_and, List.append_eq_nil_iff] at hs
      exact this hs.1
    · obtain ⟨t, ht, rfl⟩ := List.mem_map.1 hq
      obtain ⟨k', q', e, hne⟩ := h3 t ht
      rintro ⟨s, hs⟩
      rw [e] at hs
      simp only [List.cons_append, List.cons.injEq] at hs
      exact hne hs.1
  · rw [List.map_map, List.pairwise_map]
    rw [List.pairwise_map] at h1
    refine h1.imp ?_
    intro a b hab hp
    simp only [Function.comp, List.cons_prefix_cons, true_and] at hp
    exact hab hp
  · simp only [List.map_map, List.mem_map, Function.comp] at hp
    obtain ⟨t, ht, rfl⟩ := hp
    obtain ⟨t', ht', rfl⟩ := List.mem_map.1 hq
    obtain ⟨k', q', e, hne⟩ := h3 t' ht'
    rintro ⟨s, hs⟩
    rw [e] at hs
    simp only [List.cons_append, List.cons.injEq] at hs
    exact hne hs.1

theorem below_append {q : List Key} {a b : List (List Key)} : below q (a ++ b) = below q a ++ below q b := by
  simp [below]

theorem below_other {q : List Key} {k : Key} {ps : List (List Key)} (h : ∀ p ∈ ps, ∃ k' r, p = k' :: r ∧ k' ≠ k) :
    below (k :: q) ps = [] := by
  unfold below
  rw [List.filter_eq_nil_iff]
  intro p hp
  obtain ⟨k', r, rfl, hne⟩ := h p hp
  cases r with
  | nil => simp
  | cons x r => simp [List.dropLast_cons_of_ne_nil, hne]

theorem below_cons_map {q : List Key} {k : Key} {ps : List (List Key)} (h : ∀ p ∈ ps, p ≠ []) :
    below (k :: q) (ps.map (k :: ·)) = (below q ps).map (k :: ·) := by
  unfold below
  rw [List.filter_map]
  congr 1
  apply List.filter_congr
  intro p hp
  have := h p hp
  simp [Function.comp, List.dropLast_cons_of_ne_nil this, this]

theorem below_nil_map {k : Key} {ps : List (List Key)} (h : ∀ p ∈ ps, p ≠ []) :
    below [] (ps.map (k :: ·)) = [] := by
  unfold below
  rw [List.filter_eq_nil_iff]
  intro p hp
  obtain ⟨p', hp', rfl⟩ := List.mem_map.1 hp
  simp [List.dropLast_cons_of_ne_nil (h p' hp')]

/-- One more item in front. -/
theorem below_step {k : Key} {tr rest : List (List Key × Call)} {c : Call} (h0 : ∀ t ∈ tr, t.1 ≠ [])
    (h3 : ∀ t ∈ rest, ∃ k' q, t.1 = k' :: q ∧ k' ≠ k) :
    let ps := (([k], c) :: (tr.map (fun t => (k :: t.1, t.2)) ++ rest)).map Prod.fst
    below [] ps = [k] :: below [] (rest.map Prod.fst) ∧
    (∀ q, below (k :: q) ps = (below q (tr.map Prod.fst)).map (k :: ·)) ∧
    (∀ k' q, k' ≠ k → below (k' :: q) ps = below (k' :: q) (rest.map Prod.fst)) := by
  intro ps
  have hps : ps = [[k]] ++ ((tr.map Prod.fst).map (k :: ·) ++ rest.map Prod.fst) := by
    simp [ps, Function.comp_def]
  have h0' : ∀ p ∈ tr.map Prod.fst, p ≠ [] := by
    intro p hp
    obtain ⟨t, ht, rfl⟩ := List.mem_map.1 hp
    exact h0 t ht
  rw [hps]
  refine ⟨?_, fun q => ?_, fun k' q hne => ?_⟩
  · rw [below_append, below_append, below_nil_map h0']
    rfl
  · rw [below_append, below_append, below_cons_map h0', below_other (ps := rest.map Prod.fst)]
    · have : below (k :: q) [[k]] = [] := by simp [below]
      rw [this]; simp
    · intro p hp
      obtain ⟨t, ht, rfl⟩ := List.mem_map.1 hp
      exact h3 t ht
  · rw [below_append, below_append, below_other (ps := (tr.map Prod.fst).map (k :: ·))]
    · have : below (k' :: q) [[k]] = [] := by simp [below]
      rw [this]; simp
    · intro p hp
      obtain ⟨p', _, rfl⟩ := List.mem_map.1 hp
      exact ⟨k, p', rfl, fun e => hne e.symm⟩

/-- A walk that changes nothing, with the position of each call. -/
def Seen (v : Val) : Prop := ∀ lv, ∃ (N : Nat) (tr : List (List Key × Call)), (∀ t ∈ tr, CallAt lv v t.1 t.2) ∧ Ordered (tr.map Prod.fst) ∧
  (∀ p, p ∈ tr.map Prod.fst ↔ p ≠ [] ∧ ∃ x, At v p x) ∧
  (∀ q x, At v q x → below q (tr.map Prod.fst) = (keysOf x).map (q ++ [·])) ∧
  ∀ n, N ≤ n → walk look n lv v = .ok (v, tr.map Prod.snd)

theorem look_list (lv : Nat) (l : List Val) :
    ∀ (r d : List Val), d ++ r = l → (∀ a ∈ r, Seen a) →
      ∃ (N : Nat) (tr : List (List Key × Call)), (∀ t ∈ tr, CallAt lv (.list l) t.1 t.2) ∧ Ordered (tr.map Prod.fst) ∧
        (∀ p, p ∈ tr.map Prod.fst ↔ ∃ j a q x, d.length ≤ j ∧ l[j]? = some a ∧ p = .pos j :: q ∧ At a q x) ∧
        below [] (tr.map Prod.fst) = (List.range' d.length r.length).map (fun j => [.pos j]) ∧
        (∀ j a q x, d.length ≤ j → l[j]? = some a → At a q x →
          below (.pos j :: q) (tr.map Prod.fst) = (keysOf x).map (.pos j :: q ++ [·])) ∧
        ∀ n, N ≤ n → walkList look n lv d.length l = .ok (l, tr.map Prod.snd) := by
  intro r
  induction r with
  | nil =>
    intro d hd _
    rw [List.append_nil] at hd
    subst hd
    refine ⟨1, [], by simp, by simp [Ordered], fun p => ⟨by simp, ?_⟩, by simp [below],
      fun j a q x hj ha _ => ?_, fun n hn => ?_⟩
    · rintro ⟨j, a, q, x, hj, ha, _⟩
      rw [List.getElem?_eq_none hj] at ha; cases ha
    · rw [List.getElem?_eq_none hj] at ha; cases ha
    · obtain ⟨n, rfl⟩ : ∃ k, n = k + 1 := ⟨n - 1, by omega⟩
      rw [walkList, if_neg (by simp)]; rfl
  | cons a r ih =>
    intro d hd hs
    have hget : l[d.length]? = some a := by rw [← hd]; exact mid_get
    obtain ⟨N1, t1, c1, o1, m1, b1, h1⟩ := hs a (by simp) (lv + 1)
    obtain ⟨N2, t2, c2, o2, m2, b2, b2', h2⟩ := ih (d ++ [a]) (by simpa using hd)
      (fun b hb => hs b (List.mem_cons_of_mem _ hb))
    have hlen : (d ++ [a]).length = d.length + 1 := by simp
    rw [hlen] at m2 b2 b2' h2
    have hn1 : ∀ t ∈ t1, t.1 ≠ [] := fun t ht => ((m1 t.1).1 (List.mem_map_of_mem ht)).1
    have hn2 : ∀ t ∈ t2, ∃ k' q, t.1 = k' :: q ∧ k' ≠ Key.pos d.length := by
      intro t ht
      obtain ⟨j, b, q, x, hj, _, e, _⟩ := (m2 t.1).1 (List.mem_map_of_mem ht)
      exact ⟨_, q, e, fun e' => by simp only [Key.pos.injEq] at e'; omega⟩
    obtain ⟨s1, s2, s3⟩ := below_step (c := (.list l, .pos d.length, lv)) hn1 hn2
    refine ⟨max N1 N2 + 1, ([.pos d.length], (.list l, .pos d.length, lv)) ::
      (t1.map (fun t => (.pos d.length :: t.1, t.2)) ++ t2), ?_, ?_, ?_, ?_, ?_, ?_⟩
    · intro t ht
      rcases List.mem_cons.1 ht with rfl | ht
      · exact ⟨[], .pos d.length, rfl, .here _, rfl, rfl⟩
      · rcases List.mem_append.1 ht with ht | ht
        · obtain ⟨t', ht', rfl⟩ := List.mem_map.1 ht
          obtain ⟨q, k, e1, e2, e3, e4⟩ := c1 t' ht'
          refine ⟨.pos d.length :: q, k, by simp [e1], .list hget e2, e3, ?_⟩
          simp only [List.length_cons]; omega
        · exact c2 t ht
    · exact ordered_cons hn1 o1 o2 hn2
    · intro p
      rw [List.map_cons, List.mem_cons, List.map_append, List.mem_append, m2 p, List.map_map]
      constructor
      · rintro (rfl | hp | ⟨j, b, q, x, hj, hb, e, hx⟩)
        · exact ⟨d.length, a, [], a, Nat.le_refl _, hget, rfl, .here a⟩
        · obtain ⟨t, ht, rfl⟩ := List.mem_map.1 hp
          obtain ⟨_, x, hx⟩ := (m1 t.1).1 (List.mem_map_of_mem ht)
          exact ⟨d.length, a, t.1, x, Nat.le_refl _, hget, rfl, hx⟩
        · exact ⟨j, b, q, x, by omega, hb, e, hx⟩
      · rintro ⟨j, b, q, x, hj, hb, rfl, hx⟩
        by_cases e : j = d.length
        · subst e
          rw [hget] at hb
          cases hb
          by_cases hq : q = []
          · subst hq; exact .inl rfl
          · refine .inr (.inl ?_)
            obtain ⟨t, ht, et⟩ := List.mem_map.1 ((m1 q).2 ⟨hq, x, hx⟩)
            exact List.mem_map.2 ⟨t, ht, by simp [← et]⟩
        · exact .inr (.inr ⟨j, b, q, x, by omega, hb, rfl, hx⟩)
    · rw [s1, b2]
      simp [List.range'_succ]
    · intro j b q x hj hb hx
      by_cases e : j = d.length
      · subst e
        rw [hget] at hb
        cases hb
        rw [s2, b1 q x hx]
        simp [Function.comp_def]
      · rw [s3 _ _ (by simp only [ne_eq, Key.pos.injEq]; exact e)]
        exact b2' j b q x (by omega) hb hx
    · intro n hn
      obtain ⟨n, rfl⟩ : ∃ k, n = k + 1 := ⟨n - 1, by omega⟩
      have hlt : d.length < l.length := by rw [← hd]; simp
      rw [walkList, if_pos hlt]
      simp only [look]
      rw [hget]
      simp only
      have h1' := h1 n (by omega)
      have h2' := h2 n (by omega)
      simp only [look] at h1' h2'
      rw [h1']
      simp only [set_self_list hget]
      rw [h2']
      simp [Function.comp_def]

theorem look_dict (lv : Nat) (m : AList Str Val) (wf : (AList.keys m).Nodup) :
    ∀ (r d : AList Str Val), d ++ r = m → (∀ p ∈ r, Seen p.2) →
      ∃ (N : Nat) (tr : List (List Key × Call)), (∀ t ∈ tr, CallAt lv (.dict m) t.1 t.2) ∧ Ordered (tr.map Prod.fst) ∧
        (∀ p, p ∈ tr.map Prod.fst ↔ ∃ k a q x, (k, a) ∈ r ∧ p = .name k :: q ∧ At a q x) ∧
        below [] (tr.map Prod.fst) = r.map (fun p => [.name p.1]) ∧
        (∀ k a q x, (k, a) ∈ r → At a q x →
          below (.name k :: q) (tr.map Prod.fst) = (keysOf x).map (.name k :: q ++ [·])) ∧
        ∀ n, N ≤ n → walkDict look n lv (AList.keys r) m = .ok (m, tr.map Prod.snd) := by
  intro r
  induction r with
  | nil =>
    intro d hd _
    refine ⟨1, [], by simp, by simp [Ordered], fun p => by simp, by simp [below], by simp, fun n hn => ?_⟩
    obtain ⟨n, rfl⟩ : ∃ k, n = k + 1 := ⟨n - 1, by omega⟩
    rw [AList.keys_nil, walkDict]; rfl
  | cons p r ih =>
    obtain ⟨k, a⟩ := p
    intro d hd hs
    have hget : AList.get? m k = some a := AList.get?_of_mem wf (by rw [← hd]; simp)
    have hkr : k ∉ AList.keys r := by
      rw [← hd] at wf
      simp only [AList.keys, List.map_append, List.map_cons, List.nodup_append, List.nodup_cons] at wf
      exact wf.2.1.1
    obtain ⟨N1, t1, c1, o1, m1, b1, h1⟩ := hs (k, a) (by simp) (lv + 1)
    obtain ⟨N2, t2, c2, o2, m2, b2, b2', h2⟩ := ih (d ++ [(k, a)]) (by simpa using hd)
      (fun b hb => hs b (List.mem_cons_of_mem _ hb))
    have hn1 : ∀ t ∈ t1, t.1 ≠ [] := fun t ht => ((m1 t.1).1 (List.mem_map_of_mem ht)).1
    have hn2 : ∀ t ∈ t2, ∃ k' q, t.1 = k' :: q ∧ k' ≠ Key.name k := by
      intro t ht
      obtain ⟨k', b, q, x, hm, e, _⟩ := (m2 t.1).1 (List.mem_map_of_mem ht)
      refine ⟨_, q, e, fun e' => ?_⟩
      simp only [Key.name.injEq] at e'
      subst e'
      exact hkr (List.mem_map.2 ⟨_, hm, rfl⟩)
    obtain ⟨s1, s2, s3⟩ := below_step (c := (.dict m, .name k, lv)) hn1 hn2
    refine ⟨max N1 N2 + 1, ([.name k], (.dict m, .name k, lv)) ::
      (t1.map (fun t => (.name k :: t.1, t.2)) ++ t2), ?_, ?_, ?_, ?_, ?_, ?_⟩
    · intro t ht
      rcases List.mem_cons.1 ht with rfl | ht
      · exact ⟨[], .name k, rfl, .here _, rfl, rfl⟩
      · rcases List.mem_append.1 ht with ht | ht
        · obtain ⟨t', ht', rfl⟩ := List.mem_map.1 ht
          obtain ⟨q, k', e1, e2, e3, e4⟩ := c1 t' ht'
          refine ⟨.name k :: q, k', by simp [e1], .dict hget e2, e3, ?_⟩
          simp only [List.length_cons]; omega
        · exact c2 t ht
    · exact ordered_cons hn1 o1 o2 hn2
    · intro p
      rw [List.map_cons, List.mem_cons, List.map_append, List.mem_append, m2 p, List.map_map]
      constructor
      · rintro (rfl | hp | ⟨k', b, q, x, hb, e, hx⟩)
        · exact ⟨k, a, [], a, by simp, rfl, .here a⟩
        · obtain ⟨t, ht, rfl⟩ := List.mem_map.1 hp
          obtain ⟨_, x, hx⟩ := (m1 t.1).1 (List.mem_map_of_mem ht)
          exact ⟨k, a, t.1, x, by simp, rfl, hx⟩
        · exact ⟨k', b, q, x, List.mem_cons_of_mem _ hb, e, hx⟩
      · rintro ⟨k', b, q, x, hb, rfl, hx⟩
        rcases List.mem_cons.1 hb with e | hb
        · cases e
          by_cases hq : q = []
          · subst hq; exact .inl rfl
          · refine .inr (.inl ?_)
            obtain ⟨t, ht, et⟩ := List.mem_map.1 ((m1 q).2 ⟨hq, x, hx⟩)
            exact List.mem_map.2 ⟨t, ht, by simp [← et]⟩
        · exact .inr (.inr ⟨k', b, q, x, hb, rfl, hx⟩)
    · rw [s1, b2]
      rfl
    · intro k' b q x hb hx
      rcases List.mem_cons.1 hb with e | hb
      · cases e
        rw [s2, b1 q x hx]
        simp [Function.comp_def]
      · rw [s3 _ _ (by
          simp only [ne_eq, Key.name.injEq]
          intro e
          rw [e] at hb
          exact hkr (List.mem_map.2 ⟨(k, b), hb, rfl⟩))]
        exact b2' k' b q x hb hx
    · intro n hn
      obtain ⟨n, rfl⟩ : ∃ k, n = k + 1 := ⟨n - 1, by omega⟩
      rw [AList.keys_cons, walkDict]
      simp only [look]
      rw [hget]
      simp only
      have h1' := h1 n (by omega)
      have h2' := h2 n (by omega)
      simp only [look] at h1' h2'
      rw [h1']
      simp only [set_self_dict hget]
      rw [h2']
      simp [Function.comp_def]

theorem sound_list {l : List Val} (h : Sound (.list l)) : ∀ v ∈ l, Sound v := by
  intro v hv p m hm
  obtain ⟨i, hi⟩ := List.getElem?_of_mem hv
  exact h (.pos i :: p) m (.list hi hm)

theorem sound_dict {d : AList Str Val} (h : Sound (.dict d)) :
    (AList.keys d).Nodup ∧ ∀ p ∈ d, Sound p.2 := by
  have wf : AList.WF d := h [] d (.here _)
  refine ⟨wf, fun q hq p m hm => ?_⟩
  exact h (.name q.1 :: p) m (.dict (AList.get?_of_mem wf hq) hm)

mutual
/-- A check of `Sound`. -/
def soundB : Val → Bool
  | .list l => soundBL l
  | .dict m => decide (m.map Prod.fst).Nodup && soundBD m
  | _ => true
def soundBL : List Val → Bool
  | [] => true
  | v :: l => soundB v && soundBL l
def soundBD : List (Str × Val) → Bool
  | [] => true
  | (_, v) :: l => soundB v && soundBD l
end

theorem soundBL_mem : ∀ {l : List Val}, soundBL l = true → ∀ v ∈ l, soundB v = true
  | [], _, _, h => by cases h
  | a :: l, hb, v, h => by
    rw [soundBL, Bool.and_eq_true] at hb
    rcases List.mem_cons.1 h with rfl | h
    · exact hb.1
    · exact soundBL_mem hb.2 v h

theorem soundBD_mem : ∀ {l : List (Str × Val)}, soundBD l = true → ∀ p ∈ l, soundB p.2 = true
  | [], _, _, h => by cases h
  | (k, a) :: l, hb, v, h => by
    rw [soundBD, Bool.and_eq_true] at hb
    rcases List.mem_cons.1 h with rfl | h
    · exact hb.1
    · exact soundBD_mem hb.2 v h

theorem soundB_sound (v : Val) (h : soundB v = true) : Sound v := by
  intro p
  induction p generalizing v with
  | nil =>
    intro m hm
    cases hm
    rw [soundB, Bool.and_eq_true] at h
    exact of_decide_eq_true h.1
  | cons k p ih =>
    intro m hm
    cases hm with
    | list hi t =>
      rw [soundB] at h
      exact ih _ (soundBL_mem h _ (List.mem_of_getElem? hi)) m t
    | dict hk t =>
      rw [soundB, Bool.and_eq_true] at h
      exact ih _ (soundBD_mem h.2 _ (AList.mem_of_get? hk)) m t

theorem seen_atom {v : Val} (a : Atom v) : Seen v := by
  intro lv
  refine ⟨1, [], by simp, by simp [Ordered], fun p => ⟨by simp, ?_⟩, fun q x hx => ?_, fun n hn => ?_⟩
  · rintro ⟨hp, x, hx⟩
    cases hx with
    | here => exact absurd rfl hp
    | list => exact absurd rfl (a.1 _)
    | dict => exact absurd rfl (a.2 _)
  · cases hx with
    | here =>
      cases v with
      | list l => exact absurd rfl (a.1 l)
      | dict m => exact absurd rfl (a.2 m)
      | _ => simp [below, keysOf]
    | list => exact absurd rfl (a.1 _)
    | dict => exact absurd rfl (a.2 _)
  · obtain ⟨n, rfl⟩ : ∃ k, n = k + 1 := ⟨n - 1, by omega⟩
    cases v with
    | list l => exact absurd rfl (a.1 l)
    | dict m => exact absurd rfl (a.2 m)
    | _ => rw [walk] <;> simp

theorem seen (v : Val) : Sound v → Seen v := by
  induction v using Val.induct with
  | none => exact fun _ => seen_atom ⟨by simp, by simp⟩
  | bool b => exact fun _ => seen_atom ⟨by simp, by simp⟩
  | int b => exact fun _ => seen_atom ⟨by simp, by simp⟩
  | str b => exact fun _ => seen_atom ⟨by simp, by simp⟩
  | list l ih =>
    intro hs lv
    obtain ⟨N, tr, c, o, m, b, b', h⟩ := look_list lv l l [] rfl (fun a ha => ih a ha (sound_list hs a ha))
    refine ⟨N + 1, tr, c, o, fun p => ?_, fun q x hx => ?_, fun n hn => ?_⟩
    · rw [m p]
      constructor
      · rintro ⟨j, a, q, x, _, ha, rfl, hx⟩
        exact ⟨by simp, x, .list ha hx⟩
      · rintro ⟨hp, x, hx⟩
        cases hx with
        | here => exact absurd rfl hp
        | list ha t => exact ⟨_, _, _, x, by simp, ha, rfl, t⟩
    · cases hx with
      | here => rw [b]; simp [keysOf, List.range_eq_range', Function.comp_def]
      | list ha t => exact b' _ _ _ x (by simp) ha t
    · obtain ⟨n, rfl⟩ : ∃ k, n = k + 1 := ⟨n - 1, by omega⟩
      have := h n (by omega)
      simp only [List.length_nil] at this
      rw [walk, this]
  | dict d ih =>
    intro hs lv
    obtain ⟨wf, hs'⟩ := sound_dict hs
    obtain ⟨N, tr, c, o, m, b, b', h⟩ := look_dict lv d wf d [] rfl (fun a ha => ih a ha (hs' a ha))
    refine ⟨N + 1, tr, c, o, fun p => ?_, fun q x hx => ?_, fun n hn => ?_⟩
    · rw [m p]
      constructor
      · rintro ⟨k, a, q, x, ha, rfl, hx⟩
        exact ⟨by simp, x, .dict (AList.get?_of_mem wf ha) hx⟩
      · rintro ⟨hp, x, hx⟩
        cases hx with
        | here => exact absurd rfl hp
        | dict ha t => exact ⟨_, _, _, x, AList.mem_of_get? ha, rfl, t⟩
    · cases hx with
      | here => rw [b]; simp [keysOf, Function.comp_def]
      | dict ha t => exact b' _ _ _ x (AList.mem_of_get? ha) t
    · obtain ⟨n, rfl⟩ : ∃ k, n = k + 1 := ⟨n - 1, by omega⟩
      rw [walk, h n (by omega)]

/-! ### Leaves -/

theorem through_atom {h : Key → Val → Res Val} {v w : Val} (a : Atom v) (t : Through h v w) : w = v := by
  cases t with
  | atom => rfl
  | list => exact absurd rfl (a.1 _)
  | dict => exact absurd rfl (a.2 _)

theorem atom_at {v : Val} (a : Atom v) {p x} (h : At v p x) : p = [] ∧ x = v := by
  cases h with
  | here => exact ⟨rfl, rfl⟩
  | list => exact absurd rfl (a.1 _)
  | dict => exact absurd rfl (a.2 _)

theorem atom_or (v : Val) : Atom v ∨ ((∃ l, v = .list l) ∨ ∃ m, v = .dict m) := by
  cases v with
  | list l => exact .inr (.inl ⟨l, rfl⟩)
  | dict m => exact .inr (.inr ⟨m, rfl⟩)
  | _ => exact .inl ⟨by simp, by simp⟩

theorem leafwise_atom (g : Key → Val → Val) (k : Key) {v : Val} (a : Atom v) : leafwise g k v = .ok (g k v) := by
  cases v with
  | list l => exact absurd rfl (a.1 l)
  | dict m => exact absurd rfl (a.2 m)
  | _ => rfl

theorem leafwise_coll (g : Key → Val → Val) (k : Key) {v : Val} (a : (∃ l, v = .list l) ∨ ∃ m, v = .dict m) :
    leafwise g k v = .ok v := by
  rcases a with ⟨l, rfl⟩ | ⟨m, rfl⟩ <;> rfl

/-- What an item becomes. -/
def leafNew (g : Key → Val → Val) (k : Key) : Val → Val
  | .list l => .list l
  | .dict m => .dict m
  | v => g k v

theorem leafwise_eq (g : Key → Val → Val) (k : Key) (v : Val) : leafwise g k v = .ok (leafNew g k v) := by
  cases v <;> rfl

theorem leaf_item {g : Key → Val → Val} (hg : ∀ k v, Atom v → Atom (g k v)) (k : Key) {v : Val}
    (h : ∃ w, Through (leafwise g) v w) : ∃ w, Through (leafwise g) (leafNew g k v) w := by
  rcases atom_or v with a | ⟨l, rfl⟩ | ⟨m, rfl⟩
  · have e := leafwise_atom g k a
    rw [leafwise_eq, Except.ok.injEq] at e
    rw [e]
    exact ⟨_, .atom (hg k v a)⟩
  · exact h
  · exact h

/-- Lists of what each item becomes. -/
theorem choose_list {P : Nat → Val → Prop} (l : List Val) (h : ∀ i, i < l.length → ∃ b, P i b) :
    ∃ w : List Val, w.length = l.length ∧ ∀ i b, w[i]? = some b → P i b := by
  have key : ∀ n, n ≤ l.length → ∃ w : List Val, w.length = n ∧ ∀ i b, w[i]? = some b → P i b := by
    intro n
    induction n with
    | zero => exact fun _ => ⟨[], rfl, by simp⟩
    | succ n ih =>
      intro hn
      obtain ⟨w, hw, hp⟩ := ih (by omega)
      obtain ⟨b, hb⟩ := h n (by omega)
      refine ⟨w ++ [b], by simp [hw], fun i c hc => ?_⟩
      rw [List.getElem?_append] at hc
      split at hc
      · exact hp i c hc
      · rename_i hi
        have : i = n := by
          rcases Nat.lt_or_ge n i with hlt | hge
          · rw [List.getElem?_eq_none (by simp; omega)] at hc; cases hc
          · omega
        subst this
        simp [hw] at hc
        subst hc
        exact hb
  exact key _ (Nat.le_refl _)

theorem choose_dict {P : Str → Val → Prop} (m : AList Str Val) (h : ∀ p ∈ m, ∃ b, P p.1 b) :
    ∃ w : AList Str Val, w.map Prod.fst = m.map Prod.fst ∧ ∀ p ∈ w, P p.1 p.2 := by
  induction m with
  | nil => exact ⟨[], rfl, by simp⟩
  | cons q m ih =>
    obtain ⟨w, hw, hp⟩ := ih (fun p hp => h p (List.mem_cons_of_mem _ hp))
    obtain ⟨b, hb⟩ := h q (by simp)
    refine ⟨(q.1, b) :: w, by simp [hw], fun p hp' => ?_⟩
    rcases List.mem_cons.1 hp' with rfl | hp'
    · exact hb
    · exact hp p hp'

/-- The value a key leads to, or any. -/
def item (m : AList Str Val) (k : Str) : Val := (AList.get? m k).getD .none

theorem leaf_exists {g : Key → Val → Val} (hg : ∀ k v, Atom v → Atom (g k v)) (v : Val) :
    Sound v → ∃ w, Through (leafwise g) v w := by
  induction v using Val.induct with
  | none => exact fun _ => ⟨_, .atom ⟨by simp, by simp⟩⟩
  | bool b => exact fun _ => ⟨_, .atom ⟨by simp, by simp⟩⟩
  | int b => exact fun _ => ⟨_, .atom ⟨by simp, by simp⟩⟩
  | str b => exact fun _ => ⟨_, .atom ⟨by simp, by simp⟩⟩
  | list l ih =>
    intro hs
    let new := fun i => leafNew g (.pos i) (l[i]?.getD .none)
    obtain ⟨w, hw, hp⟩ := choose_list (P := fun i b => Through (leafwise g) (new i) b) l (fun i hi => by
      have e : l[i]?.getD .none = l[i] := by simp [hi]
      simp only [new]
      rw [e]
      exact leaf_item hg _ (ih _ (List.getElem_mem hi) (sound_list hs _ (List.getElem_mem hi))))
    exact ⟨_, .list hw new (fun i a ha => by simp only [new, ha, Option.getD_some]; exact leafwise_eq ..) hp⟩
  | dict m ih =>
    intro hs
    obtain ⟨wf, hs'⟩ := sound_dict hs
    let new := fun k => leafNew g (.name k) (item m k)
    obtain ⟨w, hw, hp⟩ := choose_dict (P := fun k b => Through (leafwise g) (new k) b) m (fun p hp => by
      have e : item m p.1 = p.2 := by unfold item; rw [AList.get?_of_mem wf hp]; rfl
      simp only [new]
      rw [e]
      exact leaf_item hg _ (ih _ hp (hs' _ hp)))
    refine ⟨_, .dict wf hw new (fun k a ha => ?_) (fun k b hb => hp (k, b) (AList.mem_of_get? hb))⟩
    simp only [new, item, ha, Option.getD_some]
    exact leafwise_eq ..

/-- One step down on both sides. -/
theorem through_down {h : Key → Val → Res Val} {v w : Val} (t : Through h v w) {k : Key} {p x} (a : At v (k :: p) x) :
    ∃ u u' b, At v [k] u ∧ At u p x ∧ h k u = .ok u' ∧ At w [k] b ∧ Through h u' b ∧
      (∀ y q, At b q y → At w (k :: q) y) := by
  cases t with
  | atom ha => have := (atom_at ha a).1; simp at this
  | @list l w len new set each =>
    cases a with
    | @list _ i u _ _ hu t =>
      have hi : i < w.length := by
        rcases Nat.lt_or_ge i l.length with hi | hi
        · omega
        · rw [List.getElem?_eq_none hi] at hu; cases hu
      have hb : w[i]? = some w[i] := by simp [hi]
      exact ⟨u, new i, w[i], .list hu (.here _), t, set i u hu, .list hb (.here _), each i _ hb,
        fun y q hq => .list hb hq⟩
  | @dict m w nodup keys new set each =>
    cases a with
    | @dict _ k u _ _ hu t =>
      obtain ⟨b, hb⟩ := Option.isSome_iff_exists.1 (AList.get?_isSome (d := w) (k := k) |>.2 (by
        unfold AList.keys; rw [keys]; exact AList.get?_isSome.1 (by rw [hu]; rfl)))
      exact ⟨u, new k, b, .dict hu (.here _), t, set k u hu, .dict hb (.here _), each k _ hb,
        fun y q hq => .dict hb hq⟩

/-- One step up. -/
theorem through_up {h : Key → Val → Res Val} {v w : Val} (t : Through h v w) {k : Key} {p x} (a : At w (k :: p) x) :
    ∃ u u' b, At v [k] u ∧ h k u = .ok u' ∧ Through h u' b ∧ At b p x ∧
      (∀ y q, At u q y → At v (k :: q) y) := by
  cases t with
  | atom ha => have := (atom_at ha a).1; simp at this
  | @list l w len new set each =>
    cases a with
    | @list _ i b _ _ hb t =>
      have hi : i < l.length := by
        rcases Nat.lt_or_ge i w.length with hi | hi
        · omega
        · rw [List.getElem?_eq_none hi] at hb; cases hb
      have hu : l[i]? = some l[i] := by simp [hi]
      exact ⟨l[i], new i, b, .list hu (.here _), set i _ hu, each i b hb, t, fun y q hq => .list hu hq⟩
  | @dict m w nodup keys new set each =>
    cases a with
    | @dict _ k b _ _ hb t =>
      obtain ⟨u, hu⟩ := Option.isSome_iff_exists.1 (AList.get?_isSome (d := m) (k := k) |>.2 (by
        unfold AList.keys; rw [← keys]; exact AList.get?_isSome.1 (by rw [hb]; rfl)))
      exact ⟨u, new k, b, .dict hu (.here _), set k u hu, each k b hb, t, fun y q hq => .dict hu hq⟩

theorem through_shape0 {h : Key → Val → Res Val} {v w : Val} (t : Through h v w) :
    (∀ l, v = .list l → ∃ l', w = .list l' ∧ l'.length = l.length) ∧
    (∀ m, v = .dict m → ∃ m', w = .dict m' ∧ m'.map Prod.fst = m.map Prod.fst) := by
  cases t with
  | atom a => exact ⟨fun l e => absurd e (a.1 l), fun m e => absurd e (a.2 m)⟩
  | list len => exact ⟨fun l e => by cases e; exact ⟨_, rfl, len⟩, fun m e => by cases e⟩
  | dict _ keys => exact ⟨fun l e => by (cases e), fun m e => by cases e; exact ⟨_, rfl, keys⟩⟩

/-- If `h` keeps what is below an item, the shape is kept. -/
theorem through_shape {h : Key → Val → Res Val}
    (keep : ∀ k u u', h k u = .ok u' → (∀ p l, At u p (.list l) → At u' p (.list l)) ∧
      ∀ p m, At u p (.dict m) → ∃ m', At u' p (.dict m') ∧ m'.map Prod.fst = m.map Prod.fst)
    {v w : Val} (t : Through h v w) : SameShape v w := by
  constructor
  · intro p
    induction p generalizing v w with
    | nil =>
      intro l a
      cases a
      obtain ⟨l', rfl, e⟩ := (through_shape0 t).1 _ rfl
      exact ⟨l', .here _, e⟩
    | cons k p ih =>
      intro l a
      obtain ⟨u, u', b, _, hu, hh, _, tb, up⟩ := through_down t a
      obtain ⟨l', hl, e⟩ := ih tb l ((keep k u u' hh).1 p l hu)
      exact ⟨l', up _ _ hl, e⟩
  · intro p
    induction p generalizing v w with
    | nil =>
      intro l a
      cases a
      obtain ⟨l', rfl, e⟩ := (through_shape0 t).2 _ rfl
      exact ⟨l', .here _, e⟩
    | cons k p ih =>
      intro m a
      obtain ⟨u, u', b, _, hu, hh, _, tb, up⟩ := through_down t a
      obtain ⟨m1, h1, e1⟩ := (keep k u u' hh).2 p m hu
      obtain ⟨m2, h2, e2⟩ := ih tb m1 h1
      exact ⟨m2, up _ _ h2, e2.trans e1⟩

theorem leaf_shape {g : Key → Val → Val} {v w : Val} (t : Through (leafwise g) v w) : SameShape v w := by
  refine through_shape (fun k u u' hh => ?_) t
  rcases atom_or u with a | c
  · refine ⟨fun p l h => ?_, fun p m h => ?_⟩
    · exact absurd (atom_at a h).2.symm (a.1 l)
    · exact absurd (atom_at a h).2.symm (a.2 m)
  · rw [leafwise_coll g k c, Except.ok.injEq] at hh
    subst hh
    exact ⟨fun _ _ h => h, fun _ m h => ⟨m, h, rfl⟩⟩

theorem leaf_values {g : Key → Val → Val} (hg : ∀ k v, Atom v → Atom (g k v)) :
    ∀ (q : List Key) {k : Key} {v w x : Val}, Through (leafwise g) v w → At v (q ++ [k]) x → Atom x →
      At w (q ++ [k]) (g k x) := by
  intro q
  induction q with
  | nil =>
    intro k v w x t a hx
    obtain ⟨u, u', b, _, hu, hh, _, tb, up⟩ := through_down t a
    cases hu
    rw [leafwise_atom g k hx, Except.ok.injEq] at hh
    subst hh
    have := through_atom (hg k x hx) tb
    subst this
    exact up _ _ (.here _)
  | cons k' q ih =>
    intro k v w x t a hx
    obtain ⟨u, u', b, _, hu, hh, _, tb, up⟩ := through_down t a
    rcases atom_or u with c | c
    · have := (atom_at c hu).1; simp at this
    · rw [leafwise_coll g k' c, Except.ok.injEq] at hh
      subst hh
      exact up _ _ (ih tb hu hx)

theorem leaf_back {g : Key → Val → Val} (hg : ∀ k v, Atom v → Atom (g k v)) :
    ∀ (p : List Key) {v w y : Val}, Through (leafwise g) v w → At w p y → ∃ x, At v p x := by
  intro p
  induction p with
  | nil => exact fun _ _ => ⟨_, .here _⟩
  | cons k p ih =>
    intro v w y t a
    obtain ⟨u, u', b, hu, hh, tb, hb, up⟩ := through_up t a
    rcases atom_or u with c | c
    · rw [leafwise_atom g k c, Except.ok.injEq] at hh
      subst hh
      have := through_atom (hg k u c) tb
      subst this
      have := (atom_at (hg k u c) hb).1
      subst this
      exact ⟨u, up _ _ (.here _)⟩
    · rw [leafwise_coll g k c, Except.ok.injEq] at hh
      subst hh
      obtain ⟨x, hx⟩ := ih tb hb
      exact ⟨x, up _ _ hx⟩

/-! ### References -/

theorem scopeRef_cases {base : Str} {u u' : Val} (h : scopeRef base u = .ok u') :
    u' = u ∨ ∃ m s, u = .dict m ∧ AList.get? m refKey = some (.str s) ∧
      u' = .dict (AList.set m refKey (.str (Uri.scope s base))) := by
  cases u with
  | dict m =>
    rw [scopeRef] at h
    cases hr : AList.get? m refKey with
    | none => rw [hr] at h; cases h; exact .inl rfl
    | some r =>
      rw [hr] at h
      simp only at h
      cases r with
      | str s =>
        simp only [scopeVal, Except.ok.injEq] at h
        exact .inr ⟨m, s, rfl, hr, h.symm⟩
      | list l =>
        simp only [scopeVal] at h
        by_cases e : Val.str ['#'] ∈ l
        · rw [if_pos e] at h; cases h
        · rw [if_neg e] at h
          simp only [Except.ok.injEq] at h
          rw [set_self_dict hr] at h
          exact .inl h.symm
      | dict d =>
        simp only [scopeVal] at h
        by_cases e : AList.contains d ['#'] = true
        · rw [if_pos e] at h; cases h
        · rw [if_neg e] at h
          simp only [Except.ok.injEq] at h
          rw [set_self_dict hr] at h
          exact .inl h.symm
      | _ => cases h
  | _ => cases h; exact .inl rfl

theorem scopeAt_cases {base : Str} {k : Key} {u u' : Val} (h : scopeAt base k u = .ok u') :
    u' = u ∨ ∃ n m s, k = .name n ∧ u = .dict m ∧ AList.get? m refKey = some (.str s) ∧
      u' = .dict (AList.set m refKey (.str (Uri.scope s base))) := by
  cases k with
  | pos i => cases h; exact .inl rfl
  | name n =>
    rcases scopeRef_cases h with e | ⟨m, s, e⟩
    · exact .inl e
    · exact .inr ⟨n, m, s, rfl, e⟩

theorem str_at {s : Str} {p x} (h : At (.str s) p x) : p = [] ∧ x = .str s := by
  cases h; exact ⟨rfl, rfl⟩

/-- What is below a dictionary whose `$ref` is another text. -/
theorem at_set {m : AList Str Val} {s s' : Str} {p : List Key} {x : Val} (hr : AList.get? m refKey = some (.str s))
    (h : At (.dict m) p x) (h0 : p ≠ []) (h1 : p ≠ [.name refKey]) :
    At (.dict (AList.set m refKey (.str s'))) p x := by
  cases h with
  | here => exact absurd rfl h0
  | @dict _ k v q _ hk t =>
    by_cases e : k = refKey
    · subst e
      rw [hr] at hk
      cases hk
      obtain ⟨rfl, _⟩ := str_at t
      exact absurd rfl h1
    · exact .dict (by rw [AList.get?_set_ne _ _ (Ne.symm e)]; exact hk) t

theorem refPlace_cons_pos {i : Nat} {p : List Key} : RefPlace (.pos i :: p) ↔ RefPlace p := by
  constructor
  · rintro ⟨q, k, e⟩
    cases q with
    | nil => simp at e
    | cons a q =>
      simp only [List.cons_append, List.cons.injEq] at e
      exact ⟨q, k, e.2⟩
  · rintro ⟨q, k, e⟩
    exact ⟨.pos i :: q, k, by simp [e]⟩

theorem refPlace_cons_name {n : Str} {p : List Key} :
    RefPlace (.name n :: p) ↔ RefPlace p ∨ p = [.name refKey] := by
  constructor
  · rintro ⟨q, k, e⟩
    cases q with
    | nil =>
      simp only [List.nil_append, List.cons.injEq] at e
      exact .inr e.2
    | cons a q =>
      simp only [List.cons_append, List.cons.injEq] at e
      exact .inl ⟨q, k, e.2⟩
  · rintro (⟨q, k, e⟩ | e)
    · exact ⟨.name n :: q, k, by simp [e]⟩
    · exact ⟨[], n, by simp [e]⟩

theorem not_refPlace_single {k : Key} : ¬ RefPlace [k] := by
  rintro ⟨q, k', e⟩
  have := congrArg List.length e
  simp at this

theorem not_refPlace_nil : ¬ RefPlace [] := by
  rintro ⟨q, k', e⟩
  have := congrArg List.length e
  simp at this

theorem scope_values (base : Str) : ∀ (p : List Key) {v w : Val}, Through (scopeAt base) v w →
    (∀ x, At v p x → Atom x → ¬ RefPlace p → At w p x) ∧
    (∀ s, At v p (.str s) → RefPlace p → At w p (.str (Uri.scope s base))) := by
  intro p
  induction p with
  | nil =>
    intro v w t
    refine ⟨fun x a hx _ => ?_, fun s _ h => absurd h not_refPlace_nil⟩
    cases a
    rw [through_atom hx t]
    exact .here _
  | cons k p ih =>
    intro v w t
    constructor
    · intro x a hx hn
      obtain ⟨u, u', b, _, hu, hh, _, tb, up⟩ := through_down t a
      rcases scopeAt_cases hh with rfl | ⟨n, m, s, rfl, rfl, hr, rfl⟩
      · refine up _ _ ((ih tb).1 x hu hx fun hp => hn ?_)
        cases k with
        | pos i => exact refPlace_cons_pos.2 hp
        | name n => exact refPlace_cons_name.2 (.inl hp)
      · rw [refPlace_cons_name, not_or] at hn
        have h0 : p ≠ [] := by
          rintro rfl
          cases hu
          exact hx.2 _ rfl
        exact up _ _ ((ih tb).1 x (at_set hr hu h0 hn.2) hx hn.1)
    · intro s a hp
      obtain ⟨u, u', b, _, hu, hh, _, tb, up⟩ := through_down t a
      rcases scopeAt_cases hh with e | ⟨n, m, s', rfl, rfl, hr, rfl⟩
      · cases k with
        | pos i => subst e; exact up _ _ ((ih tb).2 s hu (refPlace_cons_pos.1 hp))
        | name n =>
          rcases refPlace_cons_name.1 hp with hp | rfl
          · subst e; exact up _ _ ((ih tb).2 s hu hp)
          · -- the text is scoped, so what it becomes is itself
            cases hu with
            | @dict m _ v _ _ hr t' =>
              cases t'
              have hh' : scopeRef base (.dict m) = .ok u' := hh
              rw [scopeRef, hr] at hh'
              simp only [scopeVal, Except.ok.injEq] at hh'
              have : At u' [.name refKey] (.str (Uri.scope s base)) := by
                rw [← hh']
                exact .dict (AList.get?_set_self ..) (.here _)
              exact up _ _ ((ih tb).1 _ this ⟨by simp, by simp⟩ not_refPlace_single)
      · by_cases e : p = [.name refKey]
        · subst e
          cases hu with
          | @dict _ _ v _ _ hr' t' =>
            cases t'
            rw [hr] at hr'
            cases hr'
            have : At (.dict (AList.set m refKey (.str (Uri.scope s base)))) [.name refKey]
                (.str (Uri.scope s base)) := .dict (AList.get?_set_self ..) (.here _)
            exact up _ _ ((ih tb).1 _ this ⟨by simp, by simp⟩ not_refPlace_single)
        · rcases refPlace_cons_name.1 hp with hp | hp
          · have h0 : p ≠ [] := by
              rintro rfl
              exact not_refPlace_nil hp
            exact up _ _ ((ih tb).2 s (at_set hr hu h0 e) hp)
          · exact absurd hp e

theorem keys_set_mem {m : AList Str Val} {k : Str} {v x : Val} (h : AList.get? m k = some v) :
    (AList.set m k x).map Prod.fst = m.map Prod.fst := by
  have := AList.keys_set m k x
  rw [if_pos (AList.get?_isSome.1 (by rw [h]; rfl))] at this
  exact this

theorem scope_shape {base : Str} {v w : Val} (t : Through (scopeAt base) v w) : SameShape v w := by
  refine through_shape (fun k u u' hh => ?_) t
  rcases scopeAt_cases hh with rfl | ⟨n, m, s, rfl, rfl, hr, rfl⟩
  · exact ⟨fun _ _ h => h, fun _ m h => ⟨m, h, rfl⟩⟩
  · refine ⟨fun p l h => ?_, fun p d h => ?_⟩
    · refine at_set hr h ?_ ?_
      · rintro rfl; cases h
      · rintro rfl
        cases h with
        | dict hr' t' => rw [hr] at hr'; cases hr'; cases t'
    · by_cases h0 : p = []
      · subst h0
        cases h
        exact ⟨_, .here _, keys_set_mem hr⟩
      · refine ⟨d, at_set hr h h0 ?_, rfl⟩
        rintro rfl
        cases h with
        | dict hr' t' => rw [hr] at hr'; cases hr'; cases t'

/-- Another text as `$ref`. -/
theorem through_ref {base : Str} {m w : AList Str Val} {s s' : Str} (hr : AList.get? m refKey = some (.str s))
    (t : Through (scopeAt base) (.dict m) (.dict w)) :
    Through (scopeAt base) (.dict (AList.set m refKey (.str s'))) (.dict (AList.set w refKey (.str s'))) := by
  cases t with
  | atom a => exact absurd rfl (a.2 _)
  | dict nodup keys new set each =>
    have hw : refKey ∈ AList.keys w := by
      unfold AList.keys; rw [keys]; exact AList.get?_isSome.1 (by rw [hr]; rfl)
    obtain ⟨b, hb⟩ := Option.isSome_iff_exists.1 (AList.get?_isSome.2 hw)
    refine .dict ?_ ?_ (fun k => if k = refKey then .str s' else new k) ?_ ?_
    · rw [keys_set_mem hr]; exact nodup
    · rw [keys_set_mem hb, keys_set_mem hr, keys]
    · intro k a ha
      by_cases e : k = refKey
      · subst e
        rw [AList.get?_set_self] at ha
        cases ha
        simp only [if_true]
        rfl
      · rw [AList.get?_set_ne _ _ (Ne.symm e)] at ha
        simp only [e, if_false]
        exact set k a ha
    · intro k a ha
      by_cases e : k = refKey
      · subst e
        rw [AList.get?_set_self] at ha
        cases ha
        simp only [if_true]
        exact .atom ⟨by simp, by simp⟩
      · rw [AList.get?_set_ne _ _ (Ne.symm e)] at ha
        simp only [e, if_false]
        exact each k a ha

theorem scopable {base : Str} {r : Val} (h : Scopable r) :
    (∃ s, r = .str s) ∨ (scopeVal base r = .ok r) := by
  rcases h with h | ⟨l, rfl, h⟩ | ⟨m, rfl, h⟩
  · exact .inl h
  · refine .inr ?_
    rw [scopeVal, if_neg h]
  · refine .inr ?_
    rw [scopeVal, if_neg]
    intro hc
    exact h (AList.contains_iff.1 hc)

/-- What an item of a dictionary becomes. -/
theorem scope_item {base : Str} {a : Val} (href : ∀ r, At a [.name refKey] r → Scopable r)
    (ha : ∃ w, Through (scopeAt base) a w) :
    ∃ a', scopeRef base a = .ok a' ∧ ∃ w, Through (scopeAt base) a' w := by
  cases a with
  | dict m =>
    cases hr : AList.get? m refKey with
    | none => exact ⟨.dict m, by rw [scopeRef, hr], ha⟩
    | some r =>
      rcases scopable (base := base) (href r (.dict hr (.here _))) with ⟨s, rfl⟩ | e
      · obtain ⟨w, t⟩ := ha
        obtain ⟨w', rfl, _⟩ := (through_shape0 t).2 m rfl
        exact ⟨_, by rw [scopeRef, hr]; rfl, _, through_ref hr t⟩
      · refine ⟨.dict m, ?_, ha⟩
        rw [scopeRef, hr]
        simp only [e]
        rw [set_self_dict hr]
  | _ => exact ⟨_, rfl, ha⟩

theorem scope_exists (base : Str) (v : Val) : Sound v → (∀ p r, RefPlace p → At v p r → Scopable r) →
    ∃ w, Through (scopeAt base) v w := by
  induction v using Val.induct with
  | none => exact fun _ _ => ⟨_, .atom ⟨by simp, by simp⟩⟩
  | bool b => exact fun _ _ => ⟨_, .atom ⟨by simp, by simp⟩⟩
  | int b => exact fun _ _ => ⟨_, .atom ⟨by simp, by simp⟩⟩
  | str b => exact fun _ _ => ⟨_, .atom ⟨by simp, by simp⟩⟩
  | list l ih =>
    intro hs hr
    obtain ⟨w, hw, hp⟩ := choose_list (P := fun i b => Through (scopeAt base) (l[i]?.getD .none) b) l (fun i hi => by
      have e : l[i]?.getD .none = l[i] := by simp [hi]
      rw [e]
      exact ih _ (List.getElem_mem hi) (sound_list hs _ (List.getElem_mem hi))
        (fun p r h1 h2 => hr (.pos i :: p) r (refPlace_cons_pos.2 h1) (.list (by simp [hi]) h2)))
    exact ⟨_, .list hw _ (fun i a ha => by rw [ha]; rfl) hp⟩
  | dict m ih =>
    intro hs hr
    obtain ⟨wf, hs'⟩ := sound_dict hs
    let new := fun k => match scopeRef base (item m k) with
      | .ok x => x
      | .error _ => .none
    have key : ∀ p ∈ m, scopeRef base p.2 = .ok (new p.1) ∧ ∃ w, Through (scopeAt base) (new p.1) w := by
      intro p hp
      have hg := AList.get?_of_mem wf hp
      obtain ⟨a', e, h⟩ := scope_item (base := base) (a := p.2)
        (fun r ha => hr [.name p.1, .name refKey] r ⟨[], p.1, rfl⟩ (.dict hg ha))
        (ih p hp (hs' p hp) (fun q r h1 h2 => hr (.name p.1 :: q) r (refPlace_cons_name.2 (.inl h1)) (.dict hg h2)))
      have : new p.1 = a' := by
        simp only [new, item, hg, Option.getD_some, e]
      rw [this]
      exact ⟨e, h⟩
    obtain ⟨w, hw, hp⟩ := choose_dict (P := fun k b => Through (scopeAt base) (new k) b) m (fun p hp => (key p hp).2)
    exact ⟨_, .dict wf hw new (fun k a ha => (key (k, a) (AList.mem_of_get? ha)).1)
      (fun k b hb => hp (k, b) (AList.mem_of_get? hb))⟩

/-! ### Reducing -/

theorem reduced_atom {v : Val} (a : Atom v) : reduced v = v := by
  cases v with
  | list l => exact absurd rfl (a.1 l)
  | dict m => exact absurd rfl (a.2 m)
  | _ => rfl

theorem walk_atom {f : Func} {n lv : Nat} {v : Val} (a : Atom v) : walk f (n + 1) lv v = .ok (v, []) := by
  cases v with
  | list l => exact absurd rfl (a.1 l)
  | dict m => exact absurd rfl (a.2 m)
  | _ => rw [walk] <;> simp

theorem erase_mid {d r : AList Str Val} {k : Str} {v : Val} (h : (AList.keys (d ++ (k, v) :: r)).Nodup) :
    AList.erase (d ++ (k, v) :: r) k = d ++ r := by
  simp only [AList.keys, List.map_append, List.map_cons, List.nodup_append, List.nodup_cons] at h
  have hf : ∀ e : AList Str Val, k ∉ e.map Prod.fst → e.filter (fun p => p.1 ≠ k) = e := by
    intro e he
    rw [List.filter_eq_self]
    intro p hp
    simp only [ne_eq, decide_not, Bool.not_eq_eq_eq_not, Bool.not_true, decide_eq_false_iff_not]
    rintro rfl
    exact he (List.mem_map_of_mem hp)
  unfold AList.erase
  rw [List.filter_append, List.filter_cons, if_neg (by simp), hf d, hf r h.2.1.1]
  intro hm
  exact h.2.2 k hm k (by simp) rfl

theorem reduce_dict (lv : Nat) : ∀ (r d : AList Str Val), (AList.keys (d ++ r)).Nodup → (∀ p ∈ r, Atom p.2) →
    ∃ N c, ∀ n, N ≤ n → walkDict doReduce n lv (AList.keys r) (d ++ r) =
      .ok (d ++ r.filter (fun p => p.2.truthy), c) := by
  intro r
  induction r with
  | nil =>
    intro d _ _
    refine ⟨1, [], fun n hn => ?_⟩
    obtain ⟨n, rfl⟩ : ∃ k, n = k + 1 := ⟨n - 1, by omega⟩
    rw [AList.keys_nil, walkDict]; rfl
  | cons p r ih =>
    obtain ⟨k, a⟩ := p
    intro d hn ha
    have hat : Atom a := ha (k, a) (by simp)
    have hnd : k ∉ AList.keys d := by
      simp only [AList.keys, List.map_append, List.map_cons, List.nodup_append] at hn
      exact fun hm => hn.2.2 k hm k (by simp) rfl
    by_cases ht : a.truthy = true
    · obtain ⟨N, c, h⟩ := ih (d ++ [(k, a)]) (by simpa using hn) (fun p hp => ha p (List.mem_cons_of_mem _ hp))
      refine ⟨max N 1 + 1, (.dict (d ++ (k, a) :: r), .name k, lv) :: c, fun n hn' => ?_⟩
      obtain ⟨n, rfl⟩ : ∃ k, n = k + 1 + 1 := ⟨n - 2, by omega⟩
      have h' := h (n + 1) (by omega)
      rw [List.append_assoc, List.append_assoc, List.singleton_append, List.singleton_append] at h'
      rw [AList.keys_cons, walkDict]
      simp only [doReduce, get_mid hnd, reduced_atom hat, ht, if_true, set_mid hnd]
      rw [show walk _ (n + 1) (lv + 1) a = _ from walk_atom hat]
      simp only [set_mid hnd]
      have h'' := h'
      simp only [doReduce] at h''
      rw [h'']
      simp [List.filter_cons, ht]
    · obtain ⟨N, c, h⟩ := ih d (by
          simp only [AList.keys, List.map_append, List.map_cons, List.nodup_append, List.nodup_cons] at hn ⊢
          exact ⟨hn.1, hn.2.1.2, fun x hx y hy => hn.2.2 x hx y (List.mem_cons_of_mem _ hy)⟩)
        (fun p hp => ha p (List.mem_cons_of_mem _ hp))
      have hgr : AList.get? (d ++ r) k = none := by
        rw [AList.get?_eq_none]
        simp only [AList.keys, List.map_append, List.map_cons, List.nodup_append, List.nodup_cons] at hn
        simp only [AList.keys, List.map_append, List.mem_append, not_or]
        exact ⟨hnd, hn.2.1.1⟩
      refine ⟨N + 1, (.dict (d ++ (k, a) :: r), .name k, lv) :: c, fun n hn' => ?_⟩
      obtain ⟨n, rfl⟩ : ∃ k, n = k + 1 := ⟨n - 1, by omega⟩
      have h' := h n (by omega)
      rw [AList.keys_cons, walkDict]
      simp only [doReduce, get_mid hnd, reduced_atom hat, ht, erase_mid hn]
      simp only [Bool.false_eq_true, if_false, hgr]
      simp only [doReduce] at h'
      rw [h']
      simp [List.filter_cons, ht]

theorem reduce_entries (P : Val → Val → Prop) (lv : Nat) : ∀ (r d : AList Str Val), (AList.keys (d ++ r)).Nodup →
    (∀ p ∈ r, p.2.truthy = false ∧ (reduced p.2).truthy = false ∨
      p.2.truthy = true ∧ reduced p.2 = p.2 ∧
        ∃ b N c, P p.2 b ∧ ∀ n, N ≤ n → walk doReduce n (lv + 1) p.2 = .ok (b, c)) →
    ∃ w N c, w.map Prod.fst = (r.filter fun p => p.2.truthy).map Prod.fst ∧
      (∀ q ∈ w, ∃ a, (q.1, a) ∈ r ∧ P a q.2) ∧
      ∀ n, N ≤ n → walkDict doReduce n lv (AList.keys r) (d ++ r) = .ok (d ++ w, c) := by
  intro r
  induction r with
  | nil =>
    intro d _ _
    refine ⟨[], 1, [], rfl, by simp, fun n hn => ?_⟩
    obtain ⟨n, rfl⟩ : ∃ k, n = k + 1 := ⟨n - 1, by omega⟩
    rw [AList.keys_nil, walkDict]
  | cons p r ih =>
    obtain ⟨k, a⟩ := p
    intro d hn ha
    have hnd : k ∉ AList.keys d := by
      simp only [AList.keys, List.map_append, List.map_cons, List.nodup_append] at hn
      exact fun hm => hn.2.2 k hm k (by simp) rfl
    rcases ha (k, a) (by simp) with ⟨ht, hr⟩ | ⟨ht, hr, b, N1, c1, hp, hw⟩
    · simp only at ht hr
      obtain ⟨w, N, c, hk, hq, h⟩ := ih d (by
          simp only [AList.keys, List.map_append, List.map_cons, List.nodup_append, List.nodup_cons] at hn ⊢
          exact ⟨hn.1, hn.2.1.2, fun x hx y hy => hn.2.2 x hx y (List.mem_cons_of_mem _ hy)⟩)
        (fun p hp => ha p (List.mem_cons_of_mem _ hp))
      have hgr : AList.get? (d ++ r) k = none := by
        rw [AList.get?_eq_none]
        simp only [AList.keys, List.map_append, List.map_cons, List.nodup_append, List.nodup_cons] at hn
        simp only [AList.keys, List.map_append, List.mem_append, not_or]
        exact ⟨hnd, hn.2.1.1⟩
      refine ⟨w, N + 1, (.dict (d ++ (k, a) :: r), .name k, lv) :: c, by simp [ht, hk], fun q hq' => ?_, fun n hn' => ?_⟩
      · obtain ⟨x, h1, h2⟩ := hq q hq'
        exact ⟨x, List.mem_cons_of_mem _ h1, h2⟩
      obtain ⟨n, rfl⟩ : ∃ k, n = k + 1 := ⟨n - 1, by omega⟩
      have h' := h n (by omega)
      rw [AList.keys_cons, walkDict]
      simp only [doReduce, get_mid hnd, hr, erase_mid hn]
      simp only [Bool.false_eq_true, if_false, hgr]
      simp only [doReduce] at h'
      rw [h']
    · simp only at ht hr hp hw
      obtain ⟨w, N, c, hk, hq, h⟩ := ih (d ++ [(k, b)])
        (by simpa [AList.keys] using hn) (fun p hp => ha p (List.mem_cons_of_mem _ hp))
      refine ⟨(k, b) :: w, max N N1 + 1, (.dict (d ++ (k, a) :: r), .name k, lv) :: (c1 ++ c), by simp [ht, hk],
        fun q hq' => ?_, fun n hn' => ?_⟩
      · rcases List.mem_cons.1 hq' with rfl | hq'
        · exact ⟨a, by simp, hp⟩
        · obtain ⟨x, h1, h2⟩ := hq q hq'
          exact ⟨x, List.mem_cons_of_mem _ h1, h2⟩
      obtain ⟨n, rfl⟩ : ∃ k, n = k + 1 := ⟨n - 1, by omega⟩
      have h' := h n (by omega)
      have hw' := hw n (by omega)
      rw [List.append_assoc, List.append_assoc, List.singleton_append, List.singleton_append] at h'
      rw [AList.keys_cons, walkDict]
      simp only [doReduce, get_mid hnd, hr, ht, if_true, set_mid hnd] at h' hw' ⊢
      rw [hw']
      simp only [set_mid hnd]
      rw [h']

theorem eraseIdx_mid {d r : List Val} {a : Val} : (d ++ a :: r).eraseIdx d.length = d ++ r := by
  rw [List.eraseIdx_append_of_length_le (Nat.le_refl _)]
  simp

theorem reduce_list (lv : Nat) : ∀ (m : Nat) (r d : List Val), r.length ≤ m → (∀ a ∈ r, Atom a) →
    ∃ N c, ∀ n, N ≤ n → walkList doReduce n lv d.length (d ++ r) = .ok (d ++ skipping r, c) := by
  intro m
  induction m with
  | zero =>
    intro r d hm _
    have : r = [] := List.eq_nil_of_length_eq_zero (by omega)
    subst this
    refine ⟨1, [], fun n hn => ?_⟩
    obtain ⟨n, rfl⟩ : ∃ k, n = k + 1 := ⟨n - 1, by omega⟩
    rw [walkList, if_neg (by simp), skipping]
  | succ m ih =>
    intro r d hm ha
    cases r with
    | nil =>
      refine ⟨1, [], fun n hn => ?_⟩
      obtain ⟨n, rfl⟩ : ∃ k, n = k + 1 := ⟨n - 1, by omega⟩
      rw [walkList, if_neg (by simp), skipping]
    | cons a r =>
      have hat : Atom a := ha a (by simp)
      have hr : ∀ b ∈ r, Atom b := fun b hb => ha b (List.mem_cons_of_mem _ hb)
      by_cases ht : a.truthy = true
      · obtain ⟨N, c, h⟩ := ih r (d ++ [a]) (by simpa using hm) hr
        refine ⟨max N 1 + 1, (.list (d ++ a :: r), .pos d.length, lv) :: c, fun n hn => ?_⟩
        obtain ⟨n, rfl⟩ : ∃ k, n = k + 1 + 1 := ⟨n - 2, by omega⟩
        have h' := h (n + 1) (by omega)
        rw [show (d ++ [a]).length = d.length + 1 by simp, List.append_assoc, List.append_assoc] at h'
        simp only [List.singleton_append, doReduce] at h'
        rw [walkList, if_pos (by simp)]
        simp only [doReduce, mid_get, reduced_atom hat, ht, if_true, mid_set]
        rw [show walk _ (n + 1) (lv + 1) a = _ from walk_atom hat]
        simp only [mid_set]
        rw [h']
        cases r <;> simp [skipping, ht]
      · cases r with
        | nil =>
          refine ⟨2, [(.list (d ++ [a]), .pos d.length, lv)], fun n hn => ?_⟩
          obtain ⟨n, rfl⟩ : ∃ k, n = k + 1 + 1 := ⟨n - 2, by omega⟩
          rw [walkList, if_pos (by simp)]
          simp only [doReduce, mid_get, reduced_atom hat, ht, eraseIdx_mid]
          simp only [Bool.false_eq_true, if_false, List.append_nil, List.getElem?_eq_none (Nat.le_refl d.length)]
          rw [walkList, if_neg (by omega)]
          simp [skipping, ht]
        | cons b r =>
          have hbt : Atom b := hr b (by simp)
          obtain ⟨N, c, h⟩ := ih r (d ++ [b]) (by simp at hm; omega) (fun x hx => hr x (List.mem_cons_of_mem _ hx))
          refine ⟨max N 1 + 1, (.list (d ++ a :: b :: r), .pos d.length, lv) :: c, fun n hn => ?_⟩
          obtain ⟨n, rfl⟩ : ∃ k, n = k + 1 + 1 := ⟨n - 2, by omega⟩
          have h' := h (n + 1) (by omega)
          rw [show (d ++ [b]).length = d.length + 1 by simp, List.append_assoc, List.append_assoc] at h'
          simp only [List.singleton_append, doReduce] at h'
          rw [walkList, if_pos (by simp)]
          simp only [doReduce, mid_get, reduced_atom hat, ht, eraseIdx_mid]
          simp only [Bool.false_eq_true, if_false, mid_get]
          rw [show walk _ (n + 1) (lv + 1) b = _ from walk_atom hbt]
          simp only [mid_set]
          rw [h']
          simp [skipping, ht]

/-! ### Ancestors -/

theorem go_ok {anc : Str → Res (List Str)} : ∀ {is l : List Str}, ancestors.go anc is = .ok l →
    (∀ i ∈ is, ∃ a, anc i = .ok a) ∧ ∀ j, j ∈ l ↔ ∃ i ∈ is, j = i ∨ ∃ a, anc i = .ok a ∧ j ∈ a := by
  intro is
  induction is with
  | nil => intro l h; cases h; simp
  | cons i is ih =>
    intro l h
    rw [ancestors.go] at h
    cases ha : anc i with
    | error e => rw [ha] at h; cases h
    | ok a =>
      rw [ha] at h
      simp only at h
      cases hb : ancestors.go anc is with
      | error e => rw [hb] at h; cases h
      | ok b =>
        rw [hb] at h
        cases h
        obtain ⟨h1, h2⟩ := ih hb
        refine ⟨fun x hx => ?_, fun j => ?_⟩
        · rcases List.mem_cons.1 hx with rfl | hx
          · exact ⟨a, ha⟩
          · exact h1 x hx
        · rw [List.mem_cons, List.mem_append, h2 j]
          constructor
          · rintro (rfl | hj | ⟨x, hx, hj⟩)
            · exact ⟨j, by simp, .inl rfl⟩
            · exact ⟨i, by simp, .inr ⟨a, ha, hj⟩⟩
            · exact ⟨x, List.mem_cons_of_mem _ hx, hj⟩
          · rintro ⟨x, hx, hj⟩
            rcases List.mem_cons.1 hx with rfl | hx
            · rcases hj with rfl | ⟨a', ha', hj⟩
              · exact .inl rfl
              · rw [ha] at ha'; cases ha'; exact .inr (.inl hj)
            · exact .inr (.inr ⟨x, hx, hj⟩)

theorem ancestors_mem {ext : Str → List Str} : ∀ (n : Nat) {i : Str} {l : List Str}, ancestors ext n i = .ok l →
    ∀ j, j ∈ l ↔ Ancestor ext i j := by
  intro n
  induction n with
  | zero => intro i l h; cases h
  | succ n ih =>
    intro i l h j
    rw [ancestors] at h
    obtain ⟨h1, h2⟩ := go_ok h
    rw [h2 j]
    constructor
    · rintro ⟨x, hx, rfl | ⟨a, ha, hj⟩⟩
      · exact .parent hx
      · exact .up hx ((ih ha j).1 hj)
    · intro hj
      cases hj with
      | parent hx => exact ⟨j, hx, .inl rfl⟩
      | @up _ x _ hx t =>
        obtain ⟨a, ha⟩ := h1 x hx
        exact ⟨x, hx, .inr ⟨a, ha, (ih ha j).2 t⟩⟩

theorem go_gives {anc : Nat → Str → Res (List Str)} : ∀ (is : List Str),
    (∀ i ∈ is, ∃ l, Gives (fun n => anc n i) l) → ∃ l, Gives (fun n => ancestors.go (anc n) is) l := by
  intro is
  induction is with
  | nil => exact fun _ => ⟨[], 0, fun n _ => rfl⟩
  | cons i is ih =>
    intro h
    obtain ⟨a, N1, h1⟩ := h i (by simp)
    obtain ⟨b, N2, h2⟩ := ih (fun x hx => h x (List.mem_cons_of_mem _ hx))
    refine ⟨i :: (a ++ b), max N1 N2, fun n hn => ?_⟩
    have e1 := h1 n (by omega)
    have e2 := h2 n (by omega)
    simp only at e1 e2 ⊢
    rw [ancestors.go, e1]
    simp only [e2]

theorem ancestors_gives {ext : Str → List Str} {i : Str} (h : Acc (fun a b => a ∈ ext b) i) :
    ∃ l, Gives (fun n => ancestors ext n i) l := by
  induction h with
  | intro i _ ih =>
    obtain ⟨l, N, h⟩ := go_gives (anc := fun n => ancestors ext n) (ext i) (fun x hx => ih x hx)
    refine ⟨l, N + 1, fun n hn => ?_⟩
    obtain ⟨n, rfl⟩ : ∃ k, n = k + 1 := ⟨n - 1, by omega⟩
    simp only
    rw [ancestors]
    exact h n (by omega)

theorem ancestors_acc {ext : Str → List Str} : ∀ (n : Nat) {i : Str} {l : List Str}, ancestors ext n i = .ok l →
    Acc (fun a b => a ∈ ext b) i := by
  intro n
  induction n with
  | zero => intro i l h; cases h
  | succ n ih =>
    intro i l h
    rw [ancestors] at h
    refine ⟨_, fun j hj => ?_⟩
    obtain ⟨a, ha⟩ := (go_ok h).1 j hj
    exact ih ha

theorem firsts_spec : ∀ (l seen : List Str),
    (firsts seen l).Nodup ∧ (∀ j, j ∈ firsts seen l ↔ j ∈ l ∧ j ∉ seen) ∧ (firsts seen l).Sublist l := by
  intro l
  induction l with
  | nil => intro seen; simp [firsts]
  | cons i is ih =>
    intro seen
    rw [firsts]
    by_cases h : i ∈ seen
    · rw [if_pos h]
      obtain ⟨h1, h2, h3⟩ := ih seen
      refine ⟨h1, fun j => ?_, h3.cons _⟩
      rw [h2 j, List.mem_cons]
      constructor
      · rintro ⟨a, b⟩; exact ⟨.inr a, b⟩
      · rintro ⟨rfl | a, b⟩
        · exact absurd h b
        · exact ⟨a, b⟩
    · rw [if_neg h]
      obtain ⟨h1, h2, h3⟩ := ih (i :: seen)
      refine ⟨List.nodup_cons.2 ⟨fun hm => ?_, h1⟩, fun j => ?_, h3.cons_cons _⟩
      · exact ((h2 i).1 hm).2 (by simp)
      · rw [List.mem_cons, List.mem_cons, h2 j, List.mem_cons, not_or]
        constructor
        · rintro (rfl | ⟨a, _, b⟩)
          · exact ⟨.inl rfl, h⟩
          · exact ⟨.inr a, b⟩
        · rintro ⟨rfl | a, b⟩
          · exact .inl rfl
          · by_cases e : j = i
            · exact .inl e
            · exact .inr ⟨a, e, b⟩

theorem ancestor_single {ext : Str → List Str} (one : ∀ i, (ext i).length ≤ 1) : ∀ (n : Nat) {i : Str} {l : List Str},
    ancestors ext n i = .ok l → l.Pairwise (fun a b => Ancestor ext a b) := by
  intro n
  induction n with
  | zero => intro i l h; cases h
  | succ n ih =>
    intro i l h
    rw [ancestors] at h
    have hone := one i
    cases he : ext i with
    | nil => rw [he] at h; cases h; exact .nil
    | cons x r =>
      rw [he] at h hone
      have : r = [] := by simpa using hone
      subst this
      rw [ancestors.go] at h
      cases ha : ancestors ext n x with
      | error e => rw [ha] at h; cases h
      | ok a =>
        rw [ha] at h
        simp only [ancestors.go, List.append_nil, Except.ok.injEq] at h
        subst h
        rw [List.pairwise_cons]
        exact ⟨fun j hj => (ancestors_mem n ha j).1 hj, ih ha⟩

theorem ancestor_trans {ext : Str → List Str} {i j k : Str} (h : Ancestor ext i j) (t : Ancestor ext j k) :
    Ancestor ext i k := by
  induction h with
  | parent h => exact .up h t
  | up h _ ih => exact .up h (ih t)

end Verif.Walk
