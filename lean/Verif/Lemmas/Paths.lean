import Verif.Spec.Paths
namespace Verif.Paths
open Spec

theorem splitPart_plain {p : Str} (h : '[' ∉ p) : splitPart p = some [.name p] := by
  simp [splitPart, splitOn_of_notMem h]

theorem mapM_plain (ps : List Str) (h : ∀ p ∈ ps, '[' ∉ p) :
    ps.mapM splitPart = some (ps.map (fun p => [Key.name p])) := by
  induction ps with
  | nil => rfl
  | cons p ps ih =>
    simp only [List.mapM_cons, splitPart_plain (h p (List.mem_cons_self ..)),
      ih (fun q hq => h q (List.mem_cons_of_mem _ hq))]
    rfl

theorem flatten_singletons (ps : List Str) : (ps.map (fun p => [Key.name p])).flatten = ps.map Key.name := by
  induction ps with
  | nil => rfl
  | cons p ps ih => simp [ih]

theorem splitCname_names (ps : List Str) (h : ∀ p ∈ ps, '.' ∉ p ∧ '[' ∉ p) (hne : ps ≠ []) :
    splitCname (dotted ps) = if ps.head? = some [] then some [] else some (ps.map Key.name) := by
  unfold splitCname dotted
  rw [splitOn_joinWith ps hne (fun w hw => (h w hw).1), mapM_plain ps (fun p hp => (h p hp).2)]
  simp only [flatten_singletons]
  cases ps with
  | nil => exact absurd rfl hne
  | cons p ps => cases p <;> rfl

theorem splitCname_dotted (ps : List Str) (h : ∀ p ∈ ps, Plain p) (hne : ps ≠ []) :
    splitCname (dotted ps) = some (ps.map Key.name) := by
  rw [splitCname_names ps (fun p hp => (h p hp).2) hne, if_neg]
  intro h0
  cases ps with
  | nil => exact hne rfl
  | cons p ps =>
    simp only [List.head?_cons, Option.some.injEq] at h0
    exact (h p (List.mem_cons_self ..)).1 h0

theorem dot_mem_dotted (p q : Str) (ps : List Str) : '.' ∈ dotted (p :: q :: ps) := by
  simp [dotted, joinWith]

theorem nodeAt_append (root : Node) (addr : List Key) (k : Key) :
    nodeAt root (addr ++ [k]) = (nodeAt root addr).bind (child · k) := by
  induction addr generalizing root with
  | nil =>
    simp only [List.nil_append, nodeAt]
    cases h : child root k <;> simp [nodeAt, h]
  | cons a as ih =>
    simp only [List.cons_append, nodeAt]
    cases child root a with
    | none => rfl
    | some m => exact ih m

theorem child_name (n : Node) (p : Str) : child n (.name p) = item n p := by
  cases n <;> rfl

theorem kind_none {n : Node} : n.kind = .none ↔ n = .none := by
  cases n <;> simp [Node.kind]

theorem isNone_at {root m : Node} {addr : List Key} (h : nodeAt root addr = some m) :
    isNone root (.at addr) = true ↔ m = .none := by
  simp only [isNone, h]
  cases m <;> simp

theorem stepName_item {attr : Kind → Str → Bool} {root n m : Node} {addr : List Key} {p : Str}
    (ha : attr n.kind p = false) (hm : item n p = some m) :
    stepName attr root addr n p = some (.at (addr ++ [.name p])) := by
  cases n with
  | none => simp [item] at hm
  | atom i => simp [item] at hm
  | arr l => simp [item] at hm
  | dict items =>
    simp only [item] at hm
    simp [stepName, ha, AList.contains, hm]
  | obj a r items =>
    simp only [item] at hm
    simp [stepName, ha, AList.contains, hm]

theorem walk_descend {attr : Kind → Str → Bool} {root : Node} (ps : List Str) : ∀ {n v : Node} {addr : List Key},
    nodeAt root addr = some n → Open attr n ps → descend n ps = some v →
    ∃ c, walk attr root (.at addr) (ps.map .name) = some c ∧ read root c = .node v ∧
      (v.kind ≠ .none → c = .at (addr ++ ps.map .name)) := by
  induction ps with
  | nil =>
    intro n v addr hn _ hv
    simp only [descend, Option.some.injEq] at hv
    subst hv
    exact ⟨.at addr, rfl, by simp [read, hn], fun _ => by simp⟩
  | cons p ps ih =>
    intro n v addr hn ho hv
    obtain ⟨ha, ho⟩ := ho
    simp only [descend] at hv
    cases hm : item n p with
    | none => simp [hm] at hv
    | some m =>
      simp only [hm, Option.bind_some] at hv
      obtain ⟨hk, ho⟩ := ho m hm
      have hat : nodeAt root (addr ++ [.name p]) = some m := by
        rw [nodeAt_append, hn, Option.bind_some, child_name, hm]
      simp only [List.map_cons, walk, step, hn, stepName_item ha hm]
      by_cases h0 : m = .none
      · subst h0
        rw [if_pos ((isNone_at hat).2 rfl)]
        cases ps with
        | nil =>
          simp only [descend, Option.some.injEq] at hv
          subst hv
          exact ⟨.nothing, rfl, rfl, fun h => absurd rfl h⟩
        | cons q qs => exact absurd rfl (hk (by simp))
      · rw [if_neg (fun h => h0 ((isNone_at hat).1 h))]
        obtain ⟨c, hc, hr, hl⟩ := ih hat ho hv
        exact ⟨c, hc, hr, fun h => by rw [hl h, List.append_assoc]; rfl⟩

theorem walk_through {attr : Kind → Str → Bool} {root : Node} {ks : List Key} (ps : List Str) :
    ∀ {n v : Node} {addr : List Key}, nodeAt root addr = some n → Open attr n ps → descend n ps = some v →
    v.kind ≠ .none → walk attr root (.at addr) (ps.map .name ++ ks) = walk attr root (.at (addr ++ ps.map .name)) ks ∧
      nodeAt root (addr ++ ps.map .name) = some v := by
  induction ps with
  | nil =>
    intro n v addr hn _ hv _
    simp only [descend, Option.some.injEq] at hv
    subst hv
    exact ⟨by simp, by simpa using hn⟩
  | cons p ps ih =>
    intro n v addr hn ho hv hk
    obtain ⟨ha, ho⟩ := ho
    simp only [descend] at hv
    cases hm : item n p with
    | none => simp [hm] at hv
    | some m =>
      simp only [hm, Option.bind_some] at hv
      obtain ⟨hkm, ho⟩ := ho m hm
      have hat : nodeAt root (addr ++ [.name p]) = some m := by
        rw [nodeAt_append, hn, Option.bind_some, child_name, hm]
      have h0 : m ≠ .none := by
        rintro rfl
        cases ps with
        | nil =>
          simp only [descend, Option.some.injEq] at hv
          subst hv
          exact hk rfl
        | cons q qs => exact hkm (by simp) rfl
      simp only [List.map_cons, List.cons_append, walk, step, hn, stepName_item ha hm]
      rw [if_neg (fun h => h0 ((isNone_at hat).1 h))]
      have := ih hat ho hv hk
      rw [List.append_assoc] at this
      exact this

theorem getItem_names {attr : Kind → Str → Bool} {root : Node} {ps : List Str} (h2 : 2 ≤ ps.length)
    (hp : ∀ p ∈ ps, '.' ∉ p ∧ '[' ∉ p) (hh : ps.head? ≠ some []) :
    getItem attr root (dotted ps) = match walk attr root (.at []) (ps.map .name) with
      | none => .error .keyError
      | some c => .ok (read root c) := by
  match ps, h2 with
  | p :: q :: qs, _ =>
    have hd := dot_mem_dotted p q qs
    unfold getItem
    rw [if_neg (fun h => by simp [h] at hd), if_pos hd, splitCname_names _ hp (by simp), if_neg hh]
    try rfl

theorem plain_head {ps : List Str} (hp : ∀ p ∈ ps, Plain p) : ps.head? ≠ some [] := by
  intro h0
  cases ps with
  | nil => simp at h0
  | cons p ps =>
    simp only [List.head?_cons, Option.some.injEq] at h0
    exact (hp p (List.mem_cons_self ..)).1 h0

theorem getItem_dotted {attr : Kind → Str → Bool} {root : Node} {ps : List Str} (h2 : 2 ≤ ps.length)
    (hp : ∀ p ∈ ps, Plain p) : getItem attr root (dotted ps) = match walk attr root (.at []) (ps.map .name) with
      | none => .error .keyError
      | some c => .ok (read root c) :=
  getItem_names h2 (fun p h => (hp p h).2) (plain_head hp)

/-! Assignments. -/

theorem accepts_iff {n : Node} {p : Str} {v : Node} :
    Accepts n p ↔ ∃ n', setChild n (.name p) v = some n' := by
  cases n with
  | none => simp [Accepts, setChild]
  | atom i => simp [Accepts, setChild]
  | arr l => simp [Accepts, setChild]
  | dict items => simp [Accepts, setChild]
  | obj a r items =>
    show (a = true ∨ AList.contains items p = true) ↔ _
    rw [or_comm, ← Bool.or_eq_true]
    simp only [setChild]
    by_cases h : (AList.contains items p || a) = true
    · simp only [h, if_true, true_iff]; exact ⟨_, rfl⟩
    · simp only [h]; simp

theorem setChild_kind {n n' v : Node} {p : Str} (h : setChild n (.name p) v = some n') : n'.kind = n.kind := by
  cases n with
  | none => simp [setChild] at h
  | atom i => simp [setChild] at h
  | arr l => simp [setChild] at h
  | dict items => simp only [setChild, Option.some.injEq] at h; subst h; rfl
  | obj a r items =>
    simp only [setChild] at h
    split at h
    · simp only [Option.some.injEq] at h; subst h; rfl
    · simp at h

theorem item_setChild {n n' v : Node} {p : Str} (h : setChild n (.name p) v = some n') (q : Str) :
    item n' q = if q = p then some v else item n q := by
  cases n with
  | none => simp [setChild] at h
  | atom i => simp [setChild] at h
  | arr l => simp [setChild] at h
  | dict items =>
    simp only [setChild, Option.some.injEq] at h
    subst h
    simp only [item]
    by_cases hq : q = p
    · subst hq; simp [AList.get?_set_self]
    · rw [if_neg hq]
      exact AList.get?_set_ne _ _ (fun h => hq (by injection h with h; exact h.symm))
  | obj a r items =>
    simp only [setChild] at h
    split at h
    · simp only [Option.some.injEq] at h
      subst h
      simp only [item]
      by_cases hq : q = p
      · subst hq; simp [AList.get?_set_self]
      · rw [if_neg hq]
        exact AList.get?_set_ne _ _ (fun h => hq h.symm)
    · simp at h

theorem accepts_item {n m : Node} {p : Str} (h : item n p = some m) : Accepts n p := by
  cases n with
  | none => simp [item] at h
  | atom i => simp [item] at h
  | arr l => simp [item] at h
  | dict items => trivial
  | obj a r items => simp only [item] at h; exact Or.inr (by simp [h])

theorem setAt_path {attr : Kind → Str → Bool} {p : Str} {v : Node} (ps : List Str) : ∀ {n m : Node},
    descend n ps = some m → Accepts m p → ∃ n', setAt n (ps.map .name) (.name p) v = some n' ∧ n'.kind = n.kind ∧
      descend n' (ps ++ [p]) = some v ∧ (Open attr n (ps ++ [p]) → Open attr n' (ps ++ [p])) ∧
      ∀ q : List Str, ¬ q <+: (ps ++ [p]) → ¬ (ps ++ [p]) <+: q → descend n' q = descend n q := by
  induction ps with
  | nil =>
    intro n m hm hacc
    simp only [descend, Option.some.injEq] at hm
    subst hm
    obtain ⟨n', hn'⟩ := accepts_iff (v := v).1 hacc
    refine ⟨n', by simp [setAt, hn'], setChild_kind hn', ?_, ?_, ?_⟩
    · simp [descend, item_setChild hn' p]
    · rintro ⟨ha, _⟩
      refine ⟨by rw [setChild_kind hn']; exact ha, fun m _ => ⟨fun h => absurd rfl h, trivial⟩⟩
    · intro q hq hq'
      cases q with
      | nil => exact absurd (List.nil_prefix) hq
      | cons a q =>
        have hap : a ≠ p := by
          rintro rfl
          exact hq' (by simp)
        simp [descend, item_setChild hn' a, hap]
  | cons a ps ih =>
    intro n m hm hacc
    simp only [descend] at hm
    cases hi : item n a with
    | none => simp [hi] at hm
    | some b =>
      simp only [hi, Option.bind_some] at hm
      obtain ⟨b', hb, hkb, hd, ho, hf⟩ := ih hm hacc
      obtain ⟨n', hn'⟩ := accepts_iff (v := b').1 (accepts_item hi)
      refine ⟨n', ?_, setChild_kind hn', ?_, ?_, ?_⟩
      · simp [setAt, child_name, hi, hb, hn']
      · simp [descend, item_setChild hn' a, hd]
      · rintro ⟨ha, h⟩
        refine ⟨by rw [setChild_kind hn']; exact ha, fun m hm => ?_⟩
        simp only [item_setChild hn' a, if_true, Option.some.injEq] at hm
        subst hm
        obtain ⟨hk, h⟩ := h b hi
        exact ⟨fun _ => by rw [hkb]; exact hk (by simp), ho h⟩
      · intro q hq hq'
        cases q with
        | nil => exact absurd (List.nil_prefix) hq
        | cons c q =>
          by_cases hc : c = a
          · subst hc
            simp only [descend, item_setChild hn' c, if_true, hi, Option.bind_some]
            refine hf q (fun h => hq ?_) (fun h => hq' ?_)
            · simpa using h
            · simpa using h
          · simp [descend, item_setChild hn' c, hc]

/-! Indices. -/

theorem walk_index {attr : Kind → Str → Bool} {root : Node} (ps : List Key) : ∀ {c c' : Cur},
    walk attr root c ps = some c' → (∃ i, Key.idx i ∈ ps) → c' = .nothing := by
  induction ps with
  | nil => rintro c c' _ ⟨i, hi⟩; simp at hi
  | cons p ps ih =>
    rintro c c' h ⟨i, hi⟩
    simp only [walk] at h
    cases hs : step attr root c p with
    | none => simp [hs] at h
    | some d =>
      simp only [hs] at h
      split at h
      · exact (Option.some.inj h).symm
      · rcases List.mem_cons.1 hi with rfl | hi
        · simp [step] at hs
        · exact ih h ⟨i, hi⟩

end Verif.Paths
