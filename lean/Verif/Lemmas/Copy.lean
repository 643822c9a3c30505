import Verif.Spec.Copy
/-
Instances reached by paths, and the effect of reading and assigning on them.
-/
namespace Verif.Copy

/-- The instance at a path. -/
def node (h : Heap) : Nat → List Str → Option Nat
  | i, [] => some i
  | i, k :: ks => match (h.data i).get? k with
    | some (.inst j) => node h j ks
    | _ => none

theorem node_append (h : Heap) : ∀ (p q : List Str) (i j : Nat), node h i p = some j → node h i (p ++ q) = node h j q
  | [], q, i, j, e => by simp only [node, Option.some.injEq] at e; subst e; rfl
  | k :: p, q, i, j, e => by
    simp only [node, List.cons_append] at e ⊢
    cases hs : (h.data i).get? k with
    | none => simp [hs] at e
    | some s => cases s with
      | plain v => simp [hs] at e
      | inst i' => simp only [hs] at e ⊢; exact node_append h p q i' j e

theorem look_append (h : Heap) : ∀ (p q : List Str) (i j : Nat), node h i p = some j →
    lookSlot h (.inst i) (p ++ q) = lookSlot h (.inst j) q
  | [], q, i, j, e => by simp only [node, Option.some.injEq] at e; subst e; rfl
  | k :: p, q, i, j, e => by
    simp only [node, List.cons_append, lookSlot] at e ⊢
    cases hs : (h.data i).get? k with
    | none => simp [hs] at e
    | some s => cases s with
      | plain v => simp [hs] at e
      | inst i' => simp only [hs] at e ⊢; exact look_append h p q i' j e

/-- All slots of `h'` are those of `h` but the one at `(i, k)`, for the identities in use. -/
structure Differ (h h' : Heap) (i : Nat) (k : Str) : Prop where
  closed : Closed h
  other : ∀ j x, j < h.next → ¬ (j = i ∧ x = k) → (h'.data j).get? x = (h.data j).get? x

theorem look_same {h h' : Heap} {i : Nat} {k : Str} (hd : Differ h h' i k) : ∀ (p : List Str) (r : Nat), r < h.next →
    (∀ q rest, p = q ++ k :: rest → node h r q ≠ some i) → lookSlot h' (.inst r) p = lookSlot h (.inst r) p
  | [], r, _, _ => rfl
  | a :: p, r, hr, hq => by
    have hne : ¬ (r = i ∧ a = k) := fun e => hq [] p (by simp [e.2]) (by simp [node, e.1])
    simp only [lookSlot, hd.other r a hr hne]
    cases hs : (h.data r).get? a with
    | none => rfl
    | some s => cases s with
      | plain v => cases p <;> rfl
      | inst j =>
        exact look_same hd p j (hd.closed r a j hr hs) (fun q rest e => by
          have := hq (a :: q) rest (by simp [e])
          simpa [node, hs] using this)

theorem node_same {h h' : Heap} {i : Nat} {k : Str} (hd : Differ h h' i k) : ∀ (p : List Str) (r : Nat), r < h.next →
    (∀ q rest, p = q ++ k :: rest → node h r q ≠ some i) → node h' r p = node h r p
  | [], r, _, _ => rfl
  | a :: p, r, hr, hq => by
    have hne : ¬ (r = i ∧ a = k) := fun e => hq [] p (by simp [e.2]) (by simp [node, e.1])
    simp only [node, hd.other r a hr hne]
    cases hs : (h.data r).get? a with
    | none => rfl
    | some s => cases s with
      | plain v => rfl
      | inst j =>
        exact node_same hd p j (hd.closed r a j hr hs) (fun q rest e => by
          have := hq (a :: q) rest (by simp [e])
          simpa [node, hs] using this)

/-- Every instance is reached from one object only, by one path. -/
structure Inv (h : Heap) (roots : Nat → Prop) : Prop where
  closed : Closed h
  used : ∀ r, roots r → r < h.next
  inj : ∀ r r' p p' i, roots r → roots r' → node h r p = some i → node h r' p' = some i → r = r' ∧ p = p'

theorem node_lt {h : Heap} (hc : Closed h) : ∀ (p : List Str) (r i : Nat), r < h.next → node h r p = some i → i < h.next
  | [], r, i, hr, e => by simp only [node, Option.some.injEq] at e; omega
  | a :: p, r, i, hr, e => by
    simp only [node] at e
    cases hs : (h.data r).get? a with
    | none => simp [hs] at e
    | some s => cases s with
      | plain v => simp [hs] at e
      | inst j => simp only [hs] at e; exact node_lt hc p j i (hc r a j hr hs) e

/-- The path to an instance does not lead through the instance. -/
theorem Inv.no_loop {h : Heap} {roots : Nat → Prop} (inv : Inv h roots) {r i : Nat} (hr : roots r) {q : List Str}
    (hq : node h r q = some i) (k : Str) : ∀ q' rest, q = q' ++ k :: rest → node h r q' ≠ some i := by
  intro q' rest e e'
  have := (inv.inj r r q q' i hr hr hq e').2
  rw [e] at this
  have := congrArg List.length this
  simp at this

/-- Replacing the item `k` of the instance at the path `q` of `r` changes what is seen below that path only. -/
theorem look_set {h h' : Heap} {roots : Nat → Prop} (inv : Inv h roots) {r i : Nat} {k : Str} (hd : Differ h h' i k) (hr : roots r)
    {q : List Str} (hq : node h r q = some i) {s : Slot} (hs : (h'.data i).get? k = some s) (r' : Nat) (hr' : roots r')
    (p : List Str) :
    lookSlot h' (.inst r') p =
      if r' = r ∧ (q ++ [k]) <+: p then lookSlot h' s (p.drop (q.length + 1)) else lookSlot h (.inst r') p := by
  by_cases hc : r' = r ∧ (q ++ [k]) <+: p
  · rw [if_pos hc]
    obtain ⟨rfl, rest, rfl⟩ := hc
    have h1 : node h' r' q = some i := by
      rw [node_same hd q r' (inv.used r' hr') (inv.no_loop hr hq k)]; exact hq
    have h2 : (q ++ [k] ++ rest).drop (q.length + 1) = rest := by
      have : q.length + 1 = (q ++ [k]).length := by simp
      rw [this, List.drop_left]
    rw [h2, List.append_assoc, look_append h' q _ r' i h1]
    simp only [List.singleton_append, lookSlot, hs]
  · rw [if_neg hc]
    refine look_same hd p r' (inv.used r' hr') (fun q' rest e e' => hc ?_)
    obtain ⟨h1, h2⟩ := inv.inj r' r q' q i hr' hr e' hq
    subst h2
    exact ⟨h1, rest, by simp [e]⟩

theorem setSlot_differ {h : Heap} (hc : Closed h) (i : Nat) (k : Str) (s : Slot) : Differ h (setSlot h i k s) i k := by
  refine ⟨hc, fun j x _ hne => ?_⟩
  simp only [setSlot]
  by_cases hj : j = i
  · subst hj; simp only [if_true, AList.get?_set]
    rw [if_neg (fun e => hne ⟨rfl, e.symm⟩)]
  · simp [hj]

theorem setSlot_get (h : Heap) (i : Nat) (k : Str) (s : Slot) : ((setSlot h i k s).data i).get? k = some s := by
  simp [setSlot, AList.get?_set]

/-- With a plain value in a slot, no new instance is reached. -/
theorem node_plain {h h' : Heap} {i : Nat} {k : Str} {v : Val} (hd : Differ h h' i k) (hs : (h'.data i).get? k = some (.plain v)) :
    ∀ (p : List Str) (r j : Nat), r < h.next → node h' r p = some j → node h r p = some j
  | [], r, j, _, e => e
  | a :: p, r, j, hr, e => by
    by_cases hne : r = i ∧ a = k
    · obtain ⟨rfl, rfl⟩ := hne
      simp [node, hs] at e
    · simp only [node, hd.other r a hr hne] at e ⊢
      cases ho : (h.data r).get? a with
      | none => simp [ho] at e
      | some s => cases s with
        | plain w => simp [ho] at e
        | inst j' =>
          simp only [ho] at e ⊢
          exact node_plain hd hs p j' j (hd.closed r a j' hr ho) e

theorem Inv.assign {h : Heap} {roots : Nat → Prop} (inv : Inv h roots) (i : Nat) (k : Str) (v : Val) :
    Inv (setSlot h i k (.plain v)) roots := by
  have hd := setSlot_differ inv.closed i k (.plain v)
  have hs := setSlot_get h i k (.plain v)
  refine ⟨?_, inv.used, ?_⟩
  · intro a x j ha e
    by_cases hne : a = i ∧ x = k
    · obtain ⟨rfl, rfl⟩ := hne; rw [hs] at e; cases e
    · rw [hd.other a x ha hne] at e; exact inv.closed a x j ha e
  · intro r r' p p' j hr hr' e e'
    exact inv.inj r r' p p' j hr hr' (node_plain hd hs p r j (inv.used r hr) e) (node_plain hd hs p' r' j (inv.used r' hr') e')

theorem slots_get (d : List (Str × Val)) (k : Str) : (slots d).get? k = (AList.get? d k).map Slot.plain := by
  induction d with
  | nil => rfl
  | cons p d ih =>
    obtain ⟨a, v⟩ := p
    simp only [slots, List.map_cons, AList.get?] at ih ⊢
    by_cases h : a = k
    · simp [h]
    · simp only [h, if_false]; exact ih

/-- The heap after an item became an instance. -/
def made (h : Heap) (i : Nat) (k : Str) (d : List (Str × Val)) : Heap :=
  setSlot (alloc h (slots d)) i k (.inst h.next)

theorem made_differ {h : Heap} (hc : Closed h) (i : Nat) (k : Str) (d : List (Str × Val)) : Differ h (made h i k d) i k := by
  refine ⟨hc, fun j x hj hne => ?_⟩
  simp only [made, setSlot, alloc]
  have hn : j ≠ h.next := by omega
  by_cases hj' : j = i
  · subst hj'
    simp only [if_true, hn, if_false, AList.get?_set]
    rw [if_neg (fun e => hne ⟨rfl, e.symm⟩)]
  · simp [hj', hn]

theorem made_get (h : Heap) (i : Nat) (k : Str) (d : List (Str × Val)) : ((made h i k d).data i).get? k = some (.inst h.next) :=
  setSlot_get _ _ _ _

theorem made_new (h : Heap) (i : Nat) (hi : i < h.next) (k : Str) (d : List (Str × Val)) : (made h i k d).data h.next = slots d := by
  have : h.next ≠ i := by omega
  simp [made, setSlot, alloc, this]

/-- What is reached afterwards: what was reached before, and the new instance. -/
theorem node_made {h : Heap} (hc : Closed h) {i : Nat} (hi : i < h.next) (k : Str) (d : List (Str × Val)) :
    ∀ (p : List Str) (r j : Nat), r < h.next → node (made h i k d) r p = some j →
      (node h r p = some j) ∨ (j = h.next ∧ ∃ q, p = q ++ [k] ∧ node h r q = some i)
  | [], r, j, _, e => .inl e
  | a :: p, r, j, hr, e => by
    by_cases hne : r = i ∧ a = k
    · obtain ⟨rfl, rfl⟩ := hne
      simp only [node, made_get] at e
      cases p with
      | nil =>
        simp only [node, Option.some.injEq] at e
        exact .inr ⟨e.symm, [], rfl, rfl⟩
      | cons b p =>
        simp only [node, made_new h r hi, slots_get] at e
        cases hb : AList.get? d b <;> simp [hb] at e
    · simp only [node, (made_differ hc i k d).other r a hr hne] at e ⊢
      cases ho : (h.data r).get? a with
      | none => simp [ho] at e
      | some s => cases s with
        | plain w => simp [ho] at e
        | inst j' =>
          simp only [ho] at e ⊢
          rcases node_made hc hi k d p j' j (hc r a j' hr ho) e with h1 | ⟨h1, q, h2, h3⟩
          · exact .inl h1
          · exact .inr ⟨h1, a :: q, by simp [h2], by simp [node, ho, h3]⟩

theorem Inv.made {h : Heap} {roots : Nat → Prop} (inv : Inv h roots) {i : Nat} (hi : i < h.next) (k : Str) (d : List (Str × Val)) :
    Inv (made h i k d) roots := by
  have hd := made_differ inv.closed i k d
  refine ⟨?_, fun r hr => Nat.lt_succ_of_lt (inv.used r hr), ?_⟩
  · intro a x j ha e
    show j < h.next + 1
    have ha : a < h.next + 1 := ha
    by_cases hn : a = h.next
    · subst hn; rw [made_new h i hi, slots_get] at e
      cases hb : AList.get? d x <;> simp [hb] at e
    · have ha' : a < h.next := by omega
      by_cases hne : a = i ∧ x = k
      · obtain ⟨rfl, rfl⟩ := hne; rw [made_get] at e; cases e; omega
      · rw [hd.other a x ha' hne] at e
        exact Nat.lt_succ_of_lt (inv.closed a x j ha' e)
  · intro r r' p p' j hr hr' e e'
    have l1 := node_made inv.closed hi k d p r j (inv.used r hr) e
    have l2 := node_made inv.closed hi k d p' r' j (inv.used r' hr') e'
    have lt : ∀ r p, roots r → node h r p = some j → j < h.next := fun r p hr e => node_lt inv.closed p r j (inv.used r hr) e
    rcases l1 with h1 | ⟨h1, q, h2, h3⟩
    · rcases l2 with h4 | ⟨h4, _⟩
      · exact inv.inj r r' p p' j hr hr' h1 h4
      · have := lt r p hr h1; omega
    · rcases l2 with h4 | ⟨_, q', h5, h6⟩
      · have := lt r' p' hr' h4; omega
      · obtain ⟨h7, h8⟩ := inv.inj r r' q q' i hr hr' h3 h6
        exact ⟨h7, by rw [h2, h5, h8]⟩

/-- An instance made from a dictionary shows what the dictionary showed. -/
theorem look_made (h : Heap) (i : Nat) (hi : i < h.next) (k : Str) (d : List (Str × Val)) (p : List Str) :
    lookSlot (made h i k d) (.inst h.next) p = lookVal (.dict d) p := by
  cases p with
  | nil => simp [lookSlot, lookVal]
  | cons a p =>
    simp only [lookSlot, made_new h i hi, slots_get, lookVal]
    cases hb : AList.get? d a with
    | none => rfl
    | some v => cases p <;> rfl

theorem lookSlot_plain (h : Heap) (v : Val) (p : List Str) : lookSlot h (.plain v) p = lookVal v p := by
  cases p <;> rfl

/-- Reading one item. -/
theorem readItem_spec {h : Heap} {roots : Nat → Prop} (inv : Inv h roots) {r i : Nat} (hr : roots r) {q : List Str}
    (hq : node h r q = some i) (k : Str) :
    Inv (readItem h i k).2 roots ∧
    (∀ r', roots r' → ∀ p, lookSlot (readItem h i k).2 (.inst r') p = lookSlot h (.inst r') p) ∧
    (∀ j, (readItem h i k).1 = .ok (.inst j) → node (readItem h i k).2 r (q ++ [k]) = some j) ∧
    ((∃ j, (readItem h i k).1 = .ok (.inst j)) ↔ lookSlot h (.inst i) [k] = some (.dict [])) ∧
    (∀ j, (readItem h i k).1 = .ok (.inst j) → ∀ p, lookSlot (readItem h i k).2 (.inst j) p = lookSlot h (.inst i) (k :: p)) ∧
    (∀ v, (readItem h i k).1 = .ok (.plain v) → ∀ p, lookSlot h (.inst i) (k :: p) = lookVal v p) ∧
    (∀ e, (readItem h i k).1 = .error e → ∀ p, lookSlot h (.inst i) (k :: p) = none) := by
  have hi : i < h.next := node_lt inv.closed q r i (inv.used r hr) hq
  cases hs : (h.data i).get? k with
  | none =>
    have : readItem h i k = (.error .keyError, h) := by simp [readItem, hs]
    simp [this, inv, lookSlot, hs]
  | some s =>
    cases s with
    | inst j =>
      have : readItem h i k = (.ok (.inst j), h) := by simp [readItem, hs]
      rw [this]
      refine ⟨inv, fun _ _ _ => rfl, fun j' e => ?_, ?_, fun j' e p => ?_, fun v e => by simp at e, fun e he => by simp at he⟩
      · simp only [Except.ok.injEq, Slot.inst.injEq] at e; subst e
        rw [node_append h q [k] r i hq]; simp [node, hs]
      · simp [lookSlot, hs]
      · simp only [Except.ok.injEq, Slot.inst.injEq] at e; subst e
        simp [lookSlot, hs]
    | plain v =>
      by_cases hv : ∃ d, v = .dict d
      · obtain ⟨d, rfl⟩ := hv
        have : readItem h i k = (.ok (.inst h.next), made h i k d) := by simp [readItem, hs, made]
        rw [this]
        have hd := made_differ inv.closed i k d
        refine ⟨inv.made hi k d, fun r' hr' p => ?_, fun j' e => ?_, ?_, fun j' e p => ?_, fun v e => by simp at e, fun e he => by simp at he⟩
        · show lookSlot (made h i k d) (.inst r') p = _
          rw [look_set inv hd hr hq (made_get h i k d) r' hr' p]
          by_cases hc : r' = r ∧ (q ++ [k]) <+: p
          · rw [if_pos hc, look_made h i hi]
            obtain ⟨rfl, rest, rfl⟩ := hc
            have h2 : (q ++ [k] ++ rest).drop (q.length + 1) = rest := by
              have : q.length + 1 = (q ++ [k]).length := by simp
              rw [this, List.drop_left]
            rw [h2, List.append_assoc, look_append h q _ r' i hq]
            simp only [List.singleton_append, lookSlot, hs, lookSlot_plain]
          · rw [if_neg hc]
        · simp only [Except.ok.injEq, Slot.inst.injEq] at e; subst e
          show node (made h i k d) r (q ++ [k]) = _
          rw [node_append (made h i k d) q [k] r i
            ((node_same hd q r (inv.used r hr) (inv.no_loop hr hq k)).trans hq)]
          simp [node, made_get]
        · simp [lookSlot, hs, lookVal]
        · simp only [Except.ok.injEq, Slot.inst.injEq] at e; subst e
          show lookSlot (made h i k d) (.inst h.next) p = _
          rw [look_made h i hi]; simp only [lookSlot, hs, lookSlot_plain]
      · have : readItem h i k = (.ok (.plain v), h) := by
          cases v <;> first | exact absurd ⟨_, rfl⟩ hv | simp [readItem, hs]
        rw [this]
        refine ⟨inv, fun _ _ _ => rfl, fun j' e => by simp at e, ?_, fun j' e p => by simp at e, fun w e p => ?_, fun e he => by simp at he⟩
        · simp only [Except.ok.injEq, reduceCtorEq, exists_false, lookSlot, hs, lookSlot_plain, false_iff]
          cases v <;> first | exact absurd ⟨_, rfl⟩ hv | simp [lookVal]
        · simp only [Except.ok.injEq, Slot.plain.injEq] at e; subst e
          simp only [lookSlot, hs, lookSlot_plain]

/-- Walking along a path. -/
theorem walk_spec {roots : Nat → Prop} : ∀ (ks : List Str) (h : Heap) (r i : Nat) (q : List Str), Inv h roots → roots r →
    node h r q = some i →
    Inv (walk h i ks).2 roots ∧
    (∀ r', roots r' → ∀ p, lookSlot (walk h i ks).2 (.inst r') p = lookSlot h (.inst r') p) ∧
    (∀ j, (walk h i ks).1 = .ok j → node (walk h i ks).2 r (q ++ ks) = some j) ∧
    ((∃ j, (walk h i ks).1 = .ok j) ↔ lookSlot h (.inst i) ks = some (.dict []))
  | [], h, r, i, q, inv, hr, hq => by
    simp [walk, inv, lookSlot, hq]
  | k :: ks, h, r, i, q, inv, hr, hq => by
    obtain ⟨h1, h2, h3, h4, h5, h6, h7⟩ := readItem_spec inv hr hq k
    simp only [walk]
    cases hx : readItem h i k with
    | mk res h' =>
      rw [hx] at h1 h2 h3 h4 h5 h6 h7
      cases res with
      | error e =>
        refine ⟨h1, h2, by simp, ?_⟩
        rw [h7 e rfl ks]; simp
      | ok s => cases s with
        | plain v =>
          refine ⟨h1, h2, by simp, ?_⟩
          rw [h6 v rfl ks]
          have hv : lookVal v [] ≠ some (.dict []) := fun e => by
            obtain ⟨j, hj⟩ := h4.2 (by rw [h6 v rfl []]; exact e)
            simp at hj
          simp only [reduceCtorEq, exists_false, false_iff]
          cases ks with
          | nil => exact hv
          | cons a ks => cases v <;> simp [lookVal] at hv ⊢
        | inst j =>
          obtain ⟨g1, g2, g3, g4⟩ := walk_spec ks h' r j (q ++ [k]) h1 hr (h3 j rfl)
          refine ⟨g1, fun r' hr' p => (g2 r' hr' p).trans (h2 r' hr' p), fun j' e => ?_, ?_⟩
          · have := g3 j' e; rwa [List.append_assoc, List.singleton_append] at this
          · exact g4.trans (by rw [h5 j rfl ks])

end Verif.Copy
