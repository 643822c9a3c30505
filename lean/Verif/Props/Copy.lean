import Verif.Lemmas.Copy
/-
C139: copies of objects are independent.
-/
namespace Verif.Copy

/-- One operation on one of the objects. -/
private theorem step_spec {roots : Nat → Prop} {h : Heap} (inv : Inv h roots) {r : Nat} (hr : roots r) (op : Op) :
    Inv (step h r op) roots ∧ ∀ r', roots r' → ∀ p,
      look (step h r op) r' p = match op with
        | .read _ => look h r' p
        | .assign path k v => if r = r' then updated (look h r') path k v p else look h r' p := by
  cases op with
  | read path =>
    obtain ⟨h1, h2, _, _⟩ := walk_spec path h r r [] inv hr rfl
    exact ⟨h1, h2⟩
  | assign path k v =>
    obtain ⟨h1, h2, h3, h4⟩ := walk_spec path h r r [] inv hr rfl
    simp only [step, assign]
    cases hw : walk h r path with
    | mk res h' =>
      rw [hw] at h1 h2 h3 h4
      cases res with
      | error e =>
        refine ⟨h1, fun r' hr' p => ?_⟩
        by_cases e' : r = r'
        · subst e'
          rw [if_pos rfl, updated, if_neg (fun hc => ?_)]
          · exact h2 r hr' p
          · obtain ⟨j, hj⟩ := h4.2 hc.1
            simp at hj
        · rw [if_neg e']; exact h2 r' hr' p
      | ok i =>
        have hi := h3 i rfl
        rw [List.nil_append] at hi
        refine ⟨h1.assign i k v, fun r' hr' p => ?_⟩
        have := look_set h1 (setSlot_differ h1.closed i k (.plain v)) hr hi (setSlot_get _ i k _) r' hr' p
        refine this.trans ?_
        have ho := h4.1 ⟨i, rfl⟩
        by_cases e' : r = r'
        · subst e'
          rw [if_pos rfl, updated]
          by_cases hp : (path ++ [k]) <+: p
          · rw [if_pos ⟨rfl, hp⟩, if_pos ⟨ho, hp⟩, lookSlot_plain]
          · rw [if_neg (fun hc => hp hc.2), if_neg (fun hc => hp hc.2)]; exact h2 r hr' p
        · rw [if_neg (fun hc => e' hc.1.symm), if_neg e']; exact h2 r' hr' p

private theorem run_spec {roots : Nat → Prop} : ∀ (ops : List (Nat × Op)) (h : Heap), Inv h roots → (∀ x ∈ ops, roots x.1) →
    ∀ r, roots r → ∀ p, look (run h ops) r p = after r (look h r) ops p
  | [], h, _, _, r, _, p => rfl
  | (i, op) :: ops, h, inv, hops, r, hr, p => by
    obtain ⟨h1, h2⟩ := step_spec inv (hops (i, op) (by simp)) op
    have := run_spec ops (step h i op) h1 (fun x hx => hops x (List.mem_cons_of_mem _ hx)) r hr p
    rw [run, this]
    have hv : look (step h i op) r = fun p => _ := funext (h2 r hr)
    cases op with
    | read path => rw [after, hv]
    | assign path k v =>
      rw [after, hv]
      by_cases e : i = r
      · simp [e]
      · simp [e]

/-- **C139, the part that holds.** A copy of an object none of whose items has become an instance starts with the
content of the object; afterwards, whatever reads and assignments to any depth are done on the two, in any order, each
has the content its own assignments give. -/
theorem C139_independent_partial (h : Heap) (hc : Closed h) (o : Nat) (ho : o < h.next)
    (plain : ∀ k j, (h.data o).get? k ≠ some (.inst j)) (ops : List (Nat × Op))
    (hops : ∀ x ∈ ops, x.1 = o ∨ x.1 = (copy h o).1) (p : List Str) :
    look (run (copy h o).2 ops) o p = after o (look h o) ops p ∧
    look (run (copy h o).2 ops) (copy h o).1 p = after (copy h o).1 (look h o) ops p := by
  have d1 : (copy h o).2.data o = h.data o := by
    have : o ≠ h.next := by omega
    simp [copy, alloc, this]
  have d2 : (copy h o).2.data h.next = h.data o := by simp [copy, alloc]
  have np : ∀ r, r = o ∨ r = h.next → ∀ q i, node (copy h o).2 r q = some i → q = [] ∧ i = r := by
    intro r hr q i e
    have hd : (copy h o).2.data r = h.data o := by rcases hr with rfl | rfl; exact d1; exact d2
    cases q with
    | nil => simp only [node, Option.some.injEq] at e; exact ⟨rfl, e.symm⟩
    | cons k q =>
      simp only [node, hd] at e
      cases hs : (h.data o).get? k with
      | none => simp [hs] at e
      | some s => cases s with
        | plain v => simp [hs] at e
        | inst j => exact absurd hs (plain k j)
  have inv : Inv (copy h o).2 (fun r => r = o ∨ r = h.next) := by
    refine ⟨?_, ?_, ?_⟩
    · intro i k j hi e
      have hi : i < h.next + 1 := hi
      show j < h.next + 1
      by_cases hn : i = h.next
      · subst hn; rw [d2] at e; exact absurd e (plain k j)
      · have : (copy h o).2.data i = h.data i := by simp [copy, alloc, hn]
        rw [this] at e
        have := hc i k j (by omega) e
        omega
    · intro r hr
      show r < h.next + 1
      rcases hr with rfl | rfl <;> omega
    · intro r r' p p' i hr hr' e e'
      obtain ⟨h1, h2⟩ := np r hr p i e
      obtain ⟨h3, h4⟩ := np r' hr' p' i e'
      exact ⟨by rw [← h2, h4], by rw [h1, h3]⟩
  have lk : ∀ r, r = o ∨ r = h.next → look (copy h o).2 r = look h o := by
    intro r hr
    have hd : (copy h o).2.data r = h.data o := by rcases hr with rfl | rfl; exact d1; exact d2
    funext p
    cases p with
    | nil => rfl
    | cons k p =>
      simp only [look, lookSlot, hd]
      cases hs : (h.data o).get? k with
      | none => rfl
      | some s => cases s with
        | plain v => simp only [lookSlot_plain]
        | inst j => exact absurd hs (plain k j)
  constructor
  · rw [run_spec ops _ inv hops o (.inl rfl) p, lk o (.inl rfl)]
  · rw [run_spec ops _ inv hops (copy h o).1 (.inr rfl) p, lk (copy h o).1 (.inr rfl)]

private def house : Heap :=
  { next := 1
    data := fun _ => slots [("owner".toList, .dict [("name".toList, .str "Ann".toList)]), ("rooms".toList, .int 4)] }

private def work : List (Nat × Op) :=
  [(1, .assign ["owner".toList] "name".toList (.str "Bob".toList)), (0, .read ["owner".toList]),
   (0, .assign [] "rooms".toList (.int 5))]

example : Closed house ∧ (∀ k j, (house.data 0).get? k ≠ some (.inst j)) := by
  refine ⟨fun i k j _ e => ?_, fun k j e => ?_⟩ <;>
    (simp only [house, slots_get] at e; revert e;
     cases AList.get? [("owner".toList, Val.dict [("name".toList, .str "Ann".toList)]), ("rooms".toList, .int 4)] k <;> simp)

example : look (run (copy house 0).2 work) 0 ["owner".toList, "name".toList] = some (.str "Ann".toList) ∧
    look (run (copy house 0).2 work) 1 ["owner".toList, "name".toList] = some (.str "Bob".toList) ∧
    look (run (copy house 0).2 work) 1 ["rooms".toList] = some (.int 4) := by
  decide +kernel

/-- **C139 is violated.** Once an item of the object has become an instance, the copy has the same instance: what is
assigned below it through the copy is seen in the object. -/
theorem C139_shared_violated (h : Heap) (o : Nat) (ho : o < h.next) (k : Str) (j : Nat) (hj : j < h.next)
    (hs : (h.data o).get? k = some (.inst j)) (hjo : j ≠ o) (k' : Str) (v : Val) :
    look (step (copy h o).2 (copy h o).1 (.assign [k] k' v)) o [k, k'] = lookVal v [] := by
  have n1 : o ≠ h.next := by omega
  have n2 : j ≠ h.next := by omega
  have d2 : ((copy h o).2.data (copy h o).1).get? k = some (.inst j) := by simp [copy, alloc, hs]
  have r : readItem (copy h o).2 (copy h o).1 k = (.ok (.inst j), (copy h o).2) := by simp [readItem, d2]
  have : step (copy h o).2 (copy h o).1 (.assign [k] k' v) = setSlot (copy h o).2 j k' (.plain v) := by
    simp [step, assign, walk, r]
  rw [this]
  have d1 : ((setSlot (copy h o).2 j k' (.plain v)).data o).get? k = some (.inst j) := by
    simp [setSlot, hjo.symm, copy, alloc, n1, hs]
  simp only [look, lookSlot, d1, setSlot_get, lookSlot_plain]

example : look (run house [(0, .read ["owner".toList])]) 0 ["owner".toList, "name".toList] = some (.str "Ann".toList) ∧
    look (step (copy (run house [(0, .read ["owner".toList])]) 0).2 2 (.assign ["owner".toList] "name".toList (.str "Bob".toList))) 0
      ["owner".toList, "name".toList] = some (.str "Bob".toList) := by decide +kernel

end Verif.Copy
