import Verif.Lemmas.Repo
/-
C72, C73, C111, C112, C113: the memory repository.
-/
namespace Verif.Repo

/-! ### C72 -/

/-- **C72**: after any history of commits to a new repository, identities are unique; the object stored under an
identity is the last one committed under it; `in` and `resolve_fkey` find exactly the stored objects. The types
of the keys (`conv`) may be any that do not turn an integer into None. -/
theorem C72_history (conv : Nat → Key → Key) (hconv : ∀ i n, conv i (.int n) ≠ .none) (keys : Ref → List Key)
    (os : List Ref) :
    let w := (history conv (create keys []) [] os).1
    let log := (history conv (create keys []) [] os).2
    (w.content.map w.keys).Nodup ∧
    (∀ o ks, (o ∈ w.content ∧ w.keys o = ks) ↔ lastFor ks log = some o) ∧
    (∀ ks, contains w ks = true ↔ ∃ o ∈ w.content, w.keys o = ks) ∧
    (∀ ks o, resolve w ks = .ok o ↔ (o ∈ w.content ∧ w.keys o = ks)) := by
  intro w log
  have h : Inv [] keys w log := inv_history hconv (inv_create (by simp) (by simp)) os
  have hst : ∀ o ks, (o ∈ w.content ∧ w.keys o = ks) ↔ lastFor ks log = some o := by
    intro o ks
    rw [h.stored o ks]
    simp
  refine ⟨h.nodup, hst, ?_, ?_⟩
  · intro ks
    unfold contains
    rw [AList.contains_iff, ← AList.get?_isSome, h.catalog]
    constructor
    · intro hs
      obtain ⟨o, ho⟩ := Option.isSome_iff_exists.1 hs
      exact ⟨o, (hst o ks).2 ho⟩
    · rintro ⟨o, ho⟩
      rw [(hst o ks).1 ho]; rfl
  · intro ks o
    rw [hst o ks]
    unfold resolve
    rw [h.catalog]
    cases lastFor ks log <;> simp

/-- Two keys each; 0 and 1 have the same, 2 and 3 have unset ones. -/
def keysEx : Ref → List Key
  | 0 => [.int 4, .str "a".toList]
  | 1 => [.int 4, .str "a".toList]
  | 2 => [.none, .str "b".toList]
  | 3 => [.none, .str "b".toList]
  | 4 => [.int 9, .str "c".toList]
  | _ => []

def keep (_ : Nat) (k : Key) : Key := k

example : (∀ i n, keep i (.int n) ≠ .none) ∧ (history keep (create keysEx []) [] [0, 2, 3, 1, 2]).1.content = [1, 2, 3] ∧
    (history keep (create keysEx []) [] [0, 2, 3, 1, 2]).2 =
      [([.int 5, .str "b".toList], 2), ([.int 4, .str "a".toList], 1), ([.int 6, .str "b".toList], 3),
       ([.int 5, .str "b".toList], 2), ([.int 4, .str "a".toList], 0)] := by
  refine ⟨by simp [keep], by decide +kernel, by decide +kernel⟩

/-! ### C73 -/

/-- **C73**: in any state of the repository, a commit that succeeds keeps the keys that were set; gives an integer
for each unset one, which no stored object has at that place (the next after the greatest, or 0); and if there was
an unset one, the object is added after the stored ones and no identity held before is reassigned in the
catalogue. -/
theorem C73_fresh (conv : Nat → Key → Key) (hconv : ∀ i n, conv i (.int n) = .int n) (w : World) (o : Ref)
    (h : (commit conv w o).2 = .ok ()) :
    let w' := (commit conv w o).1
    (w'.keys o).length = (w.keys o).length ∧
    (∀ (i : Nat) k, (w.keys o)[i]? = some k → k ≠ Key.none → (w'.keys o)[i]? = some k) ∧
    (∀ (i : Nat), (w.keys o)[i]? = some Key.none → ∃ n, 0 ≤ n ∧ (w'.keys o)[i]? = some (Key.int n) ∧
      (∀ c ∈ w.content, (w.keys c)[i]? ≠ some (Key.int n)) ∧
      (n = 0 ∨ ∃ c ∈ w.content, (w.keys c)[i]? = some (Key.int (n - 1)))) ∧
    (∀ x, x ≠ o → w'.keys x = w.keys x) ∧
    (Key.none ∈ w.keys o → w'.content = w.content ++ [o] ∧
      ∀ c ∈ w.content, AList.get? w'.catalog (w.keys c) = AList.get? w.catalog (w.keys c)) := by
  intro w'
  obtain ⟨hc, hcat, hoth⟩ := assign_content conv o 0 (w.keys o) w
  have hkeys := assign_keys conv o 0 (w.keys o) w (by simp)
  have hw' : (assign conv o 0 (w.keys o) w).2 = .ok () ∧
      w' = { (assign conv o 0 (w.keys o) w).1 with
        catalog := AList.set (assign conv o 0 (w.keys o) w).1.catalog ((assign conv o 0 (w.keys o) w).1.keys o) o,
        content := store (assign conv o 0 (w.keys o) w).1.keys o (assign conv o 0 (w.keys o) w).1.content } := by
    show _ ∧ (commit conv w o).1 = _
    unfold commit at h ⊢
    generalize assign conv o 0 (w.keys o) w = A at h ⊢
    obtain ⟨v, r⟩ := A
    cases r with
    | error e => cases h
    | ok u => exact ⟨rfl, rfl⟩
  obtain ⟨hok, hw'⟩ := hw'
  obtain ⟨h1, h2⟩ := hkeys hok
  generalize assign conv o 0 (w.keys o) w = A at *
  have hk : w'.keys = A.1.keys := by rw [hw']
  have fresh : ∀ (i : Nat), (w.keys o)[i]? = some Key.none → ∃ n, 0 ≤ n ∧ (w'.keys o)[i]? = some (Key.int n) ∧
      (∀ c ∈ w.content, c ≠ o ∧ ∃ x, (w.keys c)[i]? = some (Key.int x) ∧ x < n) ∧
      (n = 0 ∨ ∃ c ∈ w.content, (w.keys c)[i]? = some (Key.int (n - 1))) := by
    intro i hi
    obtain ⟨n, g1, g2, g3, g4, g5⟩ := (h2 i).2.2 (Nat.zero_le _) hi
    rw [hconv] at g2
    refine ⟨n, g1, by rw [hk]; exact g2, fun c hcm => ?_, g5⟩
    have : c ≠ o := by rintro rfl; exact g4 hcm
    exact ⟨this, g3 c hcm this⟩
  refine ⟨by rw [hk]; exact h1, fun i k => by rw [hk]; exact (h2 i).2.1 k, ?_, fun x hx => by rw [hk]; exact hoth x hx, ?_⟩
  · intro i hi
    obtain ⟨n, g1, g2, g3, g4⟩ := fresh i hi
    refine ⟨n, g1, g2, fun c hcm e => ?_, g4⟩
    obtain ⟨-, x, hx, hlt⟩ := g3 c hcm
    rw [e, Option.some.injEq, Key.int.injEq] at hx
    omega
  · intro hn
    obtain ⟨i, hi⟩ := List.mem_iff_getElem?.1 hn
    obtain ⟨n, g1, g2, g3, -⟩ := fresh i hi
    have hne : ∀ c ∈ w.content, w'.keys o ≠ w.keys c := by
      intro c hcm e
      obtain ⟨-, x, hx, hlt⟩ := g3 c hcm
      rw [← e, g2, Option.some.injEq, Key.int.injEq] at hx
      omega
    constructor
    · rw [hw']
      simp only
      rw [hc, store_new]
      intro c hcm
      rw [← hk, hk, hoth c (g3 c hcm).1, ← hk]
      exact hne c hcm
    · intro c hcm
      rw [hw']
      simp only
      rw [← hk, AList.get?_set, if_neg (hne c hcm), hcat]

example : (∀ i n, keep i (.int n) = .int n) ∧ (commit keep (create keysEx [0]) 2).2 = .ok () ∧
    Key.none ∈ (create keysEx [0]).keys 2 ∧ (commit keep (create keysEx [0]) 2).1.keys 2 = [.int 5, .str "b".toList] :=
  ⟨fun _ _ => rfl, by decide +kernel, by decide +kernel, by decide +kernel⟩

/-- The loop over the keys succeeds when there is something to compare with. -/
theorem assign_ok (conv : Nat → Key → Key) (o : Ref) (i : Nat) (ks : List Key) (w : World) (ho : o ∉ w.content)
    (hlen : ∀ c ∈ w.content, i + ks.length ≤ (w.keys c).length)
    (hint : ∀ j, ks[j]? = some Key.none → ∀ c ∈ w.content, ∃ n, (w.keys c)[i + j]? = some (Key.int n)) :
    (assign conv o i ks w).2 = .ok () := by
  induction ks generalizing i w with
  | nil => rfl
  | cons k ks ih =>
    rw [assign]
    have hother : ∀ c ∈ w.content, c ≠ o := by rintro c hc rfl; exact ho hc
    obtain ⟨iks, hiks⟩ := column_ok' (keys := w.keys) (i := i) (cs := w.content) (fun c hc => by
      have := hlen c hc; simp only [List.length_cons] at this; omega)
    rw [hiks]
    simp only
    split
    · rename_i hk
      obtain ⟨iks', h1, h2⟩ := column_ok (keys := w.keys) (i := i) (cs := w.content) (fun c hc => by
        simpa using hint 0 (by simp [hk]) c hc)
      rw [hiks] at h1
      cases h1
      obtain ⟨n, hn⟩ := nextKey_ok (m := -1) h2
      rw [hn]
      have hkk : ∀ c ∈ w.content, (setKey conv w o i (.int n)).keys c = w.keys c := by
        intro c hc; simp [setKey, hother c hc]
      refine ih (i + 1) (setKey conv w o i (.int n)) ho ?_ ?_
      · intro c hc
        rw [hkk c hc]
        have := hlen c hc
        simp only [List.length_cons] at this
        omega
      · intro j hj c hc
        rw [hkk c hc]
        have := hint (j + 1) (by simpa using hj) c hc
        rwa [show i + (j + 1) = i + 1 + j by omega] at this
    · refine ih (i + 1) w ho ?_ ?_
      · intro c hc
        have := hlen c hc
        simp only [List.length_cons] at this
        omega
      · intro j hj c hc
        have := hint (j + 1) (by simpa using hj) c hc
        rwa [show i + (j + 1) = i + 1 + j by omega] at this

/-- **C73**: the commit of an object that is not stored succeeds if every stored object has as many keys, integers
where the object has unset ones. -/
theorem C73_succeeds (conv : Nat → Key → Key) (w : World) (o : Ref) (ho : o ∉ w.content)
    (hlen : ∀ c ∈ w.content, (w.keys o).length ≤ (w.keys c).length)
    (hint : ∀ (i : Nat), (w.keys o)[i]? = some Key.none → ∀ c ∈ w.content, ∃ n, (w.keys c)[i]? = some (Key.int n)) :
    (commit conv w o).2 = .ok () := by
  have := assign_ok conv o 0 (w.keys o) w ho (by simpa using hlen) (by simpa using hint)
  unfold commit
  generalize assign conv o 0 (w.keys o) w = A at this ⊢
  obtain ⟨v, r⟩ := A
  simp only at this
  subst this
  rfl

example : 2 ∉ (create keysEx [0]).content ∧ (∀ c ∈ (create keysEx [0]).content, (keysEx 2).length ≤ (keysEx c).length) ∧
    (∀ (i : Nat), (keysEx 2)[i]? = some Key.none → ∀ c ∈ (create keysEx [0]).content, ∃ n, (keysEx c)[i]? = some (Key.int n)) := by
  refine ⟨by simp [create], by simp [create, keysEx], ?_⟩
  intro i hi c hc
  simp only [create, List.mem_singleton] at hc
  subst hc
  match i with
  | 0 => exact ⟨4, rfl⟩
  | 1 => simp [keysEx] at hi
  | i + 2 => simp [keysEx] at hi

/-! ### C111: repositories of one object -/

/-- **C111 violated**: whatever a repository of a single object is created with, no object can be committed to it:
every commit of every history is refused with TypeError and leaves the content as it was. -/
theorem C111_single_violated (value : List Ref) :
    ∃ c, createSingle value = .ok c ∧ ∀ os : List Ref,
      os.foldl (fun c o => (commitSingle c o).1) c = .list value ∧
      ∀ o, (commitSingle (os.foldl (fun c o => (commitSingle c o).1) c) o).2 = .error .typeError := by
  refine ⟨.list value, rfl, fun os => ?_⟩
  have : os.foldl (fun c o => (commitSingle c o).1) (.list value) = .list value := by
    induction os with
    | nil => rfl
    | cons o os ih => exact ih
  rw [this]
  exact ⟨rfl, fun _ => rfl⟩

/-! ### C112: repositories created with a content -/

/-- **C112 violated**: a repository created with objects finds none of them. -/
theorem C112_initial_violated (keys : Ref → List Key) (initial : List Ref) (ks : List Key) :
    contains (create keys initial) ks = false ∧ resolve (create keys initial) ks = .error .keyError := ⟨rfl, rfl⟩

/-- **C112** (in part: initial objects with unique identities, all set, which stay out of the catalogue until they
are committed again): the repository then behaves as in C72, and finds exactly the objects committed since. -/
theorem C112_initial_partial (conv : Nat → Key → Key) (hconv : ∀ i n, conv i (.int n) ≠ .none) (keys : Ref → List Key)
    (initial : List Ref) (hn : (initial.map keys).Nodup) (hs : ∀ c ∈ initial, Key.none ∉ keys c) (os : List Ref) :
    let w := (history conv (create keys initial) [] os).1
    let log := (history conv (create keys initial) [] os).2
    (w.content.map w.keys).Nodup ∧
    (∀ o ks, (o ∈ w.content ∧ w.keys o = ks) ↔
      (lastFor ks log = some o ∨ (lastFor ks log = none ∧ o ∈ initial ∧ keys o = ks))) ∧
    (∀ ks o, resolve w ks = .ok o ↔ lastFor ks log = some o) := by
  intro w log
  have h0 := inv_create hn hs
  have h : Inv initial keys w log := inv_history hconv h0 os
  refine ⟨h.nodup, ?_, ?_⟩
  · intro o ks
    rw [h.stored o ks]
    have h0' := h0.stored o ks
    simp only [create, lastFor, Option.none_or] at h0'
    cases hl : lastFor ks log with
    | none => simp [h0']
    | some x => simp
  · intro ks o
    unfold resolve
    rw [h.catalog]
    cases lastFor ks log <;> simp

example : ((([0, 4].map keysEx).Nodup) ∧ ∀ c ∈ [0, 4], Key.none ∉ keysEx c) ∧
    (history keep (create keysEx [0, 4]) [] [1]).1.content = [1, 4] ∧
    (history keep (create keysEx [0, 4]) [] [1]).1.catalog = [([.int 4, .str "a".toList], 1)] := by
  refine ⟨⟨by decide +kernel, by decide +kernel⟩, ?_, ?_⟩ <;> decide +kernel

/-! ### C113: objects whose keys change -/

/-- **C113 violated**: a stored object whose key has changed is still found under the old identity, also after it is
committed again; and two stored objects may come to have the same identity. -/
theorem C113_changed_violated :
    (∃ (w : World) (o : Ref), w = (history keep (create keysEx []) [] [0]).1 ∧
      (let w2 := (commit keep (userSet w o 0 (.int 7)) o).1
       w2.content = [o] ∧ w2.keys o = [.int 7, .str "a".toList] ∧ resolve w2 [.int 4, .str "a".toList] = .ok o)) ∧
    (∃ (w : World) (a b : Ref), w = (history keep (create keysEx []) [] [0, 2]).1 ∧ a ≠ b ∧
      (let w2 := userSet (userSet w b 0 (.int 4)) b 1 (.str "a".toList)
       w2.content = [a, b] ∧ w2.keys a = w2.keys b)) := by
  refine ⟨⟨_, 0, rfl, ?_⟩, ⟨_, 0, 2, rfl, by decide, ?_⟩⟩ <;> decide +kernel

/-- **C113** (in part: what a commit guarantees whatever happened to the keys before): if a commit succeeds, the
object is stored and found under its current identity. -/
theorem C113_commit_partial (conv : Nat → Key → Key) (w : World) (o : Ref) (h : (commit conv w o).2 = .ok ()) :
    o ∈ (commit conv w o).1.content ∧ resolve (commit conv w o).1 ((commit conv w o).1.keys o) = .ok o := by
  unfold commit at h ⊢
  generalize assign conv o 0 (w.keys o) w = A at h ⊢
  obtain ⟨v, r⟩ := A
  cases r with
  | error e => cases h
  | ok u =>
    simp only
    refine ⟨?_, by simp [resolve, AList.get?_set_self]⟩
    generalize v.content = cs
    induction cs with
    | nil => simp [store]
    | cons c cs ih => rw [store]; split <;> simp [ih]

example : (commit keep (userSet (history keep (create keysEx []) [] [0]).1 0 0 (.int 7)) 0).2 = .ok () := by decide +kernel

end Verif.Repo
