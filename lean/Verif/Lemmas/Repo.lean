import Verif.Spec.Repo
namespace Verif.Repo

theorem column_mem {keys : Ref → List Key} {i : Nat} {cs : List Ref} {ks : List Key} (h : column keys i cs = .ok ks) :
    ∀ c ∈ cs, ∃ k ∈ ks, (keys c)[i]? = some k := by
  induction cs generalizing ks with
  | nil => simp
  | cons c cs ih =>
    rw [column] at h
    split at h
    · rename_i k hk
      cases hr : column keys i cs with
      | error e => rw [hr] at h; cases h
      | ok ks' =>
        rw [hr] at h
        cases h
        intro x hx
        rcases List.mem_cons.1 hx with rfl | hx
        · exact ⟨k, by simp, hk⟩
        · obtain ⟨k', h1, h2⟩ := ih hr x hx
          exact ⟨k', by simp [h1], h2⟩
    · cases h

theorem column_ok {keys : Ref → List Key} {i : Nat} {cs : List Ref} (h : ∀ c ∈ cs, ∃ n, (keys c)[i]? = some (.int n)) :
    ∃ ks, column keys i cs = .ok ks ∧ ∀ k ∈ ks, ∃ n, k = .int n := by
  induction cs with
  | nil => exact ⟨[], rfl, by simp⟩
  | cons c cs ih =>
    obtain ⟨ks, h1, h2⟩ := ih (fun x hx => h x (by simp [hx]))
    obtain ⟨n, hn⟩ := h c (by simp)
    refine ⟨.int n :: ks, ?_, ?_⟩
    · rw [column, hn]; simp [h1, bind, Except.bind, pure, Except.pure]
    · intro k hk
      rcases List.mem_cons.1 hk with rfl | hk
      · exact ⟨n, rfl⟩
      · exact h2 k hk

theorem column_ok' {keys : Ref → List Key} {i : Nat} {cs : List Ref} (h : ∀ c ∈ cs, i < (keys c).length) :
    ∃ ks, column keys i cs = .ok ks := by
  induction cs with
  | nil => exact ⟨[], rfl⟩
  | cons c cs ih =>
    obtain ⟨ks, h1⟩ := ih (fun x hx => h x (by simp [hx]))
    refine ⟨(keys c)[i]'(h c (by simp)) :: ks, ?_⟩
    rw [column, List.getElem?_eq_getElem (h c (by simp))]; simp [h1, bind, Except.bind, pure, Except.pure]

theorem nextKey_gt {m : Int} {ks : List Key} {n : Int} (h : nextKey m ks = .ok n) :
    m < n ∧ ∀ k ∈ ks, ∃ x, k = .int x ∧ x < n := by
  induction ks generalizing m with
  | nil => simp only [nextKey, Except.ok.injEq] at h; subst h; exact ⟨by omega, by simp⟩
  | cons k ks ih =>
    cases k with
    | none => simp [nextKey] at h
    | str s => simp [nextKey] at h
    | int x =>
      rw [nextKey] at h
      obtain ⟨h1, h2⟩ := ih h
      refine ⟨by split at h1 <;> omega, ?_⟩
      intro k hk
      rcases List.mem_cons.1 hk with rfl | hk
      · exact ⟨x, rfl, by split at h1 <;> omega⟩
      · exact h2 k hk

theorem nextKey_ok {m : Int} {ks : List Key} (h : ∀ k ∈ ks, ∃ x, k = .int x) : ∃ n, nextKey m ks = .ok n := by
  induction ks generalizing m with
  | nil => exact ⟨_, rfl⟩
  | cons k ks ih =>
    obtain ⟨x, rfl⟩ := h k (by simp)
    rw [nextKey]
    exact ih (fun k hk => h k (by simp [hk]))

/-- The smallest choice: one more than some stored key, or 0. -/
theorem nextKey_tight {m : Int} {ks : List Key} {n : Int} (h : nextKey m ks = .ok n) : n = m + 1 ∨ .int (n - 1) ∈ ks := by
  induction ks generalizing m with
  | nil => simp only [nextKey, Except.ok.injEq] at h; exact .inl h.symm
  | cons k ks ih =>
    cases k with
    | none => simp [nextKey] at h
    | str s => simp [nextKey] at h
    | int x =>
      rw [nextKey] at h
      rcases ih h with e | e
      · split at e
        · right; subst e; simp
        · exact .inl e
      · right; simp [e]

/-! ### Assigning keys -/

theorem assign_content (conv : Nat → Key → Key) (o : Ref) (i : Nat) (ks : List Key) (w : World) :
    (assign conv o i ks w).1.content = w.content ∧ (assign conv o i ks w).1.catalog = w.catalog ∧
    ∀ x, x ≠ o → (assign conv o i ks w).1.keys x = w.keys x := by
  induction ks generalizing i w with
  | nil => exact ⟨rfl, rfl, fun x _ => rfl⟩
  | cons k ks ih =>
    rw [assign]
    split
    · exact ⟨rfl, rfl, fun x _ => rfl⟩
    · split
      · split
        · exact ⟨rfl, rfl, fun x _ => rfl⟩
        · rename_i n _
          obtain ⟨h1, h2, h3⟩ := ih (i + 1) (setKey conv w o i (.int n))
          refine ⟨h1, h2, fun x hx => ?_⟩
          rw [h3 x hx]; simp [setKey, hx]
      · exact ih (i + 1) w

/-- Without an unset key nothing changes. -/
theorem assign_set (conv : Nat → Key → Key) (o : Ref) (i : Nat) (ks : List Key) (w : World) (h : Key.none ∉ ks) :
    (assign conv o i ks w).1 = w := by
  induction ks generalizing i w with
  | nil => rfl
  | cons k ks ih =>
    simp only [List.mem_cons, not_or] at h
    rw [assign]
    split
    · rfl
    · rw [if_neg (fun e => h.1 e.symm)]
      exact ih _ _ h.2

/-- What a successful assignment does to the keys of the object, from position `i`. -/
theorem assign_keys (conv : Nat → Key → Key) (o : Ref) (i : Nat) (ks : List Key) (w : World)
    (hk : (w.keys o).drop i = ks) (hok : (assign conv o i ks w).2 = .ok ()) :
    ((assign conv o i ks w).1.keys o).length = (w.keys o).length ∧
    ∀ j, (j < i → ((assign conv o i ks w).1.keys o)[j]? = (w.keys o)[j]?) ∧
      (∀ k, (w.keys o)[j]? = some k → k ≠ .none → ((assign conv o i ks w).1.keys o)[j]? = some k) ∧
      (i ≤ j → (w.keys o)[j]? = some .none → ∃ n, 0 ≤ n ∧ ((assign conv o i ks w).1.keys o)[j]? = some (conv j (.int n)) ∧
        (∀ c ∈ w.content, c ≠ o → ∃ x, (w.keys c)[j]? = some (.int x) ∧ x < n) ∧ o ∉ w.content ∧
        (n = 0 ∨ ∃ c ∈ w.content, (w.keys c)[j]? = some (.int (n - 1)))) := by
  induction ks generalizing i w with
  | nil =>
    refine ⟨rfl, fun j => ⟨fun _ => rfl, fun k h _ => h, fun hij hn => ?_⟩⟩
    have : (w.keys o).length ≤ i := List.drop_eq_nil_iff.1 hk
    rw [List.getElem?_eq_none (by omega)] at hn
    cases hn
  | cons k ks ih =>
    have hlt : i < (w.keys o).length := by
      refine Nat.lt_of_not_le (fun hle => ?_)
      rw [List.drop_eq_nil_iff.2 hle] at hk; cases hk
    have hki : (w.keys o)[i]? = some k := by
      have := congrArg List.head? hk
      rwa [List.head?_drop, List.head?_cons] at this
    have hdrop : (w.keys o).drop (i + 1) = ks := by
      rw [← List.tail_drop, hk]; rfl
    rw [assign] at hok ⊢
    cases hc : column w.keys i w.content with
    | error e => rw [hc] at hok; cases hok
    | ok iks =>
      rw [hc] at hok
      simp only at hok ⊢
      by_cases hkn : k = .none
      · rw [if_pos hkn] at hok ⊢
        cases hn : nextKey (-1) iks with
        | error e => rw [hn] at hok; cases hok
        | ok n =>
          rw [hn] at hok
          simp only at hok ⊢
          have hset : (setKey conv w o i (.int n)).keys o = (w.keys o).set i (conv i (.int n)) := by simp [setKey]
          obtain ⟨h1, h2⟩ := ih (i + 1) (setKey conv w o i (.int n)) (by
            rw [hset, List.drop_set_of_lt (by omega)]; exact hdrop) hok
          obtain ⟨g1, g2⟩ := nextKey_gt hn
          -- the object itself is not stored: its key at this place is unset
          have hno : o ∉ w.content := by
            intro ho
            obtain ⟨k', hk', hk''⟩ := column_mem hc o ho
            rw [hki, Option.some.injEq] at hk''
            subst hk''
            obtain ⟨x, hx, -⟩ := g2 _ hk'
            rw [hkn] at hx; cases hx
          rw [hset] at h1 h2
          refine ⟨by rw [h1, List.length_set], fun j => ?_⟩
          obtain ⟨a1, a2, a3⟩ := h2 j
          refine ⟨fun hj => ?_, fun k' hk' hne => ?_, fun hij hj => ?_⟩
          · rw [a1 (by omega), List.getElem?_set_ne (by omega)]
          · apply a2 k' _ hne
            rw [List.getElem?_set_ne, hk']
            rintro rfl
            rw [hki, Option.some.injEq] at hk'
            exact hne (hk' ▸ hkn)
          · by_cases e : j = i
            · subst e
              refine ⟨n, by omega, ?_, ?_, hno, ?_⟩
              · rw [a1 (by omega), List.getElem?_set_self hlt]
              · intro c hcm _
                obtain ⟨k', hk', hk''⟩ := column_mem hc c hcm
                obtain ⟨x, rfl, hx⟩ := g2 _ hk'
                exact ⟨x, hk'', hx⟩
              · rcases nextKey_tight hn with e | e
                · left; omega
                · right
                  have col : ∀ (cs : List Ref) (iks : List Key), column w.keys j cs = .ok iks → ∀ k ∈ iks, ∃ c ∈ cs, (w.keys c)[j]? = some k := by
                    intro cs
                    induction cs with
                    | nil => intro iks h; simp only [column, Except.ok.injEq] at h; subst h; simp
                    | cons c cs ihc =>
                      intro iks h
                      rw [column] at h
                      split at h
                      · rename_i k1 hk1
                        cases hr : column w.keys j cs with
                        | error e => rw [hr] at h; cases h
                        | ok ks' =>
                          rw [hr] at h; cases h
                          intro k2 hk2
                          rcases List.mem_cons.1 hk2 with rfl | hk2
                          · exact ⟨c, by simp, hk1⟩
                          · obtain ⟨c', p, q⟩ := ihc _ hr k2 hk2
                            exact ⟨c', by simp [p], q⟩
                      · cases h
                  exact col _ _ hc _ e
            · obtain ⟨n', b1, b2, b3, b4, b5⟩ := a3 (by omega) (by rw [List.getElem?_set_ne (Ne.symm e)]; exact hj)
              refine ⟨n', b1, b2, ?_, b4, ?_⟩
              · intro c hcm hco
                have := b3 c hcm hco
                simpa [setKey, hco] using this
              · rcases b5 with b5 | ⟨c, hcm, hcx⟩
                · exact .inl b5
                · right
                  refine ⟨c, hcm, ?_⟩
                  have : c ≠ o := by rintro rfl; exact hno hcm
                  simpa [setKey, this] using hcx
      · rw [if_neg hkn] at hok ⊢
        obtain ⟨h1, h2⟩ := ih (i + 1) w hdrop hok
        refine ⟨h1, fun j => ?_⟩
        obtain ⟨a1, a2, a3⟩ := h2 j
        refine ⟨fun hj => a1 (by omega), a2, fun hij hj => a3 ?_ hj⟩
        have : j ≠ i := by
          rintro rfl
          rw [hki, Option.some.injEq] at hj
          exact hkn hj
        omega

/-! ### Storing -/

theorem mem_store {keys : Ref → List Key} {o x : Ref} {cs : List Ref} (hn : (cs.map keys).Nodup) :
    x ∈ store keys o cs ↔ x = o ∨ (x ∈ cs ∧ keys x ≠ keys o) := by
  induction cs with
  | nil => simp [store]
  | cons c cs ih =>
    simp only [List.map_cons, List.nodup_cons, List.mem_map, not_exists, not_and] at hn
    rw [store]
    split
    · rename_i he
      simp only [List.mem_cons]
      constructor
      · rintro (h | h)
        · exact .inl h
        · right
          refine ⟨.inr h, ?_⟩
          rw [he]; exact hn.1 x h
      · rintro (h | ⟨h | h, hne⟩)
        · exact .inl h
        · subst h; exact absurd he.symm hne
        · exact .inr h
    · rename_i he
      simp only [List.mem_cons, ih hn.2]
      constructor
      · rintro (h | h | h)
        · subst h; exact .inr ⟨.inl rfl, fun e => he e.symm⟩
        · exact .inl h
        · exact .inr ⟨.inr h.1, h.2⟩
      · rintro (h | ⟨h | h, hne⟩)
        · exact .inr (.inl h)
        · exact .inl h
        · exact .inr (.inr ⟨h, hne⟩)

theorem nodup_store {keys : Ref → List Key} {o : Ref} {cs : List Ref} (hn : (cs.map keys).Nodup) :
    ((store keys o cs).map keys).Nodup := by
  induction cs with
  | nil => simp [store]
  | cons c cs ih =>
    have hn0 := hn
    simp only [List.map_cons, List.nodup_cons, List.mem_map, not_exists, not_and] at hn
    rw [store]
    split
    · rename_i he
      rw [List.map_cons, he]
      exact hn0
    · rename_i he
      rw [List.map_cons, List.nodup_cons]
      refine ⟨?_, ih hn.2⟩
      simp only [List.mem_map, not_exists, not_and]
      intro x hx
      rcases (mem_store hn.2).1 hx with rfl | hx
      · exact he
      · exact hn.1 x hx.1

theorem store_new {keys : Ref → List Key} {o : Ref} {cs : List Ref} (h : ∀ c ∈ cs, keys o ≠ keys c) :
    store keys o cs = cs ++ [o] := by
  induction cs with
  | nil => rfl
  | cons c cs ih => rw [store, if_neg (h c (by simp)), ih (fun x hx => h x (by simp [hx]))]; rfl

/-! ### Histories -/

/-- What holds all along: identities are unique, stored keys are set, stored objects are the last committed (or
were there from the start), the catalogue is the log. -/
structure Inv (initial : List Ref) (keys0 : Ref → List Key) (w : World) (log : List (List Key × Ref)) : Prop where
  nodup : (w.content.map w.keys).Nodup
  set : ∀ c ∈ w.content, Key.none ∉ w.keys c
  stored : ∀ o ks, (o ∈ w.content ∧ w.keys o = ks) ↔
    (lastFor ks log).or (initial.find? (fun c => keys0 c = ks)) = some o
  catalog : ∀ ks, AList.get? w.catalog ks = lastFor ks log

/-- Keys change only for an object that is not stored. -/
theorem assign_stored {conv : Nat → Key → Key} {o : Ref} {w : World} (hs : ∀ c ∈ w.content, Key.none ∉ w.keys c) :
    ∀ c ∈ w.content, (assign conv o 0 (w.keys o) w).1.keys c = w.keys c := by
  intro c hc
  by_cases e : c = o
  · subst e; rw [assign_set _ _ _ _ _ (hs c hc)]
  · exact (assign_content conv o 0 (w.keys o) w).2.2 c e

theorem inv_commit {conv : Nat → Key → Key} (hconv : ∀ i n, conv i (.int n) ≠ .none) {initial : List Ref}
    {keys0 : Ref → List Key} {w : World} {log : List (List Key × Ref)} (h : Inv initial keys0 w log) (o : Ref) :
    ((commit conv w o).2 = .ok () → Inv initial keys0 (commit conv w o).1 (((commit conv w o).1.keys o, o) :: log)) ∧
    (∀ e, (commit conv w o).2 = .error e → Inv initial keys0 (commit conv w o).1 log) := by
  have hst := assign_stored (conv := conv) (o := o) h.set
  obtain ⟨hc, hcat, hoth⟩ := assign_content conv o 0 (w.keys o) w
  have hkeys := assign_keys conv o 0 (w.keys o) w (by simp)
  have hmap : (assign conv o 0 (w.keys o) w).1.content.map (assign conv o 0 (w.keys o) w).1.keys = w.content.map w.keys := by
    rw [hc]; exact List.map_congr_left hst
  unfold commit
  generalize hA : assign conv o 0 (w.keys o) w = A at *
  obtain ⟨w', r⟩ := A
  simp only at hst hc hcat hoth hkeys hmap
  have base : Inv initial keys0 w' log := by
    refine ⟨by rw [hmap]; exact h.nodup, ?_, ?_, ?_⟩
    · intro c hcc
      rw [hc] at hcc
      rw [hst c hcc]; exact h.set c hcc
    · intro x ks
      rw [← h.stored x ks, hc]
      constructor
      · rintro ⟨a, b⟩; exact ⟨a, by rw [← b, hst x a]⟩
      · rintro ⟨a, b⟩; exact ⟨a, by rw [← b, hst x a]⟩
    · intro ks; rw [hcat]; exact h.catalog ks
  cases r with
  | error e => exact ⟨(fun he => nomatch he), (fun _ _ => base)⟩
  | ok u =>
    refine ⟨(fun _ => ?_), (fun e he => nomatch he)⟩
    have hk' := hkeys rfl
    have hno : Key.none ∉ w'.keys o := by
      intro hm
      obtain ⟨j, hj⟩ := List.mem_iff_getElem?.1 hm
      have hjlt : j < (w.keys o).length := by
        rw [← hk'.1]
        exact (List.getElem?_eq_some_iff.1 hj).1
      obtain ⟨-, a2, a3⟩ := hk'.2 j
      by_cases e : (w.keys o)[j]? = some .none
      · obtain ⟨n, -, hn, -⟩ := a3 (by omega) e
        rw [hj, Option.some.injEq] at hn
        exact hconv _ _ hn.symm
      · obtain ⟨k, hk⟩ : ∃ k, (w.keys o)[j]? = some k := ⟨_, List.getElem?_eq_getElem hjlt⟩
        have := a2 k hk (by rintro rfl; exact e hk)
        rw [hj, Option.some.injEq] at this
        exact e (this ▸ hk)
    simp only
    refine ⟨nodup_store base.nodup, ?_, ?_, ?_⟩
    · intro c hcc
      rcases (mem_store base.nodup).1 hcc with rfl | hcc
      · exact hno
      · exact base.set c hcc.1
    · intro x ks
      rw [lastFor]
      simp only
      rw [mem_store base.nodup]
      by_cases e : w'.keys o = ks
      · rw [if_pos e]
        rw [Option.some_or, Option.some.injEq]
        constructor
        · rintro ⟨rfl | ⟨-, hx⟩, hks⟩
          · rfl
          · exact absurd (hks.trans e.symm) hx
        · rintro rfl; exact ⟨.inl rfl, e⟩
      · rw [if_neg e, ← base.stored x ks]
        constructor
        · rintro ⟨rfl | hx, hks⟩
          · exact absurd hks e
          · exact ⟨hx.1, hks⟩
        · rintro ⟨hx, hks⟩
          exact ⟨.inr ⟨hx, by rw [hks]; exact fun e' => e e'.symm⟩, hks⟩
    · intro ks
      rw [lastFor, AList.get?_set, base.catalog]

theorem inv_history {conv : Nat → Key → Key} (hconv : ∀ i n, conv i (.int n) ≠ .none) {initial : List Ref}
    {keys0 : Ref → List Key} {w : World} {log : List (List Key × Ref)} (h : Inv initial keys0 w log) (os : List Ref) :
    Inv initial keys0 (history conv w log os).1 (history conv w log os).2 := by
  induction os generalizing w log with
  | nil => exact h
  | cons o os ih =>
    rw [history]
    have := inv_commit hconv h o
    generalize commit conv w o = c at this
    obtain ⟨w', r⟩ := c
    cases r with
    | ok u => exact ih (this.1 rfl)
    | error e => exact ih (this.2 e rfl)

theorem inv_create {keys : Ref → List Key} {initial : List Ref} (hn : (initial.map keys).Nodup)
    (hs : ∀ c ∈ initial, Key.none ∉ keys c) : Inv initial keys (create keys initial) [] := by
  refine ⟨hn, hs, ?_, fun ks => rfl⟩
  intro o ks
  simp only [create, lastFor, Option.none_or]
  constructor
  · rintro ⟨ho, rfl⟩
    induction initial with
    | nil => simp at ho
    | cons c cs ih =>
      simp only [List.map_cons, List.nodup_cons, List.mem_map, not_exists, not_and] at hn
      rw [List.find?_cons]
      by_cases e : keys c = keys o
      · simp only [e, decide_true]
        rcases List.mem_cons.1 ho with rfl | ho
        · rfl
        · exact absurd e.symm (hn.1 o ho)
      · simp only [e, decide_false]
        refine ih hn.2 (fun c hc => hs c (by simp [hc])) ?_
        rcases List.mem_cons.1 ho with rfl | ho
        · exact absurd rfl e
        · exact ho
  · intro h
    exact ⟨List.mem_of_find?_eq_some h, by simpa using List.find?_some h⟩

end Verif.Repo
