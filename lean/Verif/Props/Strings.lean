import Verif.Lemmas.Strings
/-
C26 shorten; C27 inline; C28 rreplace; C29 split_string; C30 multiple_replace.
-/
namespace Verif.Strings

/-! ### C26 -/

/-- At most `n` characters: unchanged; more: the first `n` and three dots; never more than `n + 3`; and
the text is unchanged only if it fits or already is `n` characters and three dots. -/
theorem C26_shorten (s : Str) (n : Nat) :
    (s.length ≤ n → shorten s n = s) ∧
    (n < s.length → shorten s n = s.take n ++ "...".toList) ∧
    (shorten s n).length ≤ n + 3 ∧
    (shorten s n = s ↔ s.length ≤ n ∨ s = s.take n ++ "...".toList) := by
  have hd : "...".toList = ['.', '.', '.'] := by decide +kernel
  rw [hd]
  unfold shorten
  refine ⟨fun h => by rw [if_neg (by omega)], fun h => by rw [if_pos h], ?_, ?_⟩
  · split
    · simp; omega
    · omega
  · by_cases h : s.length > n
    · rw [if_pos h]
      constructor
      · intro e; exact .inr e.symm
      · rintro (h' | h')
        · omega
        · exact h'.symm
    · rw [if_neg h]; simp; left; omega

example : shorten "abcdef".toList 2 = "ab...".toList ∧ shorten "a...".toList 1 = "a...".toList := by
  decide +kernel

/-! ### C27 -/

/-- The result has no line break. -/
theorem C27_no_newline (s : Str) : '\n' ∉ inline s := by
  rw [inline_flatMap, List.mem_flatMap]
  rintro ⟨c, _, hc⟩
  by_cases h : c = '\n'
  · simp [h] at hc
  · simp [h] at hc; exact h hc.symm

/-- A text on one line is unchanged. -/
theorem C27_identity (s : Str) (h : '\n' ∉ s) : inline s = s := by
  rw [inline, splitOn_of_notMem h]; rfl

/-- Two texts without backslash with the same inline form are equal. -/
theorem C27_injective (s t : Str) (hs : '\\' ∉ s) (ht : '\\' ∉ t) (h : inline s = inline t) : s = t := by
  simp only [inline_flatMap] at h
  induction s generalizing t with
  | nil =>
    cases t with
    | nil => rfl
    | cons d t => rw [List.flatMap_cons] at h; by_cases hd : d = '\n' <;> simp [hd] at h
  | cons c s ih =>
    simp only [List.mem_cons, not_or] at hs
    cases t with
    | nil => rw [List.flatMap_cons] at h; by_cases hc : c = '\n' <;> simp [hc] at h
    | cons d t =>
      simp only [List.mem_cons, not_or] at ht
      rw [List.flatMap_cons, List.flatMap_cons] at h
      by_cases hc : c = '\n' <;> by_cases hd : d = '\n'
      · subst hc; subst hd
        simp only [if_true, List.cons_append, List.nil_append, List.cons.injEq, true_and] at h
        rw [ih t hs.2 ht.2 h]
      · simp only [hc, hd, if_true, if_false, List.cons_append, List.nil_append, List.cons.injEq] at h
        exact absurd h.1 ht.1
      · simp only [hc, hd, if_true, if_false, List.cons_append, List.nil_append, List.cons.injEq] at h
        exact absurd h.1.symm hs.1
      · simp only [hc, hd, if_false, List.cons_append, List.nil_append, List.cons.injEq] at h
        rw [h.1, ih t hs.2 ht.2 h.2]

example : inline "a\nb".toList = "a\\nb".toList ∧ inline "a\\nb".toList = "a\\nb".toList := by
  decide +kernel

/-! ### C28 -/

/-- Nothing to replace: the text is unchanged, however many occurrences were asked for. -/
theorem C28_absent (s old new : Str) (n : Nat) (hne : old ≠ []) (h : ¬ Occurs old s) :
    rreplace s old new n = .ok s := by
  have : old.isEmpty = false := by simpa using hne
  simp only [rreplace, this, Bool.false_eq_true, if_false]
  cases n with
  | zero => rfl
  | succ n => rw [rsplit, (cutLast_none hne).2 h]; rfl

/-- A text in which `old` occurs can be cut at its last occurrence, in one way. -/
theorem C28_last_occurrence (s old : Str) (hne : old ≠ []) (h : Occurs old s) :
    ∃ a b, LastCut old s a b ∧ ∀ a' b', LastCut old s a' b' → a' = a ∧ b' = b := by
  cases hc : cutLast old s with
  | none => exact absurd h ((cutLast_none hne).1 hc)
  | some ab =>
    have := cutLast_some hne (a := ab.1) (b := ab.2) (by rw [hc])
    exact ⟨ab.1, ab.2, this, fun a' b' h' => lastCut_unique hne h' this⟩

/-- One occurrence: exactly the last one is replaced. -/
theorem C28_once (s old new a b : Str) (hne : old ≠ []) (h : LastCut old s a b) :
    rreplace s old new 1 = .ok (a ++ new ++ b) := by
  have he : old.isEmpty = false := by simpa using hne
  have hc : cutLast old s = some (a, b) := by
    cases hc : cutLast old s with
    | none => exact absurd ⟨a, b, h.1⟩ ((cutLast_none hne).1 hc)
    | some ab =>
      obtain ⟨h1, h2⟩ := lastCut_unique hne (cutLast_some hne (a := ab.1) (b := ab.2) (by rw [hc])) h
      rw [← h1, ← h2]
  simp [rreplace, he, rsplit, hc, joinWith]

/-- More occurrences: the last one is replaced, and the others in what precedes it. -/
theorem C28_more (s old new a b r : Str) (n : Nat) (hne : old ≠ []) (h : LastCut old s a b)
    (hr : rreplace a old new n = .ok r) : rreplace s old new (n + 1) = .ok (r ++ new ++ b) := by
  have he : old.isEmpty = false := by simpa using hne
  have hc : cutLast old s = some (a, b) := by
    cases hc : cutLast old s with
    | none => exact absurd ⟨a, b, h.1⟩ ((cutLast_none hne).1 hc)
    | some ab =>
      obtain ⟨h1, h2⟩ := lastCut_unique hne (cutLast_some hne (a := ab.1) (b := ab.2) (by rw [hc])) h
      rw [← h1, ← h2]
  simp only [rreplace, he, Bool.false_eq_true, if_false, Except.ok.injEq] at hr ⊢
  rw [rsplit, hc]
  simp only
  rw [joinWith_append_singleton _ _ (rsplit_ne_nil _ _ _), hr]

/-- An empty `old` is refused. -/
theorem C28_empty (s new : Str) (n : Nat) : rreplace s [] new n = .error .valueError := rfl

example : rreplace "aaa".toList "aa".toList "b".toList 1 = .ok "ab".toList ∧
    rreplace "x}y}z".toList "}".toList "+1...}".toList 1 = .ok "x}y+1...}z".toList ∧
    rreplace "x}y}z".toList "}".toList "".toList 5 = .ok "xyz".toList := by decide +kernel

/-! ### C29 -/

/-- Without stripping: one more piece than there are delimiters, none holding a delimiter, and pieces and
delimiters put back together are the text. -/
theorem C29_split (isSpace : Char → Bool) (s delimiters : Str) (hd : delimiters ≠ []) :
    (splitString isSpace s delimiters false).length = (s.filter (· ∈ delimiters)).length + 1 ∧
    (∀ w ∈ splitString isSpace s delimiters false, ∀ c ∈ w, c ∉ delimiters) ∧
    interleave (splitString isSpace s delimiters false) (s.filter (· ∈ delimiters)) = s := by
  have he : delimiters.isEmpty = false := by simpa using hd
  have : splitString isSpace s delimiters false = splitAny delimiters s := by
    simp [splitString, he]
  rw [this]
  exact (splitAny_spec delimiters s).2

/-- With stripping each piece is stripped; with no delimiters the text is the only piece. -/
theorem C29_strip (isSpace : Char → Bool) (s delimiters : Str) (hd : delimiters ≠ []) :
    splitString isSpace s delimiters true =
      (splitString isSpace s delimiters false).map (strip isSpace) ∧
    ∀ b, splitString isSpace s [] b = [s] := by
  have he : delimiters.isEmpty = false := by simpa using hd
  exact ⟨by simp [splitString, he], fun b => rfl⟩

example : splitString (· == ' ') "a, b|c".toList ",|".toList true = ["a".toList, "b".toList, "c".toList] ∧
    splitString (· == ' ') "a, b|c".toList ",|".toList false = ["a".toList, " b".toList, "c".toList] := by
  decide +kernel

/-! ### C30 -/

/-- The result is the simultaneous replacement, and nothing else is. -/
theorem C30_simultaneous (s : Str) (table : AList Str Str) (hne : table ≠ [])
    (hk : ∀ kv ∈ table, kv.1 ≠ []) :
    ∃ t, multipleReplace s table = .ok t ∧ Replaced table s t ∧ ∀ t', Replaced table s t' → t' = t := by
  have he : table.isEmpty = false := by simpa using hne
  refine ⟨subLoop table s, by simp [multipleReplace, he], subLoop_replaced table hk s, ?_⟩
  intro t' h'
  exact replaced_eq table hk h'

/-- A text in which no key occurs is unchanged. -/
theorem C30_unchanged (s : Str) (table : AList Str Str) (hne : table ≠ [])
    (hk : ∀ kv ∈ table, kv.1 ≠ []) (h : ∀ kv ∈ table, ¬ Occurs kv.1 s) :
    multipleReplace s table = .ok s := by
  obtain ⟨t, h1, h2, h3⟩ := C30_simultaneous s table hne hk
  rw [h1, ← h3 s]
  clear h1 h2 h3
  induction s with
  | nil => exact .nil
  | cons c s ih =>
    refine .keep ?_ (ih ?_)
    · rintro kv hkv ⟨r, hr⟩
      exact h kv hkv ⟨[], r, by simp [hr]⟩
    · rintro kv hkv ⟨a, b, e⟩
      exact h kv hkv ⟨c :: a, b, by simp [e]⟩

/-- Exchanging two characters. -/
theorem C30_swap (s : Str) (a b : Char) (hab : a ≠ b) :
    multipleReplace s [([a], [b]), ([b], [a])] =
      .ok (s.map (fun c => if c = a then b else if c = b then a else c)) := by
  obtain ⟨t, h1, h2, h3⟩ := C30_simultaneous s [([a], [b]), ([b], [a])] (by simp) (by simp)
  rw [h1, ← h3 (s.map _)]
  clear h1 h2 h3
  induction s with
  | nil => exact .nil
  | cons c s ih =>
    rw [List.map_cons]
    by_cases ha : c = a
    · subst ha
      simp only [if_true]
      exact Replaced.hit (before := []) (k := [c]) (v := [b]) (s := s) rfl (by simp) ih
    · by_cases hb : c = b
      · subst hb
        simp only [ha, if_true, if_false]
        refine Replaced.hit (before := [([a], [c])]) (k := [c]) (v := [a]) (s := s) rfl ?_ ih
        simpa using hab
      · simp only [ha, hb, if_false]
        refine .keep ?_ ih
        simp [Ne.symm ha, Ne.symm hb]

/-- The empty table is refused. -/
theorem C30_empty (s : Str) : multipleReplace s [] = .error .keyError := rfl

example : multipleReplace "abab".toList [("ab".toList, "b".toList), ("b".toList, "ab".toList)] =
    .ok "bb".toList := by decide +kernel

end Verif.Strings
