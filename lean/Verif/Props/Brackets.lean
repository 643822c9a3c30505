import Verif.Lemmas.Brackets
/-
C16, C17: bracket search; C83: bracket nesting test.
-/
namespace Verif.Brackets

/-! ### C16 -/

/-- The brackets found: one per closing bracket, in order of closing position; each pair holds the
opening and the closing character with balanced text in between; no position is used twice and no two
pairs cross. -/
theorem C16_find_brackets_sound (text : List Char) (b o c : Char) (hk : Kind o c) (hb : b = o ∨ b = c)
    (res : List (Nat × Nat)) (h : findBrackets text b = .ok res) :
    res.map Prod.snd = positions c text ∧
    (∀ p ∈ res, p.1 < p.2 ∧ text[p.1]? = some o ∧ text[p.2]? = some c ∧
      Balanced o c (between text p.1 p.2)) ∧
    (res.map Prod.fst).Nodup ∧
    (∀ p ∈ res, ∀ q ∈ res, p.1 < q.1 → p.2 < q.1 ∨ q.2 < p.2) := by
  have hg : getBrackets b = .ok (o, c) := by
    rcases hb with rfl | rfl
    · exact (getBrackets_kind hk).1
    · exact (getBrackets_kind hk).2
  rw [findBrackets, hg] at h
  obtain ⟨st, hr⟩ := scan_spec hk.ne text text 0 [] [] res rfl (by omega) trivial
    ⟨by simp, by simp, by simp, by simp, by simp, by simp⟩ h
  exact ⟨hr.closing, hr.good, hr.opens, hr.nested⟩

example : findBrackets "a(b(c)d)(e)(".toList '(' = .ok [(3, 5), (1, 7), (8, 10)] := by decide +kernel

/-- A bracket can be made exactly at an opening bracket and a closing one after it, and its content is what stands between
them; the brackets found have balanced contents. -/
theorem C16_content (text : List Char) (o c : Char) (i j : Nat) :
    (mkBracket o c text (i, j) = .ok (i, j) ↔ ∃ pre s post, text = pre ++ o :: s ++ c :: post ∧ i = pre.length ∧
      j = pre.length + 1 + s.length) ∧
    (∀ pre s post, text = pre ++ o :: s ++ c :: post → content text (pre.length, pre.length + 1 + s.length) = s) := by
  constructor
  · constructor
    · intro h
      have h : i < j ∧ text[i]? = some o ∧ text[j]? = some c := by
        unfold mkBracket at h
        split at h
        · assumption
        · cases h
      obtain ⟨h1, h2, h3⟩ := h
      obtain ⟨hi, hio⟩ := List.getElem?_eq_some_iff.1 h2
      obtain ⟨hj, hjc⟩ := List.getElem?_eq_some_iff.1 h3
      refine ⟨text.take i, (text.take j).drop (i + 1), text.drop (j + 1), ?_, by simp; omega, by simp; omega⟩
      have e1 : (text.take j).drop i = o :: (text.take j).drop (i + 1) := by
        rw [List.drop_eq_getElem_cons (by simp; omega)]
        simp [hio]
      have e2 : text.drop j = c :: text.drop (j + 1) := by
        rw [List.drop_eq_getElem_cons hj, hjc]
      rw [← e1, ← e2]
      have e3 : text.take i ++ (text.take j).drop i = text.take j := by
        have := List.take_append_drop i (text.take j)
        rwa [List.take_take, Nat.min_eq_left (by omega)] at this
      rw [e3, List.take_append_drop]
    · rintro ⟨pre, s, post, rfl, rfl, rfl⟩
      have h2 : (pre ++ o :: s ++ c :: post)[pre.length]? = some o := by simp
      have h3 : (pre ++ o :: s ++ c :: post)[pre.length + 1 + s.length]? = some c := by
        rw [List.getElem?_append_right (by simp; omega)]
        simp
        rw [show pre.length + 1 + s.length - (pre.length + (s.length + 1)) = 0 by omega]
        rfl
      unfold mkBracket
      rw [if_pos ⟨by simp; omega, h2, h3⟩]
  · rintro pre s post rfl
    have e : pre ++ o :: s ++ c :: post = (pre ++ o :: s) ++ c :: post := by simp
    unfold content
    rw [e, List.take_left' (by simp; omega)]
    rw [show pre ++ o :: s = (pre ++ [o]) ++ s by simp, List.drop_left' (by simp)]

example : mkBracket '(' ')' "f(a, b) + 1".toList (1, 6) = .ok (1, 6) ∧
    content "f(a, b) + 1".toList (1, 6) = "a, b".toList := by decide +kernel
example : mkBracket '(' ')' "f(a, b) + 1".toList (6, 1) = .error .assertionError := by decide +kernel

/-! ### C17 -/

/-- `find_brackets` raises `IndexError` exactly when some prefix of the text has more closing than
opening brackets; otherwise it returns. -/
theorem C17_find_brackets_fails_iff (text : List Char) (b o c : Char) (hk : Kind o c)
    (hb : b = o ∨ b = c) :
    (findBrackets text b = .error .indexError ↔ ∃ n, Overclosed o c (text.take n)) ∧
    ((∃ res, findBrackets text b = .ok res) ↔ ∀ n, ¬ Overclosed o c (text.take n)) := by
  have hg : getBrackets b = .ok (o, c) := by
    rcases hb with rfl | rfl
    · exact (getBrackets_kind hk).1
    · exact (getBrackets_kind hk).2
  have ht := scan_total hk.ne text text 0 [] [] rfl (by omega) trivial
  simp only [List.length_nil, Nat.zero_add, true_and] at ht
  rw [findBrackets, hg]
  simp only [Overclosed]
  by_cases h : ∃ n, (text.take n).count o < (text.take n).count c
  · refine ⟨⟨fun _ => h, ht.1⟩, ⟨?_, fun h' => ?_⟩⟩
    · rintro ⟨res, hr⟩; rw [ht.1 h] at hr; cases hr
    · obtain ⟨n, hn⟩ := h; exact absurd hn (h' n)
  · have h' : ∀ n, ¬ (text.take n).count o < (text.take n).count c := fun n hn => h ⟨n, hn⟩
    obtain ⟨out, ho⟩ := ht.2 (fun n => Nat.le_of_not_lt (h' n))
    refine ⟨⟨fun he => ?_, fun hx => absurd hx h⟩, ⟨fun _ => h', fun _ => ⟨out, ho⟩⟩⟩
    simp only [ho] at he; cases he

/-- An unknown bracket character is refused with `InvalidValue`. -/
theorem C17_unknown_bracket (text : List Char) (b : Char)
    (h : ∀ o c, Kind o c → b ≠ o ∧ b ≠ c) :
    findBrackets text b = .error .invalidValue ∧ findClosingBracket text b = .error .invalidValue := by
  have : getBrackets b = .error .invalidValue := by
    have h1 := h '(' ')' (by simp [Kind])
    have h2 := h '[' ']' (by simp [Kind])
    have h3 := h '{' '}' (by simp [Kind])
    have h4 := h '<' '>' (by simp [Kind])
    simp [getBrackets, h1, h2, h3, h4]
  simp [findBrackets, findClosingBracket, this]

/-- `find_closing_bracket` returns a pair and its content exactly when the text is a plain prefix, an
opening bracket, the balanced content, its closing bracket, and anything. -/
theorem C17_find_closing_iff (text : List Char) (b o c : Char) (hk : Kind o c) (hb : b = o ∨ b = c)
    (i j : Nat) (s : List Char) :
    findClosingBracket text b = .ok (some ((i, j), s)) ↔
      ∃ pre post, text = pre ++ o :: s ++ c :: post ∧ o ∉ pre ∧ c ∉ pre ∧ Balanced o c s ∧
        i = pre.length ∧ j = pre.length + 1 + s.length := by
  have hg : getBrackets b = .ok (o, c) := by
    rcases hb with rfl | rfl
    · exact (getBrackets_kind hk).1
    · exact (getBrackets_kind hk).2
  have hoc := hk.ne
  rw [findClosingBracket, hg]
  simp only
  have back : ∀ pre post s, text = pre ++ o :: s ++ c :: post → o ∉ pre → c ∉ pre → Balanced o c s →
      scanClosing o c text text 0 [] =
        .ok (some ((pre.length, pre.length + 1 + s.length), s)) := by
    intro pre post s ht ho hc hs
    have e : scanClosing o c text (pre ++ (o :: (s ++ c :: post))) 0 [] =
        .ok (some ((pre.length, pre.length + 1 + s.length), s)) := by
      rw [scanClosing_plain text pre ho hc, scanClosing]
      simp only [if_true, hoc, if_false]
      rw [scanClosing_balanced hoc text s hs, scanClosing]
      simp only [Ne.symm hoc, if_false, if_true, List.isEmpty_nil]
      congr 3
      · simp only [Prod.mk.injEq]; omega
      · rw [ht]
        have : (pre ++ o :: s ++ c :: post) = (pre ++ [o]) ++ (s ++ c :: post) := by simp
        rw [this, List.take_append, List.drop_append]
        simp
    have : text = pre ++ (o :: (s ++ c :: post)) := by rw [ht]; simp
    rw [← this] at e; exact e
  constructor
  · intro h
    rcases first_bracket o c text with ⟨ho, hc⟩ | ⟨pre, x, rest, ht, ho, hc, hx⟩
    · have := scanClosing_plain text text ho hc [] 0 []
      rw [List.append_nil] at this
      rw [this, scanClosing] at h; cases h
    · have h1 := scanClosing_plain text pre ho hc (x :: rest) 0 []
      rw [← ht] at h1
      rw [h1, scanClosing] at h
      rcases hx with rfl | rfl
      · simp only [if_true, hoc, if_false, Nat.zero_add] at h
        have hpx : text[pre.length]? = some x := by rw [ht]; simp
        have hsi : StackInv x c text [pre.length] (pre.length + 1) :=
          StackInv.push (st := []) trivial hpx
        have hrest : rest = text.drop (pre.length + 1) := by
          rw [ht, List.drop_append]
          simp [show pre.length + 1 - pre.length = 1 from by omega]
        rcases scanClosing_open hoc text rest (pre.length + 1) pre.length [] hrest
          (by rw [ht]; simp) hsi with hn | ⟨a, b', hab, ha, hlt, hc', hbal⟩
        · rw [hn] at h; cases h
        · rw [hab] at h
          simp only [Except.ok.injEq, Option.some.injEq, Prod.mk.injEq] at h
          obtain ⟨⟨rfl, rfl⟩, rfl⟩ := h
          simp only [List.getLast_singleton] at ha
          subst ha
          obtain ⟨hb'lt, hb'e⟩ := List.getElem?_eq_some_iff.1 hc'
          refine ⟨pre, text.drop (b' + 1), ?_, ho, hc, hbal, rfl, ?_⟩
          · have e1 : text = text.take b' ++ text[b'] :: text.drop (b' + 1) := by
              rw [← List.drop_eq_getElem_cons hb'lt, List.take_append_drop]
            have e2 : text.take b' = pre ++ x :: between text pre.length b' := by
              have hp' : pre.length < (text.take b').length := by simp; omega
              rw [between]
              conv => lhs; rw [← List.take_append_drop pre.length (text.take b')]
              rw [List.take_take, Nat.min_eq_left (by omega), List.drop_eq_getElem_cons hp']
              have h3 : text.take pre.length = pre := by rw [ht]; simp
              have h4 : (text.take b')[pre.length] = x := by
                rw [List.getElem_take]
                exact (List.getElem?_eq_some_iff.1 hpx).2
              rw [h3, h4]
            rw [e2, hb'e] at e1; exact e1
          · simp [between]; omega
      · simp only [Ne.symm hoc, if_false, if_true] at h; cases h
  · rintro ⟨pre, post, ht, ho, hc, hs, rfl, rfl⟩
    exact back pre post s ht ho hc hs

/-- It raises `IndexError` exactly when the first bracket of the text is a closing one, and never
raises anything else. -/
theorem C17_find_closing_fails_iff (text : List Char) (b o c : Char) (hk : Kind o c)
    (hb : b = o ∨ b = c) (e : Exc) :
    findClosingBracket text b = .error e ↔
      e = .indexError ∧ ∃ pre post, text = pre ++ c :: post ∧ o ∉ pre ∧ c ∉ pre := by
  have hg : getBrackets b = .ok (o, c) := by
    rcases hb with rfl | rfl
    · exact (getBrackets_kind hk).1
    · exact (getBrackets_kind hk).2
  have hoc := hk.ne
  rw [findClosingBracket, hg]
  simp only
  constructor
  · intro h
    rcases first_bracket o c text with ⟨ho, hc⟩ | ⟨pre, x, rest, ht, ho, hc, hx⟩
    · have := scanClosing_plain text text ho hc [] 0 []
      rw [List.append_nil] at this
      rw [this, scanClosing] at h; cases h
    · have h1 := scanClosing_plain text pre ho hc (x :: rest) 0 []
      rw [← ht] at h1
      rw [h1, scanClosing] at h
      rcases hx with rfl | rfl
      · simp only [if_true, hoc, if_false, Nat.zero_add] at h
        have hpx : text[pre.length]? = some x := by rw [ht]; simp
        have hsi : StackInv x c text [pre.length] (pre.length + 1) :=
          StackInv.push (st := []) trivial hpx
        have hrest : rest = text.drop (pre.length + 1) := by
          rw [ht, List.drop_append]
          simp [show pre.length + 1 - pre.length = 1 from by omega]
        rcases scanClosing_open hoc text rest (pre.length + 1) pre.length [] hrest
          (by rw [ht]; simp) hsi with hn | ⟨a, b', hab, _⟩
        · rw [hn] at h; cases h
        · rw [hab] at h; cases h
      · simp only [Ne.symm hoc, if_false, if_true] at h
        cases h; exact ⟨rfl, pre, rest, ht, ho, hc⟩
  · rintro ⟨rfl, pre, post, ht, ho, hc⟩
    have h1 := scanClosing_plain text pre ho hc (c :: post) 0 []
    rw [← ht] at h1
    rw [h1, scanClosing]
    simp [Ne.symm hoc]

example : findClosingBracket "x(a(b)c)(d)".toList ')' = .ok (some ((1, 7), "a(b)c".toList)) ∧
    findClosingBracket "x(a(b)c".toList '(' = .ok none ∧
    findBrackets "())(".toList '(' = .error .indexError := by decide +kernel

/-! ### C83 -/

/-- The full statement: `b.is_in(other)` says that `b` lies strictly inside `other`. -/
def IsInMeansInside : Prop :=
  ∀ (text : List Char) (b : Char) (res : List (Nat × Nat)), findBrackets text b = .ok res →
    ∀ p ∈ res, ∀ q ∈ res, (isIn p q = true ↔ q.1 < p.1 ∧ p.2 < q.2)

/-- It does not: on "((()))"-like nesting the test answers no. -/
theorem C83_is_in_violated : ¬ IsInMeansInside := by
  intro h
  have := h "(())".toList '(' [(1, 2), (0, 3)] (by decide +kernel) (1, 2) (by decide) (0, 3) (by decide)
  revert this; decide

/-- What the test actually says of brackets found in one text: `b` closes before `other` opens. -/
theorem C83_is_in_means_before_partial (text : List Char) (b o c : Char) (hk : Kind o c)
    (hb : b = o ∨ b = c) (res : List (Nat × Nat)) (h : findBrackets text b = .ok res)
    (p q : Nat × Nat) (hp : p ∈ res) (hq : q ∈ res) : isIn p q = true ↔ p.2 < q.1 := by
  obtain ⟨_, hgood, _, hn⟩ := C16_find_brackets_sound text b o c hk hb res h
  have h1 := (hgood p hp).1
  have h2 := (hgood q hq).1
  simp only [isIn, Bool.and_eq_true, decide_eq_true_eq]
  constructor
  · rintro ⟨h3, h4⟩
    rcases hn p hp q hq h3 with h5 | h5
    · exact h5
    · omega
  · intro h3; omega

example : findBrackets "()()".toList '(' = .ok [(0, 1), (2, 3)] ∧ isIn (0, 1) (2, 3) = true := by
  decide +kernel

end Verif.Brackets
