import Verif.Spec.Brackets
/-
Helper lemmas for C16, C17.
-/
namespace Verif.Brackets

theorem Kind.ne {o c : Char} (h : Kind o c) : o ≠ c := by
  rcases h with ⟨rfl, rfl⟩ | ⟨rfl, rfl⟩ | ⟨rfl, rfl⟩ | ⟨rfl, rfl⟩ <;> decide

theorem getBrackets_ok {b o c : Char} (h : getBrackets b = .ok (o, c)) :
    Kind o c ∧ (b = o ∨ b = c) := by
  unfold getBrackets at h
  repeat' split at h
  all_goals first | (cases h; done) | skip
  all_goals (simp only [Except.ok.injEq, Prod.mk.injEq] at h; obtain ⟨rfl, rfl⟩ := h)
  all_goals simp_all [Kind]

theorem getBrackets_kind {o c : Char} (h : Kind o c) :
    getBrackets o = .ok (o, c) ∧ getBrackets c = .ok (o, c) := by
  rcases h with ⟨rfl, rfl⟩ | ⟨rfl, rfl⟩ | ⟨rfl, rfl⟩ | ⟨rfl, rfl⟩ <;> exact ⟨rfl, rfl⟩

theorem Balanced.append {o c : Char} {s t : List Char} (hs : Balanced o c s) (ht : Balanced o c t) :
    Balanced o c (s ++ t) := by
  induction hs with
  | nil => exact ht
  | other ho hc _ ih => exact .other ho hc ih
  | wrap h1 _ _ ih2 =>
    have := Balanced.wrap h1 ih2
    simpa using this

theorem Balanced.snoc {o c : Char} {s : List Char} {x : Char} (hs : Balanced o c s) (ho : x ≠ o)
    (hc : x ≠ c) : Balanced o c (s ++ [x]) := hs.append (.other ho hc .nil)

theorem Balanced.close {o c : Char} {s t : List Char} (hs : Balanced o c s) (ht : Balanced o c t) :
    Balanced o c (s ++ o :: t ++ [c]) := by
  have := hs.append (Balanced.wrap ht .nil)
  simpa using this

theorem between_succ {text : List Char} {a i : Nat} {x : Char} (h : text[i]? = some x) (ha : a < i) :
    between text a (i + 1) = between text a i ++ [x] := by
  obtain ⟨hi, rfl⟩ := List.getElem?_eq_some_iff.1 h
  simp only [between]
  rw [List.take_succ_eq_append_getElem hi, List.drop_append_of_le_length]
  simp; omega

theorem between_self (text : List Char) (i : Nat) : between text i (i + 1) = [] := by
  simp [between]

theorem between_split {text : List Char} {a p i : Nat} {x : Char} (h : text[p]? = some x)
    (ha : a < p) (hp : p < i) :
    between text a i = between text a p ++ x :: between text p i := by
  obtain ⟨hi, rfl⟩ := List.getElem?_eq_some_iff.1 h
  simp only [between]
  have h1 : text.take i = text.take p ++ text[p] :: (text.take i).drop (p + 1) := by
    have : p < (text.take i).length := by simp; omega
    conv => lhs; rw [← List.take_append_drop p (text.take i)]
    rw [List.take_take, Nat.min_eq_left (by omega), List.drop_eq_getElem_cons this]
    simp
  conv => lhs; rw [h1]
  rw [List.drop_append_of_le_length]
  simp; omega

/-- What holds of the stack of open positions at position `i`. -/
def StackInv (o c : Char) (text : List Char) : List Nat → Nat → Prop
  | [], _ => True
  | p :: st, i => p < i ∧ text[p]? = some o ∧ Balanced o c (between text p i) ∧ StackInv o c text st p

theorem StackInv.lt {o c : Char} {text : List Char} {st : List Nat} {i p : Nat}
    (h : StackInv o c text st i) (hp : p ∈ st) : p < i := by
  induction st generalizing i with
  | nil => simp at hp
  | cons q st ih =>
    rcases List.mem_cons.1 hp with rfl | hp
    · exact h.1
    · have := ih h.2.2.2 hp; have := h.1; omega

theorem StackInv.other {o c : Char} {text : List Char} {st : List Nat} {i : Nat} {x : Char}
    (h : StackInv o c text st i) (hx : text[i]? = some x) (ho : x ≠ o) (hc : x ≠ c) :
    StackInv o c text st (i + 1) := by
  cases st with
  | nil => trivial
  | cons p st =>
    refine ⟨by have := h.1; omega, h.2.1, ?_, h.2.2.2⟩
    rw [between_succ hx h.1]; exact h.2.2.1.snoc ho hc

theorem StackInv.push {o c : Char} {text : List Char} {st : List Nat} {i : Nat}
    (h : StackInv o c text st i) (hx : text[i]? = some o) :
    StackInv o c text (i :: st) (i + 1) := by
  refine ⟨by omega, hx, ?_, h⟩
  rw [between_self]; exact .nil

theorem StackInv.pop {o c : Char} {text : List Char} {p : Nat} {st : List Nat} {i : Nat}
    (h : StackInv o c text (p :: st) i) (hx : text[i]? = some c) :
    StackInv o c text st (i + 1) := by
  obtain ⟨h1, h2, h3, h4⟩ := h
  cases st with
  | nil => trivial
  | cons q st =>
    refine ⟨by have := h4.1; omega, h4.2.1, ?_, h4.2.2.2⟩
    rw [between_succ hx (by have := h4.1; omega), between_split h2 h4.1 h1]
    exact h4.2.2.1.close h3

/-- What holds of the brackets found so far. -/
structure ResInv (o c : Char) (text : List Char) (st : List Nat) (i : Nat) (res : List (Nat × Nat)) :
    Prop where
  closing : res.map Prod.snd = (List.range i).filter (fun j => text[j]? = some c)
  good : ∀ p ∈ res, p.1 < p.2 ∧ text[p.1]? = some o ∧ text[p.2]? = some c ∧
    Balanced o c (between text p.1 p.2)
  opens : (res.map Prod.fst).Nodup
  lt : ∀ p ∈ res, p.2 < i
  apart : ∀ p ∈ res, ∀ s ∈ st, s < p.1 ∨ p.2 < s
  nested : ∀ p ∈ res, ∀ q ∈ res, p.1 < q.1 → p.2 < q.1 ∨ q.2 < p.2

theorem range_filter_succ {text : List Char} {i : Nat} {x c : Char} (h : text[i]? = some x) :
    (List.range (i + 1)).filter (fun j => text[j]? = some c) =
      (List.range i).filter (fun j => text[j]? = some c) ++ (if x = c then [i] else []) := by
  rw [List.range_succ, List.filter_append]
  congr 1
  by_cases hx : x = c <;> simp [h, hx]

theorem scan_spec {o c : Char} (hoc : o ≠ c) (text rest : List Char) (i : Nat) (st : List Nat)
    (res out : List (Nat × Nat)) (hrest : rest = text.drop i) (hi : i ≤ text.length)
    (hs : StackInv o c text st i) (hr : ResInv o c text st i res)
    (h : scan o c text rest i st res = .ok out) : ∃ st, ResInv o c text st text.length out := by
  induction rest generalizing i st res with
  | nil =>
    have : i = text.length := by
      have := congrArg List.length hrest; simp at this; omega
    subst this
    cases h; exact ⟨st, hr⟩
  | cons s rest ih =>
    have hlt : i < text.length := by
      have := congrArg List.length hrest; simp at this; omega
    have hsx : text[i]? = some s := by
      have h0 : (text.drop i)[0]? = some s := by rw [← hrest]; rfl
      simpa using h0
    have hrest' : rest = text.drop (i + 1) := by
      have := congrArg List.tail hrest
      simpa using this
    rw [scan] at h
    by_cases ho : s = o
    · subst ho
      have hne : s ≠ c := hoc
      simp only [if_true, hne, if_false] at h
      refine ih (i + 1) _ _ hrest' hlt (hs.push hsx) ?_ h
      refine ⟨?_, hr.good, hr.opens, fun p hp => by have := hr.lt p hp; omega, ?_, hr.nested⟩
      · rw [range_filter_succ hsx]; simp [hne, hr.closing]
      · intro p hp q hq
        rcases List.mem_cons.1 hq with rfl | hq
        · exact .inr (hr.lt p hp)
        · exact hr.apart p hp q hq
    · simp only [ho, if_false] at h
      by_cases hc : s = c
      · subst hc
        simp only [if_true] at h
        cases st with
        | nil => cases h
        | cons p st =>
          have hp := hs
          obtain ⟨hpi, hpo, hpb, hps⟩ := hs
          simp only [mkBracket, hpi, hpo, hsx, and_self, if_true] at h
          have notin : ∀ q ∈ res, q.1 ≠ p := by
            intro q hq e
            have h1 := hr.apart q hq p (by simp)
            have h2 := (hr.good q hq).1
            omega
          refine ih (i + 1) _ _ hrest' hlt (hp.pop hsx) ?_ h
          refine ⟨?_, ?_, ?_, ?_, ?_, ?_⟩
          · rw [range_filter_succ hsx]; simp [hr.closing]
          · intro q hq
            rcases List.mem_append.1 hq with hq | hq
            · exact hr.good q hq
            · simp only [List.mem_singleton] at hq; subst hq; exact ⟨hpi, hpo, hsx, hpb⟩
          · rw [List.map_append, List.nodup_append]
            refine ⟨hr.opens, by simp, ?_⟩
            rintro a ha b hb rfl
            obtain ⟨q, hq, rfl⟩ := List.mem_map.1 ha
            simp at hb; exact notin q hq hb
          · intro q hq
            rcases List.mem_append.1 hq with hq | hq
            · have := hr.lt q hq; omega
            · simp only [List.mem_singleton] at hq; subst hq; exact Nat.lt_succ_self i
          · intro q hq t ht
            rcases List.mem_append.1 hq with hq | hq
            · exact hr.apart q hq t (by simp [ht])
            · simp only [List.mem_singleton] at hq; subst hq
              have := hps.lt ht; exact .inl this
          · intro q hq r hr' hlt'
            rcases List.mem_append.1 hq with hq | hq <;> rcases List.mem_append.1 hr' with hr' | hr'
            · exact hr.nested q hq r hr' hlt'
            · simp only [List.mem_singleton] at hr'; subst hr'
              have h1 := hr.apart q hq p (by simp)
              simp only at hlt' ⊢; omega
            · simp only [List.mem_singleton] at hq; subst hq
              have := hr.lt r hr'; right; exact this
            · simp only [List.mem_singleton] at hq hr'; subst hq; subst hr'; omega
      · simp only [hc, if_false] at h
        refine ih (i + 1) _ _ hrest' hlt (hs.other hsx ho hc) ?_ h
        refine ⟨?_, hr.good, hr.opens, fun p hp => by have := hr.lt p hp; omega, hr.apart, hr.nested⟩
        rw [range_filter_succ hsx]; simp [hc, hr.closing]

/-- Success and failure of the scan, in terms of bracket counts. -/
theorem scan_total {o c : Char} (hoc : o ≠ c) (text rest : List Char) (i : Nat) (st : List Nat)
    (res : List (Nat × Nat)) (hrest : rest = text.drop i) (hi : i ≤ text.length)
    (hs : StackInv o c text st i) :
    ((∃ n, rest.count o = rest.count o ∧ st.length + (rest.take n).count o < (rest.take n).count c) →
      scan o c text rest i st res = .error .indexError) ∧
    ((∀ n, (rest.take n).count c ≤ st.length + (rest.take n).count o) →
      ∃ out, scan o c text rest i st res = .ok out) := by
  induction rest generalizing i st res with
  | nil => simp [scan]
  | cons s rest ih =>
    have hlt : i < text.length := by
      have := congrArg List.length hrest; simp at this; omega
    have hsx : text[i]? = some s := by
      have h0 : (text.drop i)[0]? = some s := by rw [← hrest]; rfl
      simpa using h0
    have hrest' : rest = text.drop (i + 1) := by
      have := congrArg List.tail hrest
      simpa using this
    simp only [true_and] at ih ⊢
    have hz : ∀ m : Nat, ¬ (m + ([] : List Char).count o < ([] : List Char).count c) := by simp
    rw [scan]
    by_cases ho : s = o
    · subst ho
      have hne : s ≠ c := hoc
      simp only [if_true, hne, if_false]
      have := ih (i + 1) (i :: st) res hrest' hlt (hs.push hsx)
      constructor
      · rintro ⟨n, hn⟩
        cases n with
        | zero => exact absurd hn (hz _)
        | succ n =>
          refine this.1 ⟨n, ?_⟩
          simp only [List.take_succ_cons, List.count_cons_self, List.count_cons_of_ne hne] at hn
          simp only [List.length_cons]; omega
      · intro hn
        refine this.2 fun n => ?_
        have := hn (n + 1)
        simp only [List.take_succ_cons, List.count_cons_self, List.count_cons_of_ne hne] at this
        simp only [List.length_cons]; omega
    · simp only [ho, if_false]
      by_cases hc : s = c
      · subst hc
        simp only [if_true]
        cases st with
        | nil =>
          refine ⟨fun _ => rfl, fun hn => ?_⟩
          have := hn 1
          simp [ho] at this
        | cons p st =>
          have hp := hs
          obtain ⟨hpi, hpo, hpb, hps⟩ := hs
          simp only [mkBracket, hpi, hpo, hsx, and_self, if_true]
          have := ih (i + 1) st (res ++ [(p, i)]) hrest' hlt (hp.pop hsx)
          constructor
          · rintro ⟨n, hn⟩
            cases n with
            | zero => exact absurd hn (hz _)
            | succ n =>
              refine this.1 ⟨n, ?_⟩
              simp only [List.take_succ_cons, List.count_cons_self, List.count_cons_of_ne ho,
                List.length_cons] at hn
              omega
          · intro hn
            refine this.2 fun n => ?_
            have := hn (n + 1)
            simp only [List.take_succ_cons, List.count_cons_self, List.count_cons_of_ne ho,
              List.length_cons] at this
            omega
      · simp only [hc, if_false]
        have := ih (i + 1) st res hrest' hlt (hs.other hsx ho hc)
        constructor
        · rintro ⟨n, hn⟩
          cases n with
          | zero => exact absurd hn (hz _)
          | succ n =>
            refine this.1 ⟨n, ?_⟩
            simp only [List.take_succ_cons, List.count_cons_of_ne ho, List.count_cons_of_ne hc] at hn
            exact hn
        · intro hn
          refine this.2 fun n => ?_
          have := hn (n + 1)
          simpa only [List.take_succ_cons, List.count_cons_of_ne ho, List.count_cons_of_ne hc] using this

/-! `find_closing_bracket` -/

/-- Scanning a balanced piece with a non-empty stack changes nothing. -/
theorem scanClosing_balanced {o c : Char} (hoc : o ≠ c) (text s : List Char) (hb : Balanced o c s)
    (rest : List Char) (i : Nat) (p : Nat) (st : List Nat) :
    scanClosing o c text (s ++ rest) i (p :: st) = scanClosing o c text rest (i + s.length) (p :: st) := by
  induction hb generalizing rest i p st with
  | nil => rfl
  | other ho hc _ ih =>
    rw [List.cons_append, scanClosing]
    simp only [ho, hc, if_false]
    rw [ih]; congr 1; simp; omega
  | wrap _ _ ih1 ih2 =>
    rw [List.append_assoc, List.cons_append, List.cons_append, scanClosing]
    simp only [if_true, hoc, if_false]
    rw [ih1, List.cons_append, scanClosing]
    simp only [Ne.symm hoc, if_false, if_true, List.isEmpty_cons, Bool.false_eq_true]
    rw [ih2]; congr 1; simp; omega

theorem scanClosing_plain {o c : Char} (text pre : List Char) (ho : o ∉ pre) (hc : c ∉ pre)
    (rest : List Char) (i : Nat) (st : List Nat) :
    scanClosing o c text (pre ++ rest) i st = scanClosing o c text rest (i + pre.length) st := by
  induction pre generalizing i with
  | nil => rfl
  | cons x pre ih =>
    simp only [List.mem_cons, not_or] at ho hc
    rw [List.cons_append, scanClosing]
    simp only [Ne.symm ho.1, Ne.symm hc.1, if_false]
    rw [ih ho.2 hc.2]; congr 1; simp; omega

/-- Once a bracket is open the scan does not fail: it finds the closing one or reaches the end. -/
theorem scanClosing_open {o c : Char} (hoc : o ≠ c) (text rest : List Char) (i : Nat) (p : Nat)
    (st : List Nat) (hrest : rest = text.drop i) (hi : i ≤ text.length)
    (hs : StackInv o c text (p :: st) i) :
    scanClosing o c text rest i (p :: st) = .ok none ∨
    ∃ a b, scanClosing o c text rest i (p :: st) = .ok (some ((a, b), between text a b)) ∧
      a = (p :: st).getLast (by simp) ∧ a < b ∧ text[b]? = some c ∧
      Balanced o c (between text a b) := by
  induction rest generalizing i p st with
  | nil => exact .inl rfl
  | cons s rest ih =>
    have hlt : i < text.length := by
      have := congrArg List.length hrest; simp at this; omega
    have hsx : text[i]? = some s := by
      have h0 : (text.drop i)[0]? = some s := by rw [← hrest]; rfl
      simpa using h0
    have hrest' : rest = text.drop (i + 1) := by
      have := congrArg List.tail hrest
      simpa using this
    rw [scanClosing]
    by_cases ho : s = o
    · subst ho
      have hne : s ≠ c := hoc
      simp only [if_true, hne, if_false]
      have := ih (i + 1) i (p :: st) hrest' hlt (hs.push hsx)
      simpa [List.getLast_cons] using this
    · simp only [ho, if_false]
      by_cases hc : s = c
      · subst hc
        simp only [if_true]
        cases st with
        | nil =>
          right
          exact ⟨p, i, by simp [between], by simp, hs.1, hsx, hs.2.2.1⟩
        | cons q st =>
          simp only [List.isEmpty_cons, Bool.false_eq_true, if_false]
          have := ih (i + 1) q st hrest' hlt (hs.pop hsx)
          simpa [List.getLast_cons] using this
      · simp only [hc, if_false]
        exact ih (i + 1) p st hrest' hlt (hs.other hsx ho hc)

/-- A text without brackets, or a plain prefix followed by the first bracket. -/
theorem first_bracket (o c : Char) (text : List Char) :
    (o ∉ text ∧ c ∉ text) ∨
    ∃ pre x rest, text = pre ++ x :: rest ∧ o ∉ pre ∧ c ∉ pre ∧ (x = o ∨ x = c) := by
  induction text with
  | nil => simp
  | cons y text ih =>
    by_cases hy : y = o ∨ y = c
    · right; exact ⟨[], y, text, rfl, by simp, by simp, hy⟩
    · simp only [not_or] at hy
      rcases ih with ih | ⟨pre, x, rest, rfl, h1, h2, h3⟩
      · left; simp [ih, Ne.symm hy.1, Ne.symm hy.2]
      · right; exact ⟨y :: pre, x, rest, rfl, by simp [h1, Ne.symm hy.1], by simp [h2, Ne.symm hy.2], h3⟩

end Verif.Brackets
