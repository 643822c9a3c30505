import Verif.Props.Temporal
import Verif.Spec.Layouts
/-
C333 dates in all the layouts of the settings.
-/
namespace Verif.Temporal
open Spec

theorem two_fix (n : Nat) : two n = fix 2 n := by simp [two, place, fix2_eq, digit]
theorem four_fix (n : Nat) : four n = fix 4 n := by simp [four, place, fix4_eq, digit, Nat.div_div_eq_div_mul]

theorem num2_any (n : Nat) (s : Str) : num 2 (fix 2 n ++ s) 0 = some (10 * (n / 10 % 10) + n % 10, s) := by
  simp [fix2_eq, num, digit_isDigit, digit_val]

/-- A date or month cannot be at two digits before another sign. -/
theorem here_sign {t : FTok} (ht : t = .day ∨ t = .month ∨ t = .hour) {y c : Char} (hy : c ≠ y) (g : Fmt) (n : Nat) (r : Str) :
    here (t :: .lit y :: g) (fix 2 n ++ c :: r) = none := by
  rcases ht with rfl | rfl | rfl <;> simp only [here, fmtAt, tokAt, num2_any, Option.map_some] <;> simp [hy]

theorem here_year_two {c : Char} (hc : c.isDigit = false) (g : Fmt) (n : Nat) (r : Str) :
    here (.year :: g) (fix 2 n ++ c :: r) = none := by
  simp [here, fmtAt, tokAt, fix2_eq, num, digit_isDigit, hc]

theorem here_two_four {t : FTok} (ht : t = .day ∨ t = .month ∨ t = .hour) {y : Char} (hy : y.isDigit = false) (g : Fmt) (n : Nat)
    (r : Str) : here (t :: .lit y :: g) (fix 4 n ++ r) = none := by
  have hn : ∀ s, num 2 (digit (n / 10 / 10 / 10) :: digit (n / 10 / 10) :: s) 0
      = some (10 * (n / 10 / 10 / 10 % 10) + n / 10 / 10 % 10, s) := by
    intro s; simp [num, digit_isDigit, digit_val]
  rcases ht with rfl | rfl | rfl <;>
    simp only [here, fmtAt, tokAt, fix4_eq, List.cons_append, hn, Option.map_some] <;> simp [digit_ne _ _ hy]

theorem here_year_sign {y c : Char} (hy : c ≠ y) (g : Fmt) {n : Nat} (hn : n < 10000) (r : Str) :
    here (.year :: .lit y :: g) (fix 4 n ++ c :: r) = none := by
  simp only [here, fmtAt]
  rw [tok_year _ _ _ hn]
  simp only
  rw [tok_lit_ne _ _ _ _ hy]

/-- Nothing, or a space and a time. -/
def Tail (r : Str) : Prop := r = [] ∨ ∃ h t, r = ' ' :: (fix 2 h ++ ':' :: t) ∧ Word t

/-- The format starts like one of a date. -/
def Dated (f : Fmt) : Prop := ∃ t y g, f = t :: .lit y :: g ∧ (t = .year ∨ t = .day ∨ t = .month) ∧ Sign y

theorem search_none {f : Fmt} (hf : Dated f) {w r : Str} (hw : Word w) (hne : w ≠ []) (hr : Tail r) (h : here f (w ++ r) = none) :
    search f true (w ++ r) = none := by
  rcases hr with rfl | ⟨n, t, rfl, ht⟩
  · rw [List.append_nil] at h ⊢
    rw [search_word _ _ hw, h]
  · rw [search_next _ _ _ hw hne h, search_word _ _ (word_append (word_fix _ _) (word_cons (by decide) ht))]
    obtain ⟨t', y, g, rfl, ht', hy⟩ := hf
    have hy' : ':' ≠ y := by rcases hy with rfl | rfl | rfl <;> decide
    rcases ht' with rfl | h
    · exact here_year_two (by decide) _ _ _
    · exact here_sign (by rcases h with h | h <;> simp [h]) hy' _ _ _

theorem get_first {pre post : List Fmt} {f : Fmt} {s : Str} {x : Fields} (hpre : ∀ g ∈ pre, search g true s = none)
    (h : search f true s = some x) (hp : x.pm = none) (hv : x.date.valid = true) (hc : x.clock.valid = true) :
    get (pre ++ f :: post) s = .ok (x.date, x.clock) := by
  induction pre with
  | nil => exact get_hit _ _ _ _ h hp hv hc
  | cons g pre ih =>
    rw [List.cons_append, get_skip _ _ _ (hpre g (by simp))]
    exact ih fun g hg => hpre g (by simp [hg])

theorem get_none {fs : List Fmt} {s : Str} (h : ∀ g ∈ fs, search g true s = none) : get fs s = .error .valueError := by
  induction fs with
  | nil => rfl
  | cons g fs ih =>
    rw [get_skip _ _ _ (h g (by simp))]
    exact ih fun g hg => h g (by simp [hg])

theorem tail_bounded {r : Str} (h : Tail r) : bounded r = true := by
  rcases h with rfl | ⟨_, _, rfl, _⟩ <;> rfl

theorem tail_lit {r : Str} (h : Tail r) (x : Fields) {c : Char} (hc : c ≠ ' ') : tokAt (.lit c) x r = none := by
  rcases h with rfl | ⟨_, _, rfl, _⟩
  · rfl
  · exact tok_lit_ne _ _ _ _ (Ne.symm hc)

/-- What a text of a date is, as the formats see it. -/
theorem read_date {s : Str} {d : Date} (hs : Writes s d) (hd : d.valid = true) {r : Str} (hr : Tail r) :
    (get dateFormats (s ++ r) = .ok (d, midnight) ∨
      (get dateFormats (s ++ r) = .error .valueError ∧ get altDateFormats (s ++ r) = .ok (d, midnight))) ∧
    get (dateFormats ++ altDateFormats) (s ++ r) = .ok (d, midnight) := by
  have key : (∃ pre f post, dateFormats = pre ++ f :: post ∧ (∀ g ∈ pre, search g true (s ++ r) = none) ∧
        search f true (s ++ r) = some { date := d }) ∨
      ((∀ g ∈ dateFormats, search g true (s ++ r) = none) ∧ ∃ pre f post, altDateFormats = pre ++ f :: post ∧
        (∀ g ∈ pre, search g true (s ++ r) = none) ∧ search f true (s ++ r) = some { date := d }) := by
    have hv := hd
    simp only [Date.valid, Bool.and_eq_true, decide_eq_true_eq] at hv
    have hm : daysIn d.y d.m ≤ 31 := by unfold daysIn; split <;> (try split) <;> omega
    cases hs with
    | ymd y m dd c hc =>
      simp only at hv hm
      have hw : Word (four y ++ [c] ++ two m ++ [c] ++ two dd) := by
        rw [four_fix, two_fix, two_fix]
        have hsp : isSpace c = false := by rcases hc with rfl | rfl | rfl <;> decide
        exact word_append (word_append (word_append (word_append (word_fix _ _) (word_cons hsp word_nil)) (word_fix _ _))
          (word_cons hsp word_nil)) (word_fix _ _)
      have hne : four y ++ [c] ++ two m ++ [c] ++ two dd ≠ [] := by simp [four]
      have e : four y ++ [c] ++ two m ++ [c] ++ two dd ++ r = fix 4 y ++ c :: (fix 2 m ++ c :: (fix 2 dd ++ r)) := by
        simp [four_fix, two_fix]
      have hit : search [.year, .lit c, .month, .lit c, .day] true (four y ++ [c] ++ two m ++ [c] ++ two dd ++ r)
          = some { date := ⟨y, m, dd⟩ } := by
        refine search_here _ _ _ ?_
        rw [e, here]
        simp only [fmtAt]
        rw [tok_year _ _ _ (by omega)]
        simp only [tok_lit]
        rw [tok_month _ _ _ (by omega)]
        simp only [tok_lit]
        rw [tok_day _ _ _ (by omega)]
        simp [tail_bounded hr]
      have miss : ∀ z g, c ≠ z → Sign z → search (.year :: .lit z :: g) true (four y ++ [c] ++ two m ++ [c] ++ two dd ++ r) = none := by
        intro z g hz hs
        exact search_none ⟨_, _, _, rfl, .inl rfl, hs⟩ hw hne hr (by rw [e]; exact here_year_sign hz g (by omega) _)
      left
      rcases hc with rfl | rfl | rfl
      · exact ⟨[], _, _, rfl, by simp, hit⟩
      · refine ⟨[[.year, .lit '-', .month, .lit '-', .day]], _, _, rfl, ?_, hit⟩
        simp only [List.mem_singleton, forall_eq]
        exact miss _ _ (by decide) (.inl rfl)
      · refine ⟨[[.year, .lit '-', .month, .lit '-', .day], [.year, .lit '/', .month, .lit '/', .day]], _, _, rfl, ?_, hit⟩
        simp only [List.mem_cons, List.not_mem_nil, or_false, forall_eq_or_imp, forall_eq]
        exact ⟨miss _ _ (by decide) (.inl rfl), miss _ _ (by decide) (.inr (.inl rfl))⟩
    | ym y m c hc =>
      simp only at hv hm
      have hw : Word (four y ++ [c] ++ two m) := by
        rw [four_fix, two_fix]
        have hsp : isSpace c = false := by rcases hc with rfl | rfl | rfl <;> decide
        exact word_append (word_append (word_fix _ _) (word_cons hsp word_nil)) (word_fix _ _)
      have hne : four y ++ [c] ++ two m ≠ [] := by simp [four]
      have e : four y ++ [c] ++ two m ++ r = fix 4 y ++ c :: (fix 2 m ++ r) := by simp [four_fix, two_fix]
      have hsp : c ≠ ' ' := by rcases hc with rfl | rfl | rfl <;> decide
      have hit : search [.year, .lit c, .month] true (four y ++ [c] ++ two m ++ r) = some { date := ⟨y, m, 1⟩ } := by
        refine search_here _ _ _ ?_
        rw [e, here]
        simp only [fmtAt]
        rw [tok_year _ _ _ (by omega)]
        simp only [tok_lit]
        rw [tok_month _ _ _ (by omega)]
        simp [tail_bounded hr, dayOne]
      have same : search [.year, .lit c, .month, .lit c, .day] true (four y ++ [c] ++ two m ++ r) = none := by
        refine search_none ⟨_, _, _, rfl, .inl rfl, hc⟩ hw hne hr ?_
        rw [e, here]
        simp only [fmtAt]
        rw [tok_year _ _ _ (by omega)]
        simp only [tok_lit]
        rw [tok_month _ _ _ (by omega)]
        simp only
        rw [tail_lit hr _ hsp]
      have miss : ∀ z g, c ≠ z → Sign z → search (.year :: .lit z :: g) true (four y ++ [c] ++ two m ++ r) = none := by
        intro z g hz hs
        exact search_none ⟨_, _, _, rfl, .inl rfl, hs⟩ hw hne hr (by rw [e]; exact here_year_sign hz g (by omega) _)
      have s1 : Sign '-' := .inl rfl
      have s2 : Sign '/' := .inr (.inl rfl)
      have s3 : Sign '.' := .inr (.inr rfl)
      left
      rcases hc with rfl | rfl | rfl
      · refine ⟨dateFormats.take 3, _, _, rfl, ?_, hit⟩
        simp only [dateFormats, List.take, List.mem_cons, List.not_mem_nil, or_false, forall_eq_or_imp, forall_eq]
        exact ⟨same, miss _ _ (by decide) s2, miss _ _ (by decide) s3⟩
      · refine ⟨dateFormats.take 4, _, _, rfl, ?_, hit⟩
        simp only [dateFormats, List.take, List.mem_cons, List.not_mem_nil, or_false, forall_eq_or_imp, forall_eq]
        exact ⟨miss _ _ (by decide) s1, same, miss _ _ (by decide) s3, miss _ _ (by decide) s1⟩
      · refine ⟨dateFormats.take 5, _, _, rfl, ?_, hit⟩
        simp only [dateFormats, List.take, List.mem_cons, List.not_mem_nil, or_false, forall_eq_or_imp, forall_eq]
        exact ⟨miss _ _ (by decide) s1, miss _ _ (by decide) s2, same, miss _ _ (by decide) s1, miss _ _ (by decide) s2⟩
    | dmy y m dd c hc =>
      simp only at hv hm
      have hw : Word (two dd ++ [c] ++ two m ++ [c] ++ four y) := by
        rw [four_fix, two_fix, two_fix]
        have hsp : isSpace c = false := by rcases hc with rfl | rfl | rfl <;> decide
        exact word_append (word_append (word_append (word_append (word_fix _ _) (word_cons hsp word_nil)) (word_fix _ _))
          (word_cons hsp word_nil)) (word_fix _ _)
      have hne : two dd ++ [c] ++ two m ++ [c] ++ four y ≠ [] := by simp [two]
      have e : two dd ++ [c] ++ two m ++ [c] ++ four y ++ r = fix 2 dd ++ c :: (fix 2 m ++ c :: (fix 4 y ++ r)) := by
        simp [four_fix, two_fix]
      have hdig : c.isDigit = false := by rcases hc with rfl | rfl | rfl <;> decide
      have hit : search [.day, .lit c, .month, .lit c, .year] true (two dd ++ [c] ++ two m ++ [c] ++ four y ++ r)
          = some { date := ⟨y, m, dd⟩ } := by
        refine search_here _ _ _ ?_
        rw [e, here]
        simp only [fmtAt]
        rw [tok_day _ _ _ (by omega)]
        simp only [tok_lit]
        rw [tok_month _ _ _ (by omega)]
        simp only [tok_lit]
        rw [tok_year _ _ _ (by omega)]
        simp [tail_bounded hr]
      have year : ∀ z g, Sign z → search (.year :: .lit z :: g) true (two dd ++ [c] ++ two m ++ [c] ++ four y ++ r) = none := by
        intro z g hs
        exact search_none ⟨_, _, _, rfl, .inl rfl, hs⟩ hw hne hr (by rw [e]; exact here_year_two hdig _ _ _)
      have miss : ∀ z g, c ≠ z → Sign z → search (.day :: .lit z :: g) true (two dd ++ [c] ++ two m ++ [c] ++ four y ++ r) = none := by
        intro z g hz hs
        exact search_none ⟨_, _, _, rfl, .inr (.inl rfl), hs⟩ hw hne hr (by rw [e]; exact here_sign (.inl rfl) hz g _ _)
      have s1 : Sign '-' := .inl rfl
      have s2 : Sign '/' := .inr (.inl rfl)
      have s3 : Sign '.' := .inr (.inr rfl)
      right
      refine ⟨?_, ?_⟩
      · simp only [dateFormats, List.mem_cons, List.not_mem_nil, or_false, forall_eq_or_imp, forall_eq]
        exact ⟨year _ _ s1, year _ _ s2, year _ _ s3, year _ _ s1, year _ _ s2, year _ _ s3⟩
      · rcases hc with rfl | rfl | rfl
        · exact ⟨[], _, _, rfl, by simp, hit⟩
        · refine ⟨altDateFormats.take 1, _, _, rfl, ?_, hit⟩
          simp only [altDateFormats, List.take, List.mem_cons, List.not_mem_nil, or_false, forall_eq]
          exact miss _ _ (by decide) s1
        · refine ⟨altDateFormats.take 2, _, _, rfl, ?_, hit⟩
          simp only [altDateFormats, List.take, List.mem_cons, List.not_mem_nil, or_false, forall_eq_or_imp, forall_eq]
          exact ⟨miss _ _ (by decide) s1, miss _ _ (by decide) s2⟩
    | my y m c hc =>
      simp only at hv hm
      have hw : Word (two m ++ [c] ++ four y) := by
        rw [four_fix, two_fix]
        have hsp : isSpace c = false := by rcases hc with rfl | rfl | rfl <;> decide
        exact word_append (word_append (word_fix _ _) (word_cons hsp word_nil)) (word_fix _ _)
      have hne : two m ++ [c] ++ four y ≠ [] := by simp [two]
      have e : two m ++ [c] ++ four y ++ r = fix 2 m ++ c :: (fix 4 y ++ r) := by simp [four_fix, two_fix]
      have hdig : c.isDigit = false := by rcases hc with rfl | rfl | rfl <;> decide
      have hit : search [.month, .lit c, .year] true (two m ++ [c] ++ four y ++ r) = some { date := ⟨y, m, 1⟩ } := by
        refine search_here _ _ _ ?_
        rw [e, here]
        simp only [fmtAt]
        rw [tok_month _ _ _ (by omega)]
        simp only [tok_lit]
        rw [tok_year _ _ _ (by omega)]
        simp [tail_bounded hr, dayOne]
      have same : search [.day, .lit c, .month, .lit c, .year] true (two m ++ [c] ++ four y ++ r) = none := by
        refine search_none ⟨_, _, _, rfl, .inr (.inl rfl), hc⟩ hw hne hr ?_
        have hn : ∀ s, num 2 (digit (y / 10 / 10 / 10) :: digit (y / 10 / 10) :: s) 0
            = some (10 * (y / 10 / 10 / 10 % 10) + y / 10 / 10 % 10, s) := by
          intro s; simp [num, digit_isDigit, digit_val]
        rw [e, here]
        simp only [fmtAt]
        rw [tok_day _ _ _ (by omega)]
        simp only [tok_lit]
        rw [fix4_eq, tokAt]
        simp only [List.cons_append, List.nil_append]
        rw [hn]
        simp only [Option.map_some]
        rw [tok_lit_ne _ _ _ _ (digit_ne _ _ hdig)]
      have year : ∀ z g, Sign z → search (.year :: .lit z :: g) true (two m ++ [c] ++ four y ++ r) = none := by
        intro z g hs
        exact search_none ⟨_, _, _, rfl, .inl rfl, hs⟩ hw hne hr (by rw [e]; exact here_year_two hdig _ _ _)
      have miss : ∀ t z g, (t = .day ∨ t = .month) → c ≠ z → Sign z →
          search (t :: .lit z :: g) true (two m ++ [c] ++ four y ++ r) = none := by
        intro t z g ht hz hs
        exact search_none ⟨_, _, _, rfl, .inr ht, hs⟩ hw hne hr
          (by rw [e]; exact here_sign (by rcases ht with h | h <;> simp [h]) hz g _ _)
      have s1 : Sign '-' := .inl rfl
      have s2 : Sign '/' := .inr (.inl rfl)
      have s3 : Sign '.' := .inr (.inr rfl)
      right
      refine ⟨?_, ?_⟩
      · simp only [dateFormats, List.mem_cons, List.not_mem_nil, or_false, forall_eq_or_imp, forall_eq]
        exact ⟨year _ _ s1, year _ _ s2, year _ _ s3, year _ _ s1, year _ _ s2, year _ _ s3⟩
      · rcases hc with rfl | rfl | rfl
        · refine ⟨altDateFormats.take 3, _, _, rfl, ?_, hit⟩
          simp only [altDateFormats, List.take, List.mem_cons, List.not_mem_nil, or_false, forall_eq_or_imp, forall_eq]
          exact ⟨same, miss _ _ _ (.inl rfl) (by decide) s2, miss _ _ _ (.inl rfl) (by decide) s3⟩
        · refine ⟨altDateFormats.take 4, _, _, rfl, ?_, hit⟩
          simp only [altDateFormats, List.take, List.mem_cons, List.not_mem_nil, or_false, forall_eq_or_imp, forall_eq]
          exact ⟨miss _ _ _ (.inl rfl) (by decide) s1, same, miss _ _ _ (.inl rfl) (by decide) s3,
            miss _ _ _ (.inr rfl) (by decide) s1⟩
        · refine ⟨altDateFormats.take 5, _, _, rfl, ?_, hit⟩
          simp only [altDateFormats, List.take, List.mem_cons, List.not_mem_nil, or_false, forall_eq_or_imp, forall_eq]
          exact ⟨miss _ _ _ (.inl rfl) (by decide) s1, miss _ _ _ (.inl rfl) (by decide) s2, same,
            miss _ _ _ (.inr rfl) (by decide) s1, miss _ _ _ (.inr rfl) (by decide) s2⟩
  rcases key with ⟨pre, f, post, he, hpre, hf⟩ | ⟨hn, pre, f, post, he, hpre, hf⟩
  · rw [he]
    refine ⟨.inl (get_first hpre hf rfl hd midnight_valid), ?_⟩
    rw [List.append_assoc, List.cons_append]
    exact get_first hpre hf rfl hd midnight_valid
  · rw [he]
    refine ⟨.inr ⟨get_none hn, get_first hpre hf rfl hd midnight_valid⟩, ?_⟩
    rw [← List.append_assoc]
    refine get_first (fun g hg => ?_) hf rfl hd midnight_valid
    rcases List.mem_append.1 hg with h | h
    · exact hn g h
    · exact hpre g h

/-- A written date starts with two digits, and is no word for the present. -/
theorem writes_head {s : Str} {d : Date} (hs : Writes s d) (r : Str) : ∃ n t, s ++ r = digit n :: t := by
  cases hs with
  | ymd y m dd c _ => exact ⟨_, _, by rw [four_fix, fix4_eq]; rfl⟩
  | dmy y m dd c _ => exact ⟨_, _, by rw [two_fix dd, fix2_eq]; rfl⟩
  | ym y m c _ => exact ⟨_, _, by rw [four_fix, fix4_eq]; rfl⟩
  | my y m c _ => exact ⟨_, _, by rw [two_fix m, fix2_eq]; rfl⟩

theorem writes_present {s : Str} {d : Date} (hs : Writes s d) (r : Str) : s ++ r ≠ "now".toList ∧ s ++ r ≠ "today".toList := by
  obtain ⟨n, t, e⟩ := writes_head hs r
  rw [e]
  constructor <;> intro h
  · exact digit_ne n 'n' (by decide) (List.cons.inj (h.trans (by rfl : "now".toList = ['n', 'o', 'w']))).1
  · exact digit_ne n 't' (by decide) (List.cons.inj (h.trans (by rfl : "today".toList = ['t', 'o', 'd', 'a', 'y']))).1

/-- **C333**: a date is read whichever way it is written. -/
theorem C333_date (env : Env) (s : Str) (d : Date) (hp : env.conv s = s) (hs : Writes s d) (hd : Calendar d) :
    dateConvert env (.str s) = .ok (.date d) := by
  have hd' := (valid_iff d).2 hd
  have h := (read_date hs hd' (.inl rfl)).1
  have hn := writes_present hs []
  rw [List.append_nil] at h hn
  simp only [dateConvert, hp, hn.1, hn.2, or_self, if_false]
  rcases h with h | ⟨h, h2⟩
  · rw [h]; simp [midnight]
  · rw [h]; simp [dateConvert.dateAlt, h2, midnight]

theorem time_after {s : Str} {d : Date} (hs : Writes s d) (t : Str) : get timeFormats (s ++ ' ' :: t) = get timeFormats t := by
  refine get_congr _ _ _ fun f hf => ?_
  obtain ⟨g, rfl⟩ := timeFormats_head f hf
  cases hs with
  | ymd y m dd c hc =>
    have hsp : isSpace c = false := by rcases hc with rfl | rfl | rfl <;> decide
    rw [four_fix, two_fix, two_fix]
    refine search_next _ _ _ (word_append (word_append (word_append (word_append (word_fix _ _) (word_cons hsp word_nil))
      (word_fix _ _)) (word_cons hsp word_nil)) (word_fix _ _)) (by simp [fix4_eq]) ?_
    simp only [List.append_assoc]
    exact here_two_four (.inr (.inr rfl)) (by decide) _ _ _
  | ym y m c hc =>
    have hsp : isSpace c = false := by rcases hc with rfl | rfl | rfl <;> decide
    rw [four_fix, two_fix]
    refine search_next _ _ _ (word_append (word_append (word_fix _ _) (word_cons hsp word_nil)) (word_fix _ _)) (by simp [fix4_eq]) ?_
    simp only [List.append_assoc]
    exact here_two_four (.inr (.inr rfl)) (by decide) _ _ _
  | dmy y m dd c hc =>
    have hsp : isSpace c = false := by rcases hc with rfl | rfl | rfl <;> decide
    have hcol : c ≠ ':' := by rcases hc with rfl | rfl | rfl <;> decide
    rw [four_fix, two_fix, two_fix]
    refine search_next _ _ _ (word_append (word_append (word_append (word_append (word_fix _ _) (word_cons hsp word_nil))
      (word_fix _ _)) (word_cons hsp word_nil)) (word_fix _ _)) (by simp [fix2_eq]) ?_
    simp only [List.append_assoc, List.singleton_append]
    exact here_sign (.inr (.inr rfl)) hcol _ _ _
  | my y m c hc =>
    have hsp : isSpace c = false := by rcases hc with rfl | rfl | rfl <;> decide
    have hcol : c ≠ ':' := by rcases hc with rfl | rfl | rfl <;> decide
    rw [four_fix, two_fix]
    refine search_next _ _ _ (word_append (word_append (word_fix _ _) (word_cons hsp word_nil)) (word_fix _ _)) (by simp [fix2_eq]) ?_
    simp only [List.append_assoc, List.singleton_append]
    exact here_sign (.inr (.inr rfl)) hcol _ _ _

/-- **C333**: and so is a moment, with the time after a space. -/
theorem C333_datetime (env : Env) (s : Str) (d : Date) (h m sec : Nat) (hp : env.conv (s ++ " ".toList ++ clockText h m sec) = s ++ " ".toList ++ clockText h m sec)
    (hs : Writes s d) (hd : Calendar d) (hc : OfDay ⟨h, m, sec, 0, none⟩) :
    datetimeConvert env (.str (s ++ " ".toList ++ clockText h m sec)) = .ok (.arrow d ⟨h, m, sec, 0, some 0⟩) := by
  have hd' := (valid_iff d).2 hd
  have hv : (⟨h, m, sec, 0, none⟩ : Clock).valid = true := by
    simp only [OfDay] at hc
    simp [Clock.valid, hc.1, hc.2.1, hc.2.2.1]
  have e : clockText h m sec = showHms ⟨h, m, sec, 0, none⟩ := by simp [clockText, showHms, two_fix]
  have e2 : s ++ " ".toList ++ clockText h m sec = s ++ ' ' :: showHms ⟨h, m, sec, 0, none⟩ := by simp [e]
  rw [e2] at hp ⊢
  have ht : Tail (' ' :: showHms ⟨h, m, sec, 0, none⟩) := by
    refine .inr ⟨h, fix 2 m ++ ':' :: fix 2 sec, by simp [showHms], ?_⟩
    exact word_append (word_fix _ _) (word_cons (by decide) (word_fix _ _))
  have h1 := (read_date hs hd' ht).2
  have h2 := time_after hs (showHms ⟨h, m, sec, 0, none⟩)
  have h3 : get timeFormats (showHms ⟨h, m, sec, 0, none⟩) = .ok (dayOne, ⟨h, m, sec, 0, none⟩) := get_hms _ hv rfl rfl
  have hn := writes_present hs (' ' :: showHms ⟨h, m, sec, 0, none⟩)
  simp only [datetimeConvert, hp, hn.1, hn.2, if_false, h1, h2, h3, toArrow]
  rfl

example : Writes "26/05/2018".toList ⟨2018, 5, 26⟩ ∧ Writes "05.2018".toList ⟨2018, 5, 1⟩ ∧ Calendar ⟨2018, 5, 26⟩ ∧
    OfDay ⟨11, 12, 13, 0, none⟩ ∧ clockText 11 12 13 = "11:12:13".toList :=
  ⟨.dmy 2018 5 26 '/' (.inr (.inl rfl)), .my 2018 5 '.' (.inr (.inr rfl)), by simp [Calendar], by simp [OfDay], by decide +kernel⟩

example : dateConvert demo (.str "26.05.2018".toList) = .ok (.date ⟨2018, 5, 26⟩) ∧
    dateConvert demo (.str "2018/05".toList) = .ok (.date ⟨2018, 5, 1⟩) ∧
    datetimeConvert demo (.str "26-05-2018 11:12:13".toList) = .ok (.arrow ⟨2018, 5, 26⟩ ⟨11, 12, 13, 0, some 0⟩) := by decide +kernel

end Verif.Temporal
