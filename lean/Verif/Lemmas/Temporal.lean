import Verif.Model.Temporal
/-
Lemmas on the formats of dates and times.
-/
namespace Verif.Temporal

/-! ### Digits -/

theorem digit_isDigit (n : Nat) : (digit n).isDigit = true := by
  have h : ∀ k < 10, (Char.ofNat (48 + k)).isDigit = true := by decide
  exact h _ (Nat.mod_lt _ (by decide))

theorem digit_val (n : Nat) : (digit n).toNat - 48 = n % 10 := by
  have h : ∀ k < 10, (Char.ofNat (48 + k)).toNat - 48 = k := by decide
  exact h _ (Nat.mod_lt _ (by decide))

theorem digit_ne (n : Nat) (c : Char) (h : c.isDigit = false) : digit n ≠ c := by
  rintro rfl
  rw [digit_isDigit] at h; simp at h

theorem fix_digits : (w n : Nat) → ∀ c ∈ fix w n, c.isDigit = true
  | 0, _ => by simp [fix]
  | w + 1, n => by
    intro c hc
    simp only [fix, List.mem_append, List.mem_singleton] at hc
    rcases hc with hc | rfl
    · exact fix_digits w _ c hc
    · exact digit_isDigit n

theorem fix_length : (w n : Nat) → (fix w n).length = w
  | 0, _ => rfl
  | w + 1, n => by simp [fix, fix_length w]

theorem num_add : (w : Nat) → (s : Str) → (acc k : Nat) → (r : Str) → num w s acc = some (k, r) →
    num (w + 1) s acc = num 1 r k
  | 0, s, acc, k, r, h => by
    simp only [num, Option.some.injEq, Prod.mk.injEq] at h
    rw [h.1, h.2]
  | w + 1, [], acc, k, r, h => by simp [num] at h
  | w + 1, c :: s, acc, k, r, h => by
    simp only [num] at h
    split at h
    · rename_i hc
      rw [← num_add w s _ k r h]
      simp [num, hc]
    · simp at h

theorem num_fix : (w n : Nat) → (s : Str) → (acc : Nat) → n < 10 ^ w →
    num w (fix w n ++ s) acc = some (acc * 10 ^ w + n, s)
  | 0, n, s, acc, h => by simp at h; subst h; simp [num, fix]
  | w + 1, n, s, acc, h => by
    have h1 := num_fix w (n / 10) (digit n :: s) acc (by
      rw [Nat.pow_succ] at h
      exact Nat.div_lt_of_lt_mul (by rw [Nat.mul_comm]; exact h))
    have e : fix (w + 1) n ++ s = fix w (n / 10) ++ digit n :: s := by simp [fix]
    rw [e, num_add _ _ _ _ _ h1]
    simp only [num, digit_isDigit, digit_val, if_true, Option.some.injEq, Prod.mk.injEq, and_true]
    rw [Nat.pow_succ, Nat.mul_add, ← Nat.mul_assoc, Nat.add_assoc, Nat.div_add_mod, Nat.mul_comm 10, ← Nat.mul_assoc,
      Nat.mul_right_comm]

theorem num2 (n : Nat) (s : Str) (h : n < 100) : num 2 (fix 2 n ++ s) 0 = some (n, s) := by
  rw [num_fix 2 n s 0 h]; simp

theorem num4 (n : Nat) (s : Str) (h : n < 10000) : num 4 (fix 4 n ++ s) 0 = some (n, s) := by
  rw [num_fix 4 n s 0 h]; simp

theorem fix2_eq (n : Nat) : fix 2 n = [digit (n / 10), digit n] := by simp [fix]

theorem fix4_eq (n : Nat) : fix 4 n = [digit (n / 10 / 10 / 10), digit (n / 10 / 10), digit (n / 10), digit n] := by
  simp [fix]

/-! ### Words -/

/-- A text without white space. -/
def Word (s : Str) : Prop := ∀ c ∈ s, isSpace c = false

theorem word_append {s t : Str} (hs : Word s) (ht : Word t) : Word (s ++ t) := by
  intro c hc
  rcases List.mem_append.1 hc with h | h
  · exact hs c h
  · exact ht c h

theorem word_cons {c : Char} {t : Str} (hs : isSpace c = false) (ht : Word t) : Word (c :: t) := by
  intro x hx
  rcases List.mem_cons.1 hx with rfl | h
  · exact hs
  · exact ht x h

theorem word_fix (w n : Nat) : Word (fix w n) := fun c hc => isSpace_of_isDigit (fix_digits w n c hc)

theorem word_nil : Word [] := by intro c hc; simp at hc

theorem word_isoDate (d : Date) : Word (isoDate d) :=
  word_append (word_append (word_fix _ _) (word_cons (by decide) (word_fix _ _))) (word_cons (by decide) (word_fix _ _))

theorem word_hms (c : Clock) : Word (showHms c) :=
  word_append (word_append (word_fix _ _) (word_cons (by decide) (word_fix _ _))) (word_cons (by decide) (word_fix _ _))

theorem word_zone (z : Int) : Word (showZone z) := by
  refine word_cons ?_ (word_append (word_fix _ _) (word_cons (by decide) (word_fix _ _)))
  split <;> decide

theorem word_isoClock (c : Clock) : Word (isoClock c) := by
  refine word_append (word_append (word_hms c) ?_) ?_
  · split
    · exact word_nil
    · exact word_cons (by decide) (word_fix _ _)
  · split
    · exact word_nil
    · exact word_zone _

theorem search_false (f : Fmt) : (s : Str) → Word s → search f false s = none
  | [], _ => by simp [search]
  | c :: s, h => by
    simp only [search]
    rw [h c (by simp)]
    simpa using search_false f s fun x hx => h x (by simp [hx])

theorem search_false_space (f : Fmt) (t : Str) : (s : Str) → Word s → search f false (s ++ ' ' :: t) = search f true t
  | [], _ => by simp [search, show isSpace ' ' = true by decide]
  | c :: s, h => by
    simp only [List.cons_append, search]
    rw [h c (by simp)]
    simpa using search_false_space f t s fun x hx => h x (by simp [hx])

/-- In one word, a match is the whole word. -/
theorem search_word (f : Fmt) (s : Str) (hs : Word s) : search f true s = here f s := by
  cases s with
  | nil => simp [search]
  | cons c s =>
    simp only [search, if_true]
    rw [hs c (by simp), search_false f s fun x hx => hs x (by simp [hx])]
    cases here f (c :: s) <;> rfl

/-- After a word that does not match, the rest. -/
theorem search_next (f : Fmt) (s t : Str) (hs : Word s) (hne : s ≠ []) (hh : here f (s ++ ' ' :: t) = none) :
    search f true (s ++ ' ' :: t) = search f true t := by
  cases s with
  | nil => simp at hne
  | cons c s =>
    simp only [List.cons_append] at hh ⊢
    simp only [search, if_true, hh]
    rw [hs c (by simp), search_false_space f t s fun x hx => hs x (by simp [hx])]

theorem search_here (f : Fmt) (s : Str) (x : Fields) (h : here f s = some x) : search f true s = some x := by
  cases s with
  | nil => simp [search, h]
  | cons c s => simp [search, h]

/-! ### Tokens -/

theorem tok_year (x : Fields) (n : Nat) (s : Str) (h : n < 10000) :
    tokAt .year x (fix 4 n ++ s) = some ({ x with date := { x.date with y := n } }, s) := by simp [tokAt, num4 n s h]

theorem tok_month (x : Fields) (n : Nat) (s : Str) (h : n < 100) :
    tokAt .month x (fix 2 n ++ s) = some ({ x with date := { x.date with m := n } }, s) := by simp [tokAt, num2 n s h]

theorem tok_day (x : Fields) (n : Nat) (s : Str) (h : n < 100) :
    tokAt .day x (fix 2 n ++ s) = some ({ x with date := { x.date with d := n } }, s) := by simp [tokAt, num2 n s h]

theorem tok_hour (x : Fields) (n : Nat) (s : Str) (h : n < 100) :
    tokAt .hour x (fix 2 n ++ s) = some ({ x with clock := { x.clock with h := n } }, s) := by simp [tokAt, num2 n s h]

theorem tok_minute (x : Fields) (n : Nat) (s : Str) (h : n < 100) :
    tokAt .minute x (fix 2 n ++ s) = some ({ x with clock := { x.clock with mi := n } }, s) := by
  simp [tokAt, num2 n s h]

theorem tok_second (x : Fields) (n : Nat) (s : Str) (h : n < 100) :
    tokAt .second x (fix 2 n ++ s) = some ({ x with clock := { x.clock with s := n } }, s) := by
  simp [tokAt, num2 n s h]

theorem tok_lit (x : Fields) (c : Char) (s : Str) : tokAt (.lit c) x (c :: s) = some (x, s) := by simp [tokAt]

theorem tok_lit_ne (x : Fields) (c d : Char) (s : Str) (h : d ≠ c) : tokAt (.lit c) x (d :: s) = none := by
  simp [tokAt, h]

theorem tok_lit_nil (x : Fields) (c : Char) : tokAt (.lit c) x [] = none := rfl

theorem takeWhile_fix (w n : Nat) (s : Str) (hs : s.head?.all (fun c => !c.isDigit) = true) :
    (fix w n ++ s).takeWhile Char.isDigit = fix w n ∧ (fix w n ++ s).dropWhile Char.isDigit = s := by
  rw [List.takeWhile_append_of_pos (fix_digits w n), List.dropWhile_append_of_pos (fix_digits w n)]
  cases s with
  | nil => simp
  | cons c s => simp at hs; simp [hs]

theorem readSub_fix (n : Nat) (s : Str) (h : n < 1000000) (hs : s.head?.all (fun c => !c.isDigit) = true) :
    readSub (fix 6 n ++ s) = some (n, s) := by
  obtain ⟨h1, h2⟩ := takeWhile_fix 6 n s hs
  have h3 : fix 6 n ≠ [] := by intro e; have := fix_length 6 n; rw [e] at this; simp at this
  simp only [readSub, h1, h2, h3, if_false]
  rw [num_fix 6 n _ 0 h]
  simp

theorem tok_sub (x : Fields) (w n : Nat) (s : Str) (h : n < 1000000) (hs : s.head?.all (fun c => !c.isDigit) = true) :
    tokAt (.sub w) x (fix 6 n ++ s) = some ({ x with clock := { x.clock with us := n } }, s) := by
  simp [tokAt, readSub_fix n s h hs]

theorem readZone_show (z : Int) (h : z.natAbs < 6000) : readZone (showZone z) = some (z, []) := by
  have e : fix 2 (z.natAbs % 60) = fix 2 (z.natAbs % 60) ++ [] := by simp
  have h1 : z.natAbs / 60 < 100 := by omega
  have h2 : z.natAbs % 60 < 100 := by omega
  have key : ∀ sign : Int, (match num 2 (fix 2 (z.natAbs / 60) ++ ':' :: (fix 2 (z.natAbs % 60) ++ [])) 0 with
      | none => none
      | some (h, ':' :: r') => match num 2 r' 0 with
        | some (m, r'') => some (sign * (60 * h + m : Nat), r'')
        | none => some (sign * (60 * h : Nat), ':' :: r')
      | some (h, r') => some (sign * (60 * h : Nat), r')) = some (sign * (z.natAbs : Int), ([] : Str)) := by
    intro sign
    rw [num2 _ _ h1]
    simp only
    rw [num2 _ _ h2]
    simp only [Option.some.injEq, Prod.mk.injEq, and_true]
    rw [Nat.div_add_mod]
  unfold showZone
  by_cases hz : z < 0
  · simp only [hz, if_true]
    rw [e]
    have := key (-1)
    simp only [readZone]
    refine (Eq.trans ?_ this).trans ?_
    · rfl
    · simp; omega
  · simp only [hz, if_false]
    rw [e]
    have := key 1
    simp only [readZone]
    refine (Eq.trans ?_ this).trans ?_
    · rfl
    · simp; omega

theorem tok_zone (x : Fields) (z : Int) (h : z.natAbs < 6000) :
    tokAt .zone x (showZone z) = some ({ x with clock := { x.clock with tz := some z } }, []) := by
  simp [tokAt, readZone_show z h]

theorem showZone_cons (z : Int) : ∃ s r, showZone z = s :: r ∧ (s = '-' ∨ s = '+') := by
  unfold showZone
  by_cases hz : z < 0
  · exact ⟨_, _, rfl, by simp [hz]⟩
  · exact ⟨_, _, rfl, by simp [hz]⟩

/-! ### Formats -/

theorem hms_at (c : Clock) (hc : c.valid = true) (g : Fmt) (x : Fields) (r : Str) :
    fmtAt (hms ++ g) x (showHms c ++ r)
      = fmtAt g { x with clock := { x.clock with h := c.h, mi := c.mi, s := c.s } } r := by
  simp only [Clock.valid, Bool.and_eq_true, decide_eq_true_eq] at hc
  have e : showHms c ++ r = fix 2 c.h ++ ':' :: (fix 2 c.mi ++ ':' :: (fix 2 c.s ++ r)) := by simp [showHms]
  rw [e]
  simp only [hms, List.cons_append, List.nil_append, fmtAt]
  rw [tok_hour _ _ _ (by omega)]
  simp only [tok_lit]
  rw [tok_minute _ _ _ (by omega)]
  simp only [tok_lit]
  rw [tok_second _ _ _ (by omega)]

theorem hm_at (c : Clock) (hc : c.valid = true) (g : Fmt) (x : Fields) (r : Str) :
    fmtAt ([.hour, .lit ':', .minute] ++ g) x (showHms c ++ r)
      = fmtAt g { x with clock := { x.clock with h := c.h, mi := c.mi } } (':' :: (fix 2 c.s ++ r)) := by
  simp only [Clock.valid, Bool.and_eq_true, decide_eq_true_eq] at hc
  have e : showHms c ++ r = fix 2 c.h ++ ':' :: (fix 2 c.mi ++ ':' :: (fix 2 c.s ++ r)) := by simp [showHms]
  rw [e]
  simp only [List.cons_append, List.nil_append, fmtAt]
  rw [tok_hour _ _ _ (by omega)]
  simp only [tok_lit]
  rw [tok_minute _ _ _ (by omega)]

/-- The clock a match of hours, minutes and seconds starts from. -/
def hmsFields (c : Clock) : Fields := { clock := { midnight with h := c.h, mi := c.mi, s := c.s } }

theorem here_hms (c : Clock) (hc : c.valid = true) (g : Fmt) (r : Str) :
    here (hms ++ g) (showHms c ++ r) = match fmtAt g (hmsFields c) r with
      | some (x, r) => if bounded r then some x else none
      | none => none := by
  unfold here
  rw [hms_at c hc]
  rfl

theorem get_skip (f : Fmt) (fs : List Fmt) (s : Str) (h : search f true s = none) : get (f :: fs) s = get fs s := by
  simp [get, h]

theorem get_hit (f : Fmt) (fs : List Fmt) (s : Str) (x : Fields) (h : search f true s = some x) (hp : x.pm = none)
    (hv : x.date.valid = true) (hc : x.clock.valid = true) : get (f :: fs) s = .ok (x.date, x.clock) := by
  have : ({ x.clock with h := hour24 x } : Clock) = x.clock := by simp [hour24, hp]
  simp [get, h, this, hv, hc]

theorem dayOne_valid : dayOne.valid = true := by decide

theorem midnight_valid : midnight.valid = true := by decide

/-- A time without zone and microseconds is read. -/
theorem get_hms (c : Clock) (hc : c.valid = true) (hu : c.us = 0) (hz : c.tz = none) :
    get timeFormats (showHms c) = .ok (dayOne, c) := by
  have hw := word_hms c
  have e : showHms c = showHms c ++ [] := by simp
  have h0 : ∀ (y : Char) (g : Fmt), search (hms ++ .lit y :: g) true (showHms c) = none := by
    intro y g
    rw [search_word _ _ hw, e, here_hms c hc]; simp [fmtAt, tok_lit_nil]
  have h1 : search (hms ++ [.zone]) true (showHms c) = none := by
    rw [search_word _ _ hw, e, here_hms c hc]; simp [fmtAt, tokAt, readZone, num]
  have h2 : search hms true (showHms c) = some (hmsFields c) := by
    rw [search_word _ _ hw, e, ← List.append_nil hms, here_hms c hc]; simp [fmtAt, bounded]
  unfold timeFormats
  rw [get_skip _ _ _ (h0 _ _), get_skip _ _ _ (h0 _ _), get_skip _ _ _ (h0 _ _), get_skip _ _ _ (h0 _ _),
    get_skip _ _ _ h1, get_skip _ _ _ (h0 _ _)]
  have e2 : (hmsFields c).clock = c := by
    cases c; simp_all [hmsFields, midnight]
  rw [get_hit _ _ _ _ h2 rfl dayOne_valid (by rw [e2]; exact hc), e2]
  rfl

/-- A time without zone, with microseconds, is read. -/
theorem get_micro (c : Clock) (hc : c.valid = true) (hz : c.tz = none) :
    get timeFormats (showHms c ++ '.' :: fix 6 c.us) = .ok (dayOne, c) := by
  have hw : Word (showHms c ++ '.' :: fix 6 c.us) := word_append (word_hms c) (word_cons (by decide) (word_fix _ _))
  have hus : c.us < 1000000 := by simp only [Clock.valid, Bool.and_eq_true, decide_eq_true_eq] at hc; exact hc.2
  have e : fix 6 c.us = fix 6 c.us ++ [] := by simp
  have h1 : search (hms ++ [.lit '.', .sub 6, .lit ' ', .zone]) true (showHms c ++ '.' :: fix 6 c.us) = none := by
    rw [search_word _ _ hw, here_hms c hc]
    simp only [fmtAt, tok_lit]
    rw [e, tok_sub _ _ _ _ hus rfl]
    simp [tok_lit_nil]
  have h2 : search (hms ++ [.lit '.', .sub 6]) true (showHms c ++ '.' :: fix 6 c.us)
      = some { hmsFields c with clock := { (hmsFields c).clock with us := c.us } } := by
    rw [search_word _ _ hw, here_hms c hc]
    simp only [fmtAt, tok_lit]
    rw [e, tok_sub _ _ _ _ hus rfl]
    simp [bounded]
  unfold timeFormats
  have e2 : ({ (hmsFields c).clock with us := c.us } : Clock) = c := by
    cases c; cases hz; rfl
  rw [get_skip _ _ _ h1, get_hit _ _ _ _ h2 rfl dayOne_valid (by rw [e2]; exact hc), e2]
  rfl

/-- A time with a zone and without microseconds is read. -/
theorem get_zone (c : Clock) (z : Int) (hc : c.valid = true) (hu : c.us = 0) (hz : c.tz = some z)
    (hb : z.natAbs < 6000) : get timeFormats (showHms c ++ showZone z) = .ok (dayOne, c) := by
  have hw : Word (showHms c ++ showZone z) := word_append (word_hms c) (word_zone z)
  obtain ⟨sg, r, ez, hs⟩ := showZone_cons z
  have h0 : ∀ g : Fmt, search (hms ++ .lit '.' :: g) true (showHms c ++ showZone z) = none := by
    intro g
    rw [search_word _ _ hw, here_hms c hc, ez]
    simp only [fmtAt]
    rw [tok_lit_ne _ _ _ _ (by rcases hs with rfl | rfl <;> decide)]
  have h1 : search (hms ++ [.zone]) true (showHms c ++ showZone z)
      = some { hmsFields c with clock := { (hmsFields c).clock with tz := some z } } := by
    rw [search_word _ _ hw, here_hms c hc]
    simp only [fmtAt]
    rw [tok_zone _ _ hb]
    simp [bounded]
  unfold timeFormats
  have e2 : ({ (hmsFields c).clock with tz := some z } : Clock) = c := by
    cases c; simp_all [hmsFields, midnight]
  rw [get_skip _ _ _ (h0 _), get_skip _ _ _ (h0 _), get_skip _ _ _ (h0 _), get_skip _ _ _ (h0 _),
    get_hit _ _ _ _ h1 rfl dayOne_valid (by rw [e2]; exact hc), e2]
  rfl

/-- A time with a zone and microseconds is not read. -/
theorem get_micro_zone (c : Clock) (z : Int) (hc : c.valid = true) :
    get timeFormats (showHms c ++ '.' :: fix 6 c.us ++ showZone z) = .error .valueError := by
  have hw : Word (showHms c ++ '.' :: fix 6 c.us ++ showZone z) :=
    word_append (word_append (word_hms c) (word_cons (by decide) (word_fix _ _))) (word_zone z)
  have hus : c.us < 1000000 := by simp only [Clock.valid, Bool.and_eq_true, decide_eq_true_eq] at hc; exact hc.2
  obtain ⟨sg, r, ez, hs⟩ := showZone_cons z
  have e : showHms c ++ '.' :: fix 6 c.us ++ showZone z = showHms c ++ '.' :: (fix 6 c.us ++ showZone z) := by simp
  have hd : (showZone z).head?.all (fun c => !c.isDigit) = true := by
    rw [ez]; rcases hs with rfl | rfl <;> rfl
  have hsp : ∀ y, isSpace y = true → sg ≠ y := by
    intro y hy; rcases hs with rfl | rfl <;> (rintro rfl; revert hy; decide)
  have h1 : ∀ w, search (hms ++ [.lit '.', .sub w, .lit ' ', .zone]) true
      (showHms c ++ '.' :: fix 6 c.us ++ showZone z) = none := by
    intro w
    rw [search_word _ _ hw, e, here_hms c hc]
    simp only [fmtAt, tok_lit]
    rw [tok_sub _ _ _ _ hus hd]
    simp only [ez]
    rw [tok_lit_ne _ _ _ _ (hsp ' ' (by decide))]
  have h2 : ∀ w, search (hms ++ [.lit '.', .sub w]) true (showHms c ++ '.' :: fix 6 c.us ++ showZone z) = none := by
    intro w
    rw [search_word _ _ hw, e, here_hms c hc]
    simp only [fmtAt, tok_lit]
    rw [tok_sub _ _ _ _ hus hd]
    simp only [ez, bounded]
    rw [show isSpace sg = false by rcases hs with rfl | rfl <;> decide]
    rfl
  have h3 : search (hms ++ [.zone]) true (showHms c ++ '.' :: fix 6 c.us ++ showZone z) = none := by
    rw [search_word _ _ hw, e, here_hms c hc]
    simp only [fmtAt, tokAt, readZone, num]
    rfl
  have h4 : ∀ g : Fmt, search (hms ++ .lit ' ' :: g) true (showHms c ++ '.' :: fix 6 c.us ++ showZone z) = none := by
    intro g
    rw [search_word _ _ hw, e, here_hms c hc]
    simp only [fmtAt]
    rw [tok_lit_ne _ _ _ _ (by decide)]
  have h5 : search hms true (showHms c ++ '.' :: fix 6 c.us ++ showZone z) = none := by
    rw [search_word _ _ hw, e, ← List.append_nil hms, here_hms c hc]
    simp only [fmtAt, bounded]
    rfl
  have h6 : search [.hour, .lit ':', .minute] true (showHms c ++ '.' :: fix 6 c.us ++ showZone z) = none := by
    rw [search_word _ _ hw, e, here, ← List.append_nil [FTok.hour, .lit ':', .minute], hm_at c hc]
    simp only [fmtAt, bounded]
    rfl
  have h7 : search [.hour, .lit ':', .minute, .lit ' ', .half] true
      (showHms c ++ '.' :: fix 6 c.us ++ showZone z) = none := by
    rw [search_word _ _ hw, e, here,
      show [FTok.hour, .lit ':', .minute, .lit ' ', .half] = [.hour, .lit ':', .minute] ++ [.lit ' ', .half] from rfl,
      hm_at c hc]
    simp only [fmtAt]
    rw [tok_lit_ne _ _ _ _ (by decide)]
  unfold timeFormats
  rw [get_skip _ _ _ (h1 6), get_skip _ _ _ (h2 6), get_skip _ _ _ (h1 3), get_skip _ _ _ (h2 3), get_skip _ _ _ h3,
    get_skip _ _ _ (h4 _), get_skip _ _ _ h5, get_skip _ _ _ h6, get_skip _ _ _ (h4 _), get_skip _ _ _ h7]
  rfl

/-! ### Dates -/

theorem date_at (d : Date) (hd : d.valid = true) (g : Fmt) (x : Fields) (r : Str) :
    fmtAt ([.year, .lit '-', .month, .lit '-', .day] ++ g) x (isoDate d ++ r) = fmtAt g { x with date := d } r := by
  simp only [Date.valid, Bool.and_eq_true, decide_eq_true_eq] at hd
  have hm : daysIn d.y d.m ≤ 31 := by unfold daysIn; split <;> (try split) <;> omega
  have e : isoDate d ++ r = fix 4 d.y ++ '-' :: (fix 2 d.m ++ '-' :: (fix 2 d.d ++ r)) := by simp [isoDate]
  rw [e]
  simp only [List.cons_append, List.nil_append, fmtAt]
  rw [tok_year _ _ _ (by omega)]
  simp only [tok_lit]
  rw [tok_month _ _ _ (by omega)]
  simp only [tok_lit]
  rw [tok_day _ _ _ (by omega)]

/-- A date at the start of the text, before the end or a white space, is read. -/
theorem get_date (d : Date) (hd : d.valid = true) (fs : List Fmt) (r : Str) (hr : bounded r = true) :
    get (dateFormats ++ fs) (isoDate d ++ r) = .ok (d, midnight) := by
  have h : search [.year, .lit '-', .month, .lit '-', .day] true (isoDate d ++ r) = some { date := d } := by
    refine search_here _ _ _ ?_
    rw [here, ← List.append_nil [FTok.year, .lit '-', .month, .lit '-', .day], date_at d hd]
    simp [fmtAt, hr]
  unfold dateFormats
  rw [List.cons_append, get_hit _ _ _ _ h rfl hd midnight_valid]

/-- A format that reads two digits and another sign does not match a date. -/
theorem here_two (t : FTok) (ht : t = .day ∨ t = .month ∨ t = .hour) (y : Char) (hy : y.isDigit = false) (g : Fmt)
    (d : Date) (r : Str) : here (t :: .lit y :: g) (isoDate d ++ r) = none := by
  have e : isoDate d ++ r = digit (d.y / 10 / 10 / 10) :: digit (d.y / 10 / 10) :: digit (d.y / 10) :: digit d.y
      :: '-' :: (fix 2 d.m ++ '-' :: (fix 2 d.d ++ r)) := by
    simp [isoDate, fix4_eq]
  rw [e]
  have hn : ∀ s, num 2 (digit (d.y / 10 / 10 / 10) :: digit (d.y / 10 / 10) :: s) 0
      = some (10 * (d.y / 10 / 10 / 10 % 10) + d.y / 10 / 10 % 10, s) := by
    intro s
    simp [num, digit_isDigit, digit_val]
  rcases ht with rfl | rfl | rfl <;>
    simp only [here, fmtAt, tokAt, hn, Option.map_some] <;> simp [digit_ne _ _ hy]

/-- A date followed by the letter T and a word is not read as a date. -/
theorem get_iso (d : Date) (hd : d.valid = true) (w : Str) (hw : Word w) :
    get (dateFormats ++ altDateFormats) (isoDate d ++ 'T' :: w) = .error .valueError := by
  have hw' : Word (isoDate d ++ 'T' :: w) := word_append (word_isoDate d) (word_cons (by decide) hw)
  have hm : d.y < 10000 ∧ d.m < 100 := by
    simp only [Date.valid, Bool.and_eq_true, decide_eq_true_eq] at hd; omega
  have e : ∀ r, isoDate d ++ r = fix 4 d.y ++ '-' :: (fix 2 d.m ++ '-' :: (fix 2 d.d ++ r)) := by simp [isoDate]
  have h1 : search [.year, .lit '-', .month, .lit '-', .day] true (isoDate d ++ 'T' :: w) = none := by
    rw [search_word _ _ hw', here, ← List.append_nil [FTok.year, .lit '-', .month, .lit '-', .day], date_at d hd]
    rfl
  have h2 : ∀ y, y ≠ '-' → ∀ g, search (.year :: .lit y :: g) true (isoDate d ++ 'T' :: w) = none := by
    intro y hy g
    rw [search_word _ _ hw', here, e]
    simp only [fmtAt]
    rw [tok_year _ _ _ hm.1]
    simp only
    rw [tok_lit_ne _ _ _ _ (Ne.symm hy)]
  have h3 : search [.year, .lit '-', .month] true (isoDate d ++ 'T' :: w) = none := by
    rw [search_word _ _ hw', here, e]
    simp only [fmtAt]
    rw [tok_year _ _ _ hm.1]
    simp only [tok_lit]
    rw [tok_month _ _ _ hm.2]
    rfl
  have h4 : ∀ t, (t = .day ∨ t = .month ∨ t = .hour) → ∀ y : Char, y.isDigit = false → ∀ g,
      search (t :: .lit y :: g) true (isoDate d ++ 'T' :: w) = none := by
    intro t ht y hy g
    rw [search_word _ _ hw', here_two t ht y hy]
  unfold dateFormats altDateFormats
  simp only [List.cons_append, List.nil_append]
  rw [get_skip _ _ _ h1, get_skip _ _ _ (h2 _ (by decide) _), get_skip _ _ _ (h2 _ (by decide) _), get_skip _ _ _ h3,
    get_skip _ _ _ (h2 _ (by decide) _), get_skip _ _ _ (h2 _ (by decide) _),
    get_skip _ _ _ (h4 _ (by simp) _ (by decide) _), get_skip _ _ _ (h4 _ (by simp) _ (by decide) _),
    get_skip _ _ _ (h4 _ (by simp) _ (by decide) _), get_skip _ _ _ (h4 _ (by simp) _ (by decide) _),
    get_skip _ _ _ (h4 _ (by simp) _ (by decide) _), get_skip _ _ _ (h4 _ (by simp) _ (by decide) _)]
  rfl

/-- The formats of times start with an hour and a colon. -/
theorem timeFormats_head : ∀ f ∈ timeFormats, ∃ g, f = .hour :: .lit ':' :: g := by
  intro f hf
  simp only [timeFormats, hms, List.mem_cons, List.not_mem_nil, or_false] at hf
  rcases hf with rfl | rfl | rfl | rfl | rfl | rfl | rfl | rfl | rfl | rfl <;> exact ⟨_, rfl⟩

theorem get_congr (fs : List Fmt) (s t : Str) (h : ∀ f ∈ fs, search f true s = search f true t) :
    get fs s = get fs t := by
  induction fs with
  | nil => rfl
  | cons f fs ih =>
    simp only [get, h f (by simp), ih fun g hg => h g (by simp [hg])]

/-- The time after a date is read by itself. -/
theorem get_time_after (d : Date) (t : Str) : get timeFormats (isoDate d ++ ' ' :: t) = get timeFormats t := by
  refine get_congr _ _ _ fun f hf => ?_
  obtain ⟨g, rfl⟩ := timeFormats_head f hf
  refine search_next _ _ _ (word_isoDate d) ?_ (here_two _ (by simp) ':' (by decide) g d _)
  simp [isoDate, fix4_eq]

end Verif.Temporal
