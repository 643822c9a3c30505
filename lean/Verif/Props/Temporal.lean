import Verif.Spec.Temporal
import Verif.Lemmas.Temporal
/-
C167-C172: dates, times and datetimes.
-/
namespace Verif.Temporal
open Spec

/-- An environment for the examples. -/
def demo : Env := { conv := id, nowDate := ⟨2024, 2, 29⟩, nowClock := ⟨10, 20, 30, 5, none⟩ }

theorem demo_plain : Plain demo.conv := fun _ _ => rfl

/-- A character of the texts that are written. -/
def isoChar (c : Char) : Prop := c.isDigit = true ∨ c = '-' ∨ c = ':' ∨ c = '.' ∨ c = '+' ∨ c = 'T' ∨ c = ' ' ∨ c = 'Z'

theorem isoChar_plain (c : Char) (h : isoChar c) : c ≠ '`' ∧ c ≠ '{' := by
  constructor <;> (rintro rfl; revert h; unfold isoChar; decide)

theorem isoChar_fix (w n : Nat) : ∀ c ∈ fix w n, isoChar c := fun c hc => .inl (fix_digits w n c hc)

theorem isoChar_date (d : Date) : ∀ c ∈ isoDate d, isoChar c := by
  intro c hc
  simp only [isoDate, List.mem_append, List.mem_cons] at hc
  rcases hc with (hc | rfl | hc) | rfl | hc
  · exact isoChar_fix _ _ c hc
  · simp [isoChar]
  · exact isoChar_fix _ _ c hc
  · simp [isoChar]
  · exact isoChar_fix _ _ c hc

theorem isoChar_hms (x : Clock) : ∀ c ∈ showHms x, isoChar c := by
  intro c hc
  simp only [showHms, List.mem_append, List.mem_cons] at hc
  rcases hc with (hc | rfl | hc) | rfl | hc
  · exact isoChar_fix _ _ c hc
  · simp [isoChar]
  · exact isoChar_fix _ _ c hc
  · simp [isoChar]
  · exact isoChar_fix _ _ c hc

theorem isoChar_zone (z : Int) : ∀ c ∈ showZone z, isoChar c := by
  intro c hc
  simp only [showZone, List.mem_append, List.mem_cons] at hc
  rcases hc with (rfl | hc) | rfl | hc
  · split <;> simp [isoChar]
  · exact isoChar_fix _ _ c hc
  · simp [isoChar]
  · exact isoChar_fix _ _ c hc

theorem isoChar_clock (x : Clock) : ∀ c ∈ isoClock x, isoChar c := by
  intro c hc
  simp only [isoClock, List.mem_append] at hc
  rcases hc with (hc | hc) | hc
  · exact isoChar_hms x c hc
  · split at hc
    · simp at hc
    · rcases List.mem_cons.1 hc with rfl | hc
      · simp [isoChar]
      · exact isoChar_fix _ _ c hc
  · split at hc
    · simp at hc
    · exact isoChar_zone _ c hc

/-- Texts of these characters are read as they are, and do not name the present. -/
theorem conv_iso {conv : Str → Str} (hp : Plain conv) (s : Str) (h : ∀ c ∈ s, isoChar c) :
    conv s = s ∧ s ≠ "now".toList ∧ s ≠ "today".toList := by
  refine ⟨hp s fun c hc => isoChar_plain c (h c hc), ?_, ?_⟩
  · rintro rfl
    have := h 'n' (by decide)
    revert this; unfold isoChar; decide
  · rintro rfl
    have := h 't' (by decide)
    revert this; unfold isoChar; decide

/-! ### C167: a date survives writing and reading -/

theorem C167_date_partial (env : Env) (hp : Plain env.conv) (strftime : Str → TVal → Str) (d : Date) (hd : d.valid = true) :
    Survives (serialize strftime none) (dateConvert env) (.date d) := by
  refine ⟨_, rfl, ?_⟩
  obtain ⟨h1, h2, h3⟩ := conv_iso hp (isoDate d) (isoChar_date d)
  have := get_date d hd [] [] rfl
  rw [List.append_nil, List.append_nil] at this
  simp only [dateConvert, h1, h2, h3, this, or_self, if_false]
  rfl

example : (⟨2024, 2, 29⟩ : Date).valid = true ∧ serialize (fun _ _ => []) none (.date ⟨2024, 2, 29⟩)
    = .ok (.str "2024-02-29".toList)
    ∧ dateConvert demo (.str "2024-02-29".toList) = .ok (.date ⟨2024, 2, 29⟩) := by decide +kernel

/-- With a format of arrow a date cannot be written; None cannot with any format. -/
theorem C167_format_violated (strftime : Str → TVal → Str) (f : Fmt) (g : SFmt) (d : Date) :
    serialize strftime (some (.arrow f)) (.date d) = .error .attributeError
    ∧ serialize strftime (some g) .none = .error .attributeError := by
  refine ⟨rfl, ?_⟩
  cases g <;> rfl

example : serialize (fun _ _ => []) (some (.arrow [.year, .lit '-', .month, .lit '-', .day])) (.date ⟨2024, 2, 29⟩)
    = .error .attributeError := by decide +kernel

/-! ### C168: a time survives writing and reading -/

/-- Without a zone. -/
theorem C168_time_partial (env : Env) (hp : Plain env.conv) (strftime : Str → TVal → Str) (c : Clock)
    (hc : c.valid = true) (hz : c.tz = none) : Survives (serialize strftime none) (timeConvert env) (.time c) := by
  refine ⟨_, rfl, ?_⟩
  obtain ⟨h1, h2, h3⟩ := conv_iso hp (isoClock c) (isoChar_clock c)
  have : get timeFormats (isoClock c) = .ok (dayOne, c) := by
    by_cases hu : c.us = 0
    · simpa [isoClock, hz, hu] using get_hms c hc hu hz
    · simpa [isoClock, hz, hu] using get_micro c hc hz
  have e : ({ c with tz := none } : Clock) = c := by rw [← hz]
  simp only [timeConvert, h1, h2, h3, this, or_self, if_false, if_true, e]

example : serialize (fun _ _ => []) none (.time ⟨11, 5, 9, 42, none⟩) = .ok (.str "11:05:09.000042".toList)
    ∧ timeConvert demo (.str "11:05:09.000042".toList) = .ok (.time ⟨11, 5, 9, 42, none⟩) := by decide +kernel

/-- A zone is lost. -/
theorem C168_zone_violated (env : Env) (hp : Plain env.conv) (strftime : Str → TVal → Str) (c : Clock) (z : Int)
    (hc : c.valid = true) (hz : c.tz = some z) (hb : Zone z) (hu : c.us = 0) :
    ∃ w, serialize strftime none (.time c) = .ok w ∧ timeConvert env w = .ok (.time { c with tz := none })
      ∧ TVal.time { c with tz := none } ≠ .time c := by
  refine ⟨_, rfl, ?_, ?_⟩
  · obtain ⟨h1, h2, h3⟩ := conv_iso hp (isoClock c) (isoChar_clock c)
    have : get timeFormats (isoClock c) = .ok (dayOne, c) := by
      have := get_zone c z hc hu hz (by unfold Zone at hb; omega)
      simpa [isoClock, hz, hu] using this
    simp only [timeConvert, h1, h2, h3, this, or_self, if_false, if_true]
  · intro h
    have := congrArg (fun v => match v with | TVal.time c => c.tz | _ => none) h
    simp only [hz] at this
    simp at this

example : (⟨11, 5, 9, 0, some 120⟩ : Clock).valid = true ∧ Zone 120
    ∧ serialize (fun _ _ => []) none (.time ⟨11, 5, 9, 0, some 120⟩) = .ok (.str "11:05:09+02:00".toList)
    ∧ timeConvert demo (.str "11:05:09+02:00".toList) = .ok (.time ⟨11, 5, 9, 0, none⟩) := by
  refine ⟨by decide, by unfold Zone; omega, by decide +kernel, by decide +kernel⟩

/-- With a zone and microseconds, what is written cannot be read. -/
theorem C168_micro_violated (env : Env) (hp : Plain env.conv) (strftime : Str → TVal → Str) (c : Clock) (z : Int)
    (hc : c.valid = true) (hz : c.tz = some z) (hu : c.us ≠ 0) :
    ∃ w, serialize strftime none (.time c) = .ok w ∧ timeConvert env w = .error .indexError := by
  refine ⟨_, rfl, ?_⟩
  obtain ⟨h1, h2, h3⟩ := conv_iso hp (isoClock c) (isoChar_clock c)
  have : get timeFormats (isoClock c) = .error .valueError := by
    have := get_micro_zone c z hc
    simpa [isoClock, hz, hu] using this
  simp only [timeConvert, h1, h2, h3, this, or_self, if_false]

example : serialize (fun _ _ => []) none (.time ⟨11, 5, 9, 7, some (-90)⟩) = .ok (.str "11:05:09.000007-01:30".toList)
    ∧ timeConvert demo (.str "11:05:09.000007-01:30".toList) = .error .indexError := by decide +kernel

/-- Seconds and `Z`, which stands for UTC, are read as the time. -/
theorem get_utc (c : Clock) (hc : c.valid = true) (hu : c.us = 0) (hz : c.tz = some 0) :
    get timeFormats (showHms c ++ ['Z']) = .ok (dayOne, c) := by
  have hw : Word (showHms c ++ ['Z']) := word_append (word_hms c) (word_cons (by decide) word_nil)
  have h0 : ∀ g : Fmt, search (hms ++ .lit '.' :: g) true (showHms c ++ ['Z']) = none := by
    intro g
    rw [search_word _ _ hw, here_hms c hc]
    simp only [fmtAt]
    rw [tok_lit_ne _ _ _ _ (by decide)]
  have h1 : search (hms ++ [.zone]) true (showHms c ++ ['Z'])
      = some { hmsFields c with clock := { (hmsFields c).clock with tz := some 0 } } := by
    rw [search_word _ _ hw, here_hms c hc]
    simp [fmtAt, tokAt, readZone, bounded]
  unfold timeFormats
  have e2 : ({ (hmsFields c).clock with tz := some 0 } : Clock) = c := by
    cases c; simp_all [hmsFields, midnight]
  rw [get_skip _ _ _ (h0 _), get_skip _ _ _ (h0 _), get_skip _ _ _ (h0 _), get_skip _ _ _ (h0 _),
    get_hit _ _ _ _ h1 rfl dayOne_valid (by rw [e2]; exact hc), e2]
  rfl

theorem isoChar_utc (c : Clock) : ∀ x ∈ showHms c ++ ['Z'], isoChar x := by
  intro x hx
  rcases List.mem_append.1 hx with hx | hx
  · exact isoChar_hms c x hx
  · rw [List.mem_singleton.1 hx]; simp [isoChar]

/-- A time that is written by others, with `Z` for UTC, is read as this time, up to the second. -/
theorem C168_utc_partial (env : Env) (hp : Plain env.conv) (c : Clock) (hc : c.valid = true) (hu : c.us = 0)
    (hz : c.tz = none) : timeConvert env (.str (isoClock c ++ ['Z'])) = .ok (.time c) := by
  have e : isoClock c ++ ['Z'] = showHms { c with tz := some 0 } ++ ['Z'] := by simp [isoClock, hz, hu, showHms]
  rw [e]
  obtain ⟨h1, h2, h3⟩ := conv_iso hp _ (isoChar_utc { c with tz := some 0 })
  have := get_utc { c with tz := some 0 } hc hu rfl
  have e' : ({ c with tz := none } : Clock) = c := by rw [← hz]
  simp only [timeConvert, h1, h2, h3, this, or_self, if_false, if_true, e']

example : timeConvert demo (.str "11:05:09Z".toList) = .ok (.time ⟨11, 5, 9, 0, none⟩) := by decide +kernel

/-! ### C169: a datetime survives writing and reading -/

/-- `YYYY-MM-DD HH:mm:ss`. -/
def spaced : Fmt := [.year, .lit '-', .month, .lit '-', .day, .lit ' ', .hour, .lit ':', .minute, .lit ':', .second]

/-- settings.py 152, `YYYY-MM-DD HH:mm:ssZZ`. -/
def atom : Fmt := spaced ++ [.zone]

theorem spaced_show (d : Date) (c : Clock) : spaced.flatMap (showTok d c) = isoDate d ++ ' ' :: showHms c := by
  simp [spaced, showTok, isoDate, showHms]

theorem atom_show (d : Date) (c : Clock) :
    atom.flatMap (showTok d c) = isoDate d ++ ' ' :: (showHms c ++ showZone (c.tz.getD 0)) := by
  unfold atom
  rw [List.flatMap_append, spaced_show]
  simp [showTok]

/-- What is read from a date, a space and a time. -/
theorem datetime_spaced (env : Env) (hp : Plain env.conv) (d : Date) (hd : d.valid = true) (t : Str) (c : Clock)
    (ht : ∀ x ∈ t, isoChar x) (h : get timeFormats t = .ok (dayOne, c)) :
    datetimeConvert env (.str (isoDate d ++ ' ' :: t)) = .ok (.arrow d { c with tz := some 0 }) := by
  obtain ⟨h1, h2, h3⟩ := conv_iso hp (isoDate d ++ ' ' :: t) (by
    intro x hx
    rcases List.mem_append.1 hx with hx | hx
    · exact isoChar_date d x hx
    · rcases List.mem_cons.1 hx with rfl | hx
      · simp [isoChar]
      · exact ht x hx)
  simp only [datetimeConvert, h1, h2, h3, if_false, get_date d hd altDateFormats (' ' :: t) rfl, get_time_after, h]
  rfl

/-- In UTC, written with a space between date and time, up to the second. -/
theorem C169_spaced_partial (env : Env) (hp : Plain env.conv) (strftime : Str → TVal → Str) (d : Date) (c : Clock)
    (hd : d.valid = true) (hc : c.valid = true) (hu : c.us = 0) (hz : c.tz = some 0) :
    Survives (serialize strftime (some (.arrow spaced))) (datetimeConvert env) (.arrow d c) := by
  refine ⟨_, rfl, ?_⟩
  rw [spaced_show]
  have := get_hms { c with tz := none } hc hu rfl
  rw [show showHms c = showHms { c with tz := none } from rfl, datetime_spaced env hp d hd _ _ (isoChar_hms _) this]
  cases c; cases hz; rfl

example : serialize (fun _ _ => []) (some (.arrow spaced)) (.arrow ⟨2018, 5, 26⟩ ⟨11, 12, 13, 0, some 0⟩)
      = .ok (.str "2018-05-26 11:12:13".toList)
    ∧ datetimeConvert demo (.str "2018-05-26 11:12:13".toList)
      = .ok (.arrow ⟨2018, 5, 26⟩ ⟨11, 12, 13, 0, some 0⟩) := by decide +kernel

/-- Likewise with the microseconds, written in six digits. -/
theorem C169_micro_partial (env : Env) (hp : Plain env.conv) (strftime : Str → TVal → Str) (d : Date) (c : Clock)
    (hd : d.valid = true) (hc : c.valid = true) (hz : c.tz = some 0) :
    Survives (serialize strftime (some (.arrow (spaced ++ [.lit '.', .sub 6])))) (datetimeConvert env) (.arrow d c) := by
  refine ⟨_, rfl, ?_⟩
  have e : (spaced ++ [FTok.lit '.', FTok.sub 6]).flatMap (showTok d c)
      = isoDate d ++ ' ' :: (showHms { c with tz := none } ++ '.' :: fix 6 c.us) := by
    rw [List.flatMap_append, spaced_show]
    have : (fix 6 c.us).take 6 = fix 6 c.us := List.take_of_length_le (by rw [fix_length]; exact Nat.le_refl _)
    simp [showTok, this, showHms]
  rw [e, datetime_spaced env hp d hd _ _ ?_ (get_micro { c with tz := none } hc rfl)]
  · cases c; cases hz; rfl
  · intro x hx
    rcases List.mem_append.1 hx with hx | hx
    · exact isoChar_hms _ x hx
    · rcases List.mem_cons.1 hx with rfl | hx
      · simp [isoChar]
      · exact isoChar_fix _ _ x hx

example : serialize (fun _ _ => []) (some (.arrow (spaced ++ [.lit '.', .sub 6])))
      (.arrow ⟨2018, 5, 26⟩ ⟨11, 12, 13, 70, some 0⟩) = .ok (.str "2018-05-26 11:12:13.000070".toList)
    ∧ datetimeConvert demo (.str "2018-05-26 11:12:13.000070".toList)
      = .ok (.arrow ⟨2018, 5, 26⟩ ⟨11, 12, 13, 70, some 0⟩) := by decide +kernel

/-- A moment that is written by others, with a space and `Z` for UTC, is read as this moment, up to the second. -/
theorem C169_utc_partial (env : Env) (hp : Plain env.conv) (d : Date) (c : Clock) (hd : d.valid = true)
    (hc : c.valid = true) (hu : c.us = 0) (hz : c.tz = none) :
    datetimeConvert env (.str (isoDate d ++ ' ' :: (isoClock c ++ ['Z']))) = .ok (.arrow d { c with tz := some 0 }) := by
  have e : isoClock c ++ ['Z'] = showHms { c with tz := some 0 } ++ ['Z'] := by simp [isoClock, hz, hu, showHms]
  rw [e, datetime_spaced env hp d hd _ _ (isoChar_utc _) (get_utc { c with tz := some 0 } hc hu rfl)]

example : datetimeConvert demo (.str "2018-05-26 11:12:13Z".toList)
    = .ok (.arrow ⟨2018, 5, 26⟩ ⟨11, 12, 13, 0, some 0⟩) := by decide +kernel

/-- By default, what is written cannot be read. -/
theorem C169_default_violated (env : Env) (hp : Plain env.conv) (strftime : Str → TVal → Str) (d : Date) (c : Clock)
    (hd : d.valid = true) :
    ∃ w, serialize strftime none (.arrow d c) = .ok w ∧ datetimeConvert env w = .error .invalidValue := by
  refine ⟨_, rfl, ?_⟩
  obtain ⟨h1, h2, h3⟩ := conv_iso hp (isoDate d ++ 'T' :: isoClock c) (by
    intro x hx
    rcases List.mem_append.1 hx with hx | hx
    · exact isoChar_date d x hx
    · rcases List.mem_cons.1 hx with rfl | hx
      · simp [isoChar]
      · exact isoChar_clock c x hx)
  simp only [datetimeConvert, h1, h2, h3, if_false, get_iso d hd _ (word_isoClock c)]

example : serialize (fun _ _ => []) none (.arrow ⟨2018, 5, 26⟩ ⟨11, 12, 13, 0, some 0⟩)
      = .ok (.str "2018-05-26T11:12:13+00:00".toList)
    ∧ datetimeConvert demo (.str "2018-05-26T11:12:13+00:00".toList) = .error .invalidValue := by decide +kernel

/-- With a format that has the zone, the moment is read as if it were UTC. -/
theorem C169_zone_violated (env : Env) (hp : Plain env.conv) (strftime : Str → TVal → Str) (d : Date) (c : Clock) (z : Int)
    (hd : d.valid = true) (hc : c.valid = true) (hu : c.us = 0) (hz : c.tz = some z) (hb : Zone z) :
    ∃ w, serialize strftime (some (.arrow atom)) (.arrow d c) = .ok w
      ∧ datetimeConvert env w = .ok (.arrow d { c with tz := some 0 }) := by
  refine ⟨_, rfl, ?_⟩
  rw [atom_show]
  have := get_zone c z hc hu hz (by unfold Zone at hb; omega)
  rw [hz]
  exact datetime_spaced env hp d hd _ _ (by
    intro x hx
    rcases List.mem_append.1 hx with hx | hx
    · exact isoChar_hms c x hx
    · exact isoChar_zone z x hx) this

example : serialize (fun _ _ => []) (some (.arrow atom)) (.arrow ⟨2018, 5, 26⟩ ⟨11, 12, 13, 0, some 120⟩)
      = .ok (.str "2018-05-26 11:12:13+02:00".toList)
    ∧ datetimeConvert demo (.str "2018-05-26 11:12:13+02:00".toList)
      = .ok (.arrow ⟨2018, 5, 26⟩ ⟨11, 12, 13, 0, some 0⟩) := by decide +kernel

/-! ### C170: what is no date is refused by InvalidValue -/

/-- A token that reads digits. -/
def reads2 (t : FTok) : Prop := t = .year ∨ t = .month ∨ t = .day ∨ t = .hour

theorem search_noDigit (t : FTok) (ht : reads2 t) (g : Fmt) : (b : Bool) → (s : Str) → NoDigit s →
    search (t :: g) b s = none
  | b, [], _ => by
    rcases ht with rfl | rfl | rfl | rfl <;> cases b <;> simp [search, here, fmtAt, tokAt, num]
  | b, c :: s, h => by
    have hc := h c (by simp)
    have h1 : here (t :: g) (c :: s) = none := by
      rcases ht with rfl | rfl | rfl | rfl <;> simp [here, fmtAt, tokAt, num, hc]
    simp only [search, h1, ite_self]
    exact search_noDigit t ht g _ s fun x hx => h x (by simp [hx])

theorem get_noDigit (fs : List Fmt) (s : Str) (h : NoDigit s) (hf : ∀ f ∈ fs, ∃ t g, f = t :: g ∧ reads2 t) :
    get fs s = .error .valueError := by
  induction fs with
  | nil => rfl
  | cons f fs ih =>
    obtain ⟨t, g, rfl, ht⟩ := hf f (by simp)
    rw [get_skip _ _ _ (search_noDigit t ht g true s h)]
    exact ih fun f hf' => hf f (by simp [hf'])

theorem dateFormats_reads : ∀ f ∈ dateFormats ++ altDateFormats, ∃ t g, f = t :: g ∧ reads2 t := by
  intro f hf
  simp only [dateFormats, altDateFormats, List.cons_append, List.nil_append, List.mem_cons, List.not_mem_nil, or_false] at hf
  rcases hf with rfl | rfl | rfl | rfl | rfl | rfl | rfl | rfl | rfl | rfl | rfl | rfl <;>
    exact ⟨_, _, rfl, by simp [reads2]⟩

theorem timeFormats_reads : ∀ f ∈ timeFormats, ∃ t g, f = t :: g ∧ reads2 t := by
  intro f hf
  obtain ⟨g, rfl⟩ := timeFormats_head f hf
  exact ⟨_, _, rfl, by simp [reads2]⟩

/-- A datetime refuses a text without digits, which does not name the present, by InvalidValue. -/
theorem C170_datetime_partial (env : Env) (s : Str) (h : NoDigit (env.conv s)) (hp : ¬ Present (env.conv s)) :
    datetimeConvert env (.str s) = .error .invalidValue := by
  simp only [Present, not_or] at hp
  simp only [datetimeConvert, hp.1, hp.2, if_false, get_noDigit _ _ h dateFormats_reads]

example : NoDigit (demo.conv "soon".toList) ∧ ¬ Present (demo.conv "soon".toList)
    ∧ datetimeConvert demo (.str "soon".toList) = .error .invalidValue := by
  refine ⟨?_, ?_, by decide +kernel⟩
  · unfold NoDigit; decide
  · unfold Present; decide

/-- A date and a time refuse it by IndexError. -/
theorem C170_text_violated (env : Env) (s : Str) (h : NoDigit (env.conv s)) (hp : ¬ Present (env.conv s)) :
    dateConvert env (.str s) = .error .indexError ∧ timeConvert env (.str s) = .error .indexError := by
  simp only [Present, not_or] at hp
  have h1 := get_noDigit dateFormats _ h fun f hf => dateFormats_reads f (by simp [hf])
  have h2 := get_noDigit altDateFormats _ h fun f hf => dateFormats_reads f (by simp [hf])
  have h3 := get_noDigit timeFormats _ h timeFormats_reads
  constructor
  · simp only [dateConvert, hp.1, hp.2, or_self, if_false, h1, dateConvert.dateAlt, h2]
  · simp only [timeConvert, hp.1, hp.2, or_self, if_false, h3]

example : dateConvert demo (.str "soon".toList) = .error .indexError
    ∧ timeConvert demo (.str "soon".toList) = .error .indexError := by decide +kernel

/-- They never raise InvalidValue. -/
theorem C170_never_violated (env : Env) (v : TVal) :
    dateConvert env v ≠ .error .invalidValue ∧ timeConvert env v ≠ .error .invalidValue := by
  constructor
  · cases v <;> simp only [dateConvert, dateConvert.dateAlt, ne_eq] <;> (try split) <;> (try split) <;> (try split) <;>
      (try split) <;> (try split) <;> simp
  · cases v <;> simp only [timeConvert, ne_eq] <;> (try split) <;> (try split) <;> (try split) <;> simp

/-- A datetime takes numbers, dates and times for None. -/
theorem C170_other_violated (env : Env) (d : Date) (c : Clock) : datetimeConvert env .other = .ok .none
    ∧ datetimeConvert env (.date d) = .ok .none ∧ datetimeConvert env (.time c) = .ok .none := ⟨rfl, rfl, rfl⟩

/-- The days that are accepted are those of the calendar. -/
theorem valid_iff (d : Date) : d.valid = true ↔ Calendar d := by
  simp only [Date.valid, Calendar, daysIn, Bool.and_eq_true, decide_eq_true_eq, List.mem_cons, List.not_mem_nil, or_false]
  constructor
  · rintro ⟨⟨⟨⟨⟨h1, h2⟩, h3⟩, h4⟩, h5⟩, h6⟩
    refine ⟨h1, h2, h3, h4, h5, ?_⟩
    split at h6
    · split at h6 <;> (have h6 := of_decide_eq_true h6; omega)
    · split at h6 <;> (have h6 := of_decide_eq_true h6; omega)
  · rintro ⟨h1, h2, h3, h4, h5, h6⟩
    refine ⟨⟨⟨⟨⟨h1, h2⟩, h3⟩, h4⟩, h5⟩, ?_⟩
    split
    · split <;> (rw [decide_eq_true_eq]; omega)
    · split <;> (rw [decide_eq_true_eq]; omega)

theorem get_valid (fs : List Fmt) (s : Str) (d : Date) (c : Clock) (h : get fs s = .ok (d, c)) :
    Calendar d ∧ OfDay c := by
  induction fs with
  | nil => simp [get] at h
  | cons f fs ih =>
    simp only [get] at h
    split at h
    · exact ih h
    · split at h
      · rename_i hv
        simp only [Bool.and_eq_true] at hv
        cases h
        refine ⟨(valid_iff _).1 hv.1, ?_⟩
        simpa [Clock.valid, OfDay, and_assoc] using hv.2
      · simp at h

/-- A text is read as a day of the calendar and a time of the day. -/
theorem C170_calendar_partial (env : Env) (s : Str) (hd : Calendar env.nowDate) (hc : OfDay env.nowClock) :
    (∀ d, dateConvert env (.str s) = .ok (.date d) → Calendar d)
    ∧ (∀ c, timeConvert env (.str s) = .ok (.time c) → OfDay c)
    ∧ (∀ d c, datetimeConvert env (.str s) = .ok (.arrow d c) → Calendar d ∧ OfDay c) := by
  refine ⟨?_, ?_, ?_⟩
  · intro d h
    simp only [dateConvert, dateConvert.dateAlt] at h
    split at h
    · cases h; exact hd
    · split at h
      · rename_i hg
        split at h
        · cases h; exact (get_valid _ _ _ _ hg).1
        · split at h
          · rename_i hg'
            split at h
            · cases h; exact (get_valid _ _ _ _ hg').1
            · cases h
          · cases h
      · split at h
        · rename_i hg'
          split at h
          · cases h; exact (get_valid _ _ _ _ hg').1
          · cases h
        · cases h
  · intro c h
    simp only [timeConvert] at h
    split at h
    · cases h; exact hc
    · split at h
      · rename_i hg
        split at h
        · cases h; exact (get_valid _ _ _ _ hg).2
        · cases h
      · cases h
  · intro d c h
    simp only [datetimeConvert, toArrow] at h
    split at h
    · cases h; exact ⟨hd, hc⟩
    · split at h
      · cases h; exact ⟨hd, by simp [OfDay, midnight]⟩
      · split at h
        · cases h
        · rename_i hg
          split at h
          · cases h
          · rename_i hg'
            cases h
            exact ⟨(get_valid _ _ _ _ hg).1, (get_valid _ _ _ _ hg').2⟩

example : Calendar demo.nowDate ∧ OfDay demo.nowClock ∧ dateConvert demo (.str "2023-02-29".toList) = .error .indexError
    ∧ dateConvert demo (.str "29/02/2024".toList) = .ok (.date ⟨2024, 2, 29⟩) := by
  refine ⟨?_, ?_, by decide +kernel, by decide +kernel⟩
  · simp [Calendar, demo]
  · simp [OfDay, demo]

/-! ### C171: a moment is a date at midnight only, and a time on the first day only -/

theorem C171_date (env : Env) (d : Date) (c : Clock) (v : TVal) :
    (dateConvert env (.arrow d c) = .ok v ↔ v = .date d ∧ c.h = 0 ∧ c.mi = 0 ∧ c.s = 0 ∧ c.us = 0)
    ∧ (dateConvert env (.datetime d c) = .ok v ↔ v = .date d ∧ c.h = 0 ∧ c.mi = 0 ∧ c.s = 0 ∧ c.us = 0) := by
  by_cases hm : ({ c with tz := none } : Clock) = midnight
  · simp only [dateConvert, hm, if_true, and_self]
    simp only [midnight, Clock.mk.injEq] at hm
    simp [hm, eq_comm]
  · simp only [dateConvert, hm, if_false, and_self]
    simp only [midnight, Clock.mk.injEq, and_true] at hm
    simp only [reduceCtorEq, false_iff]
    rintro ⟨_, h⟩
    exact hm h

example : dateConvert demo (.arrow ⟨2018, 5, 26⟩ ⟨0, 0, 0, 0, some 0⟩) = .ok (.date ⟨2018, 5, 26⟩) := by decide +kernel

theorem C171_time (env : Env) (d : Date) (c : Clock) (v : TVal) :
    (timeConvert env (.arrow d c) = .ok v ↔ v = .time { c with tz := none } ∧ d.y = 1 ∧ d.m = 1 ∧ d.d = 1)
    ∧ (timeConvert env (.datetime d c) = .ok v ↔ v = .time { c with tz := none } ∧ d.y = 1 ∧ d.m = 1 ∧ d.d = 1) := by
  by_cases hm : d = dayOne
  · subst hm
    simp [timeConvert, dayOne, eq_comm]
  · simp only [timeConvert, hm, if_false, and_self]
    simp only [reduceCtorEq, false_iff]
    rintro ⟨_, h1, h2, h3⟩
    exact hm (by cases d; simp_all [dayOne])

example : timeConvert demo (.datetime ⟨1, 1, 1⟩ ⟨3, 4, 5, 6, none⟩) = .ok (.time ⟨3, 4, 5, 6, none⟩) := by decide +kernel

/-- Otherwise the refusal is an AssertionError. -/
theorem C171_assertion_violated (env : Env) (d : Date) (c : Clock) :
    (c.h ≠ 0 → dateConvert env (.arrow d c) = .error .assertionError)
    ∧ (d.y ≠ 1 → timeConvert env (.arrow d c) = .error .assertionError) := by
  constructor
  · intro h
    have hm : ({ c with tz := none } : Clock) ≠ midnight := fun e => h (congrArg Clock.h e)
    simp [dateConvert, hm]
  · intro h
    have hm : d ≠ dayOne := fun e => h (congrArg Date.y e)
    simp [timeConvert, hm]

example : dateConvert demo (.arrow ⟨2018, 5, 26⟩ ⟨11, 0, 0, 0, some 0⟩) = .error .assertionError := by decide +kernel

/-! ### C172: converting twice is converting once -/

theorem C172_idempotent (env : Env) (v w : TVal) :
    (dateConvert env v = .ok w → dateConvert env w = .ok w)
    ∧ (timeConvert env v = .ok w → timeConvert env w = .ok w)
    ∧ (datetimeConvert env v = .ok w → datetimeConvert env w = .ok w) := by
  refine ⟨?_, ?_, ?_⟩
  · intro h
    have hw : w = .none ∨ ∃ d, w = .date d := by
      cases v <;> simp only [dateConvert, dateConvert.dateAlt] at h <;> (try split at h) <;> (try split at h) <;>
        (try split at h) <;> (try split at h) <;> (try split at h) <;> (cases h <;> simp)
    rcases hw with rfl | ⟨d, rfl⟩ <;> rfl
  · intro h
    have hw : w = .none ∨ ∃ c, w = .time c := by
      cases v <;> simp only [timeConvert] at h <;> (try split at h) <;> (try split at h) <;>
        (try split at h) <;> (cases h <;> simp)
    rcases hw with rfl | ⟨d, rfl⟩ <;> rfl
  · intro h
    have hw : w = .none ∨ ∃ d c, w = .arrow d c := by
      cases v <;> simp only [datetimeConvert, toArrow] at h <;> (try split at h) <;> (try split at h) <;>
        (try split at h) <;> (try split at h) <;> (cases h <;> simp)
    rcases hw with rfl | ⟨d, c, rfl⟩ <;> rfl

example : dateConvert demo (.str "26/05/2018".toList) = .ok (.date ⟨2018, 5, 26⟩)
    ∧ timeConvert demo (.str "03:04".toList) = .ok (.time ⟨3, 4, 0, 0, none⟩)
    ∧ datetimeConvert demo (.str "now".toList) = .ok (.arrow ⟨2024, 2, 29⟩ ⟨10, 20, 30, 5, some 0⟩) := by decide +kernel

/-! ### C173: AM and PM tell the half of the day -/

/-- `HH:MM`. -/
def showHm (h mi : Nat) : Str := fix 2 h ++ ':' :: fix 2 mi

/-- A time of hours and minutes is read up to the space, what follows is ignored. -/
theorem get_half (h mi : Nat) (hh : h < 24) (hm : mi < 60) (t : Str) (ht : t = "AM".toList ∨ t = "PM".toList) :
    get timeFormats (showHm h mi ++ ' ' :: t) = .ok (dayOne, ⟨h, mi, 0, 0, none⟩) := by
  have hw : Word (showHm h mi) := word_append (word_fix _ _) (word_cons (by decide) (word_fix _ _))
  have hne : showHm h mi ≠ [] := by simp [showHm]
  have e : ∀ r, showHm h mi ++ r = fix 2 h ++ ':' :: (fix 2 mi ++ r) := by simp [showHm]
  have hwt : Word t := by rcases ht with rfl | rfl <;> (unfold Word; decide)
  have h0 : ∀ g : Fmt, search (hms ++ g) true (showHm h mi ++ ' ' :: t) = none := by
    intro g
    rw [search_next _ _ _ hw hne, search_word _ _ hwt]
    · rcases ht with rfl | rfl <;> rfl
    · rw [here, e]
      simp only [hms, List.cons_append, List.nil_append, fmtAt]
      rw [tok_hour _ _ _ (by omega)]
      simp only [tok_lit]
      rw [tok_minute _ _ _ (by omega)]
      simp only
      rw [tok_lit_ne _ _ _ _ (by decide)]
  have h1 : search [.hour, .lit ':', .minute] true (showHm h mi ++ ' ' :: t)
      = some { clock := { midnight with h := h, mi := mi } } := by
    refine search_here _ _ _ ?_
    rw [here, e]
    simp only [fmtAt]
    rw [tok_hour _ _ _ (by omega)]
    simp only [tok_lit]
    rw [tok_minute _ _ _ (by omega)]
    rfl
  have h2 : search hms true (showHm h mi ++ ' ' :: t) = none := by simpa using h0 []
  unfold timeFormats
  rw [get_skip _ _ _ (h0 _), get_skip _ _ _ (h0 _), get_skip _ _ _ (h0 _), get_skip _ _ _ (h0 _), get_skip _ _ _ (h0 _),
    get_skip _ _ _ (h0 _), get_skip _ _ _ h2, get_hit _ _ _ _ h1 rfl dayOne_valid]
  · rfl
  · simp [Clock.valid, midnight, hh, hm]

/-- Before noon. -/
theorem C173_morning_partial (env : Env) (hp : ∀ s, env.conv s = s) (h mi : Nat) (hh : h < 12) (hm : mi < 60) :
    timeConvert env (.str (showHm h mi ++ " AM".toList)) = .ok (.time ⟨h, mi, 0, 0, none⟩) := by
  have h1 := get_half h mi (by omega) hm "AM".toList (.inl rfl)
  have h2 : showHm h mi ++ ' ' :: "AM".toList ≠ "now".toList ∧ showHm h mi ++ ' ' :: "AM".toList ≠ "today".toList := by
    constructor <;> simp [showHm, fix2_eq] <;> intro h <;> exact absurd h (digit_ne _ _ (by decide))
  simp only [timeConvert, hp]
  rw [show showHm h mi ++ " AM".toList = showHm h mi ++ ' ' :: "AM".toList from rfl]
  simp only [h2.1, h2.2, or_self, if_false, h1, if_true]

example : timeConvert demo (.str (showHm 3 4 ++ " AM".toList)) = .ok (.time ⟨3, 4, 0, 0, none⟩) := by decide +kernel

/-- The afternoon is read as the morning. -/
theorem C173_afternoon_violated (env : Env) (hp : ∀ s, env.conv s = s) (h mi : Nat) (hh : h < 12) (hm : mi < 60) :
    timeConvert env (.str (showHm h mi ++ " PM".toList)) = .ok (.time ⟨h, mi, 0, 0, none⟩) := by
  have h1 := get_half h mi (by omega) hm "PM".toList (.inr rfl)
  have h2 : showHm h mi ++ ' ' :: "PM".toList ≠ "now".toList ∧ showHm h mi ++ ' ' :: "PM".toList ≠ "today".toList := by
    constructor <;> simp [showHm, fix2_eq] <;> intro h <;> exact absurd h (digit_ne _ _ (by decide))
  simp only [timeConvert, hp]
  rw [show showHm h mi ++ " PM".toList = showHm h mi ++ ' ' :: "PM".toList from rfl]
  simp only [h2.1, h2.2, or_self, if_false, h1, if_true]

example : timeConvert demo (.str "03:04 PM".toList) = .ok (.time ⟨3, 4, 0, 0, none⟩) := by decide +kernel

theorem fmtAt_append (g : Fmt) : (f : Fmt) → (x : Fields) → (s : Str) →
    fmtAt (f ++ g) x s = match fmtAt f x s with
      | none => none
      | some (x', r) => fmtAt g x' r
  | [], x, s => rfl
  | t :: f, x, s => by
    simp only [List.cons_append, fmtAt]
    cases tokAt t x s with
    | none => rfl
    | some p => exact fmtAt_append g f p.1 p.2

theorem here_space (f g : Fmt) (s : Str) (h : here f s = none) : here (f ++ .lit ' ' :: g) s = none := by
  unfold here at h ⊢
  rw [fmtAt_append]
  cases hf : fmtAt f {} s with
  | none => rfl
  | some p =>
    obtain ⟨x, r⟩ := p
    rw [hf] at h
    have hb : bounded r = false := by
      cases hb : bounded r with
      | false => rfl
      | true => simp [hb] at h
    simp only [fmtAt]
    cases r with
    | nil => simp [bounded] at hb
    | cons c r =>
      have : c ≠ ' ' := by rintro rfl; simp [bounded, isSpace] at hb
      rw [tok_lit_ne _ _ _ _ this]

theorem search_space (f g : Fmt) : (b : Bool) → (s : Str) → search f b s = none → search (f ++ .lit ' ' :: g) b s = none
  | b, [], h => by
    rw [search] at h ⊢
    cases b with
    | false => rfl
    | true => exact here_space f g [] h
  | b, c :: s, h => by
    rw [search] at h ⊢
    cases b with
    | false =>
      simp only [Bool.false_eq_true, if_false] at h ⊢
      exact search_space f g _ s h
    | true =>
      simp only [if_true] at h ⊢
      cases hh : here f (c :: s) with
      | some x => rw [hh] at h; cases h
      | none =>
        rw [hh] at h
        rw [here_space f g _ hh]
        exact search_space f g _ s h

theorem get_drop (f g : Fmt) (mid rest : List Fmt) (s : Str) :
    get (f :: (mid ++ (f ++ .lit ' ' :: g) :: rest)) s = get (f :: (mid ++ rest)) s := by
  cases h : search f true s with
  | some x => simp only [get, h]
  | none =>
    rw [get_skip _ _ _ h, get_skip _ _ _ h]
    have h2 := search_space f g true s h
    induction mid with
    | nil => exact get_skip _ _ _ h2
    | cons m mid ih => simp only [List.cons_append, get, ih]

/-- No text is read with its half of the day: the formats that have one are never used. -/
theorem C173_never_violated (s : Str) :
    get timeFormats s = get (timeFormats.filter (fun f => FTok.half ∉ f)) s := by
  have h1 : timeFormats.filter (fun f => FTok.half ∉ f) = timeFormats.take 8 := by decide +kernel
  rw [h1]
  have key : ∀ pre l l' : List Fmt, get l s = get l' s → get (pre ++ l) s = get (pre ++ l') s := by
    intro pre l l' h
    induction pre with
    | nil => exact h
    | cons f pre ih => simp only [List.cons_append, get, ih]
  have hm : get [[.hour, .lit ':', .minute], hms ++ [.lit ' ', .half], [.hour, .lit ':', .minute, .lit ' ', .half]] s =
      get [[.hour, .lit ':', .minute], hms ++ [.lit ' ', .half]] s := get_drop [.hour, .lit ':', .minute] [.half] [hms ++ [FTok.lit ' ', FTok.half]] [] s
  have h2 : get (timeFormats.take 7 ++ [[.hour, .lit ':', .minute], hms ++ [.lit ' ', .half], [.hour, .lit ':', .minute, .lit ' ', .half]]) s =
      get (timeFormats.take 7 ++ [[.hour, .lit ':', .minute], hms ++ [.lit ' ', .half]]) s := key _ _ _ hm
  have h3 : get (timeFormats.take 6 ++ hms :: ([[.hour, .lit ':', .minute]] ++ (hms ++ [.lit ' ', .half]) :: [])) s =
      get (timeFormats.take 6 ++ hms :: ([[.hour, .lit ':', .minute]] ++ [])) s := key _ _ _ (get_drop hms [.half] _ [] s)
  exact h2.trans h3

example : get timeFormats "03:04:05 PM".toList = .ok (dayOne, ⟨3, 4, 5, 0, none⟩) ∧
    get [hms ++ [.lit ' ', .half]] "03:04:05 PM".toList = .ok (dayOne, ⟨15, 4, 5, 0, none⟩) := by decide +kernel

theorem tok_half {t : Str} {b : Bool} (h : readHalf t = some (b, [])) (x : Fields) :
    tokAt .half x t = some ({ x with pm := some b }, []) := by simp [tokAt, h]

theorem get_one {f : Fmt} {s : Str} {x : Fields} (h : search f true s = some x) (c : Clock)
    (e : ({ x.clock with h := hour24 x } : Clock) = c) (hd : x.date = dayOne) (hc : c.valid = true) :
    get [f] s = .ok (dayOne, c) := by
  rw [get, h]
  simp only [e, hd, hc, dayOne_valid, Bool.and_self, if_true]

/-- The formats with the half of the day do tell it, when none without it comes first: the hours 12, 1, …, 11 are those
of the half. -/
theorem C173_formats_partial (h mi sec : Nat) (h1 : 1 ≤ h) (h12 : h ≤ 12) (hm : mi < 60) (hs : sec < 60) (pm : Bool)
    (t : Str) (ht : t ∈ if pm then ["PM".toList, "pm".toList] else ["AM".toList, "am".toList]) :
    get [[.hour, .lit ':', .minute, .lit ' ', .half]] (showHm h mi ++ ' ' :: t)
      = .ok (dayOne, ⟨h % 12 + (if pm then 12 else 0), mi, 0, 0, none⟩) ∧
    get [hms ++ [.lit ' ', .half]] (showHms ⟨h, mi, sec, 0, none⟩ ++ ' ' :: t)
      = .ok (dayOne, ⟨h % 12 + (if pm then 12 else 0), mi, sec, 0, none⟩) := by
  have hr : readHalf t = some (pm, []) := by
    cases pm <;> simp at ht <;> rcases ht with rfl | rfl <;> rfl
  have h24 : ∀ c : Clock, c.h = h → hour24 { clock := c, pm := some pm } = h % 12 + (if pm then 12 else 0) := by
    intro c hc
    cases pm <;> simp only [hour24, hc] <;> split <;> simp <;> omega
  have hlt : h % 12 + (if pm then 12 else 0) < 24 := by cases pm <;> simp <;> omega
  have e : ∀ r, showHm h mi ++ r = fix 2 h ++ ':' :: (fix 2 mi ++ r) := by simp [showHm]
  constructor
  · have hit : search [.hour, .lit ':', .minute, .lit ' ', .half] true (showHm h mi ++ ' ' :: t)
        = some { clock := { midnight with h := h, mi := mi }, pm := some pm } := by
      refine search_here _ _ _ ?_
      rw [here, e]
      simp only [fmtAt]
      rw [tok_hour _ _ _ (by omega)]
      simp only [tok_lit]
      rw [tok_minute _ _ _ (by omega)]
      simp only [tok_lit, tok_half hr]
      rfl
    refine get_one hit _ ?_ rfl ?_
    · rw [h24 _ rfl]; rfl
    · simp [Clock.valid, hlt, hm]
  · have hc : (⟨h, mi, sec, 0, none⟩ : Clock).valid = true := by
      simp [Clock.valid, hm, hs]; omega
    have hit : search (hms ++ [.lit ' ', .half]) true (showHms ⟨h, mi, sec, 0, none⟩ ++ ' ' :: t)
        = some { hmsFields ⟨h, mi, sec, 0, none⟩ with pm := some pm } := by
      refine search_here _ _ _ ?_
      rw [here_hms _ hc]
      simp only [fmtAt, tok_lit, tok_half hr]
      rfl
    refine get_one hit _ ?_ rfl ?_
    · have : hour24 { hmsFields ⟨h, mi, sec, 0, none⟩ with pm := some pm } = _ := h24 _ rfl
      rw [this]; rfl
    · simp [Clock.valid, hlt, hm, hs]

example : get [hms ++ [.lit ' ', .half]] "12:04:05 am".toList = .ok (dayOne, ⟨0, 4, 5, 0, none⟩) := by decide +kernel
example : get [[.hour, .lit ':', .minute, .lit ' ', .half]] "03:04 PM".toList = .ok (dayOne, ⟨15, 4, 0, 0, none⟩) := by
  decide +kernel

/-- What an arrow writes with such a format, the format reads. -/
theorem C173_written_partial (d : Date) (c : Clock) (hc : c.valid = true) (hu : c.us = 0) (hz : c.tz = none) :
    get [hms ++ [.lit ' ', .half]] ((hms ++ [FTok.lit ' ', FTok.half]).flatMap (showTok d c)) = .ok (dayOne, c) := by
  have es : (hms ++ [FTok.lit ' ', FTok.half]).flatMap (showTok d c)
      = showHms c ++ ' ' :: (if c.h < 12 then "AM".toList else "PM".toList) := by
    simp [hms, showTok, showHms]
  have hr : readHalf (if c.h < 12 then "AM".toList else "PM".toList) = some (decide (12 ≤ c.h), []) := by
    split
    · have : ¬ 12 ≤ c.h := by omega
      simp [this, readHalf]
    · have : 12 ≤ c.h := by omega
      simp [this, readHalf]
  rw [es]
  have hit : search (hms ++ [.lit ' ', .half]) true
      (showHms c ++ ' ' :: (if c.h < 12 then "AM".toList else "PM".toList))
      = some { hmsFields c with pm := some (decide (12 ≤ c.h)) } := by
    refine search_here _ _ _ ?_
    rw [here_hms _ hc]
    simp only [fmtAt, tok_lit, tok_half hr]
    rfl
  have h24 : hour24 { hmsFields c with pm := some (decide (12 ≤ c.h)) } = c.h := by
    by_cases h : 12 ≤ c.h
    · have : ¬ c.h < 12 := by omega
      simp [hour24, hmsFields, h, this]
    · have : c.h ≠ 12 := by omega
      simp [hour24, hmsFields, h, this]
  refine get_one hit c ?_ rfl hc
  rw [h24]
  cases c; simp_all [hmsFields, midnight]

example : (hms ++ [FTok.lit ' ', FTok.half]).flatMap (showTok dayOne ⟨15, 4, 5, 0, none⟩) = "15:04:05 PM".toList := by
  decide +kernel

end Verif.Temporal
