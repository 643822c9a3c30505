import Verif.Val
/-
Decimal notation of integers: Python's `str(int)` and `int(str)`. Not code of the repository.
Simplification: only ASCII digits and ASCII white space are recognised.
-/
namespace Verif

/-- ASCII characters `str.isspace()` accepts. -/
def isSpace (c : Char) : Bool :=
  (9 ≤ c.toNat && c.toNat ≤ 13) || (28 ≤ c.toNat && c.toNat ≤ 32)

/-- `str(n)` for a natural number. -/
def showNat (n : Nat) : Str := Nat.toDigits 10 n

/-- `str(i)`. -/
def showInt (i : Int) : Str := if i < 0 then '-' :: showNat i.natAbs else showNat i.natAbs

/-- Digits, with single underscores allowed between two digits. -/
def parseDigits : Str → Nat → Bool → Option Nat
  | [], acc, ok => if ok then some acc else none
  | c :: cs, acc, ok =>
    if c.isDigit then parseDigits cs (10 * acc + (c.toNat - '0'.toNat)) true
    else if c = '_' && ok then parseDigits cs acc false
    else none

/-- `int(s)`; `none` stands for ValueError. -/
def parseInt (s : Str) : Option Int :=
  match strip isSpace s with
  | '-' :: ds => (parseDigits ds 0 false).map (fun (n : Nat) => -(n : Int))
  | '+' :: ds => (parseDigits ds 0 false).map Int.ofNat
  | ds => (parseDigits ds 0 false).map Int.ofNat

theorem parseDigits_digits (l : Str) (h : ∀ c ∈ l, c.isDigit = true) (acc : Nat) (ok : Bool)
    (hne : l ≠ [] ∨ ok = true) : parseDigits l acc ok = some (Nat.ofDigitChars 10 l acc) := by
  induction l generalizing acc ok with
  | nil => simp at hne; subst hne; simp [parseDigits]
  | cons c cs ih =>
    rw [parseDigits, if_pos (h c (by simp)), Nat.ofDigitChars_cons]
    exact ih (fun x hx => h x (by simp [hx])) _ _ (.inr rfl)

theorem isDigit_of_mem_showNat {n : Nat} {c : Char} (h : c ∈ showNat n) : c.isDigit = true :=
  Nat.isDigit_of_mem_toDigits (by omega) (by omega) h

theorem showNat_ne_nil (n : Nat) : showNat n ≠ [] := Nat.toDigits_ne_nil

theorem parseDigits_showNat (n : Nat) : parseDigits (showNat n) 0 false = some n := by
  rw [parseDigits_digits _ (fun c hc => isDigit_of_mem_showNat hc) _ _ (.inl (showNat_ne_nil n))]
  simp [showNat]

theorem isSpace_of_isDigit {c : Char} (h : c.isDigit = true) : isSpace c = false := by
  simp only [Char.isDigit, Bool.and_eq_true, decide_eq_true_eq, isSpace, Bool.or_eq_false_iff,
    Bool.and_eq_false_iff, decide_eq_false_iff_not, ge_iff_le, UInt32.le_iff_toNat_le] at *
  have : c.toNat = c.val.toNat := rfl
  have : '0'.val.toNat = 48 := rfl
  have : '9'.val.toNat = 57 := rfl
  omega

theorem lstrip_eq_self {p : Char → Bool} {s : Str} (h : ∀ c ∈ s.head?, p c = false) : lstrip p s = s := by
  cases s with
  | nil => rfl
  | cons c cs => simp [lstrip, List.dropWhile, h c (by simp)]

theorem strip_eq_self {p : Char → Bool} {s : Str} (h : ∀ c ∈ s.head?, p c = false)
    (h' : ∀ c ∈ s.getLast?, p c = false) : strip p s = s := by
  rw [strip, lstrip_eq_self h, lstrip_eq_self (by simpa using h'), List.reverse_reverse]

theorem strip_of_all {p : Char → Bool} {s : Str} (h : ∀ c ∈ s, p c = false) : strip p s = s :=
  strip_eq_self (fun c hc => h c (List.mem_of_head? hc)) (fun c hc => h c (List.mem_of_getLast? hc))

theorem parseInt_showNat (n : Nat) : parseInt (showNat n) = some (n : Int) := by
  have hd : ∀ c ∈ showNat n, c.isDigit = true := fun c hc => isDigit_of_mem_showNat hc
  rw [parseInt, strip_of_all (fun c hc => isSpace_of_isDigit (hd c hc))]
  split
  · rename_i h; exact absurd (hd '-' (by rw [h]; simp)) (by decide)
  · rename_i h; exact absurd (hd '+' (by rw [h]; simp)) (by decide)
  · rw [parseDigits_showNat]; rfl

theorem parseInt_showInt (i : Int) : parseInt (showInt i) = some i := by
  rw [showInt]
  split
  · rename_i h
    rw [parseInt, strip_of_all]
    · simp only [parseDigits_showNat, Option.map_some]; congr 1; omega
    · intro c hc
      rcases List.mem_cons.1 hc with rfl | hc
      · decide
      · exact isSpace_of_isDigit (isDigit_of_mem_showNat hc)
  · rw [parseInt_showNat]; congr 1; omega

theorem showNat_injective {m n : Nat} (h : showNat m = showNat n) : m = n := by
  have := parseInt_showNat m
  rw [h, parseInt_showNat] at this
  simp only [Option.some.injEq] at this; omega

theorem showInt_injective {m n : Int} (h : showInt m = showInt n) : m = n := by
  have := parseInt_showInt m
  rw [h, parseInt_showInt] at this
  simpa using this.symm

example : parseInt " -1_0 ".toList = some (-10) ∧ parseInt "1__0".toList = none := by decide +kernel

end Verif
