import Verif.Spec.Literal
import Verif.Lemmas.Keys
/-
Lemmas on expressions and templates.
-/
namespace Verif.Literal
open Spec

theorem nameStart_ascii (c : Char) : nameStart c = Spec.ascii c := by
  unfold nameStart Spec.ascii Char.isAlpha Char.isUpper Char.isLower
  simp only [Char.le_def]
  generalize (c == '_') = u
  rw [Bool.or_comm (decide _ && decide _)]
  simp [Bool.decide_and]

/-! ### Names of expressions -/

theorem findAll_break (word : Char → Bool) (hw : ∀ c, nameStart c = true → word c = true) (c : Char) (t : Str)
    (hc : nameRest word c = false) : (a : Str) → (st : Option Str) →
    ∃ X, findAll word st (a ++ c :: t) = X ++ findAll word none t
  | [], none => by
    have : nameStart c = false := by
      cases e : nameStart c with
      | false => rfl
      | true => simp [nameRest, hw c e] at hc
    exact ⟨[], by simp [findAll, this]⟩
  | [], some m => ⟨[m.reverse], by simp [findAll, hc]⟩
  | d :: a, none => by
    simp only [List.cons_append, findAll]
    split
    · exact findAll_break word hw c t hc a _
    · exact findAll_break word hw c t hc a _
  | d :: a, some m => by
    simp only [List.cons_append, findAll]
    split
    · exact findAll_break word hw c t hc a _
    · obtain ⟨X, hX⟩ := findAll_break word hw c t hc a none
      exact ⟨m.reverse :: X, by rw [hX]; rfl⟩

theorem findAll_run (word : Char → Bool) (t : Str) : (n m : Str) → (∀ c ∈ n, nameRest word c = true) →
    findAll word (some m) (n ++ t) = findAll word (some (n.reverse ++ m)) t
  | [], m, _ => by simp
  | c :: n, m, h => by
    simp only [List.cons_append, findAll, h c (by simp), if_true]
    rw [findAll_run word t n _ fun d hd => h d (by simp [hd])]
    simp

theorem findAll_some (word : Char → Bool) : (t m : Str) →
    ∃ X, findAll word (some m) t = (m.reverse ++ t.takeWhile (nameRest word)) :: X
  | [], m => ⟨[], by simp [findAll]⟩
  | c :: t, m => by
    simp only [findAll]
    split
    · obtain ⟨X, hX⟩ := findAll_some word t (c :: m)
      exact ⟨X, by rw [hX]; simp [*]⟩
    · exact ⟨findAll word none t, by simp [*]⟩

/-- A name standing in the text is the first component of a match. -/
theorem findAll_reads (word : Char → Bool) (hw : ∀ c, nameStart c = true → word c = true) (hd : word '.' = false)
    (s n : Str) (h : Reads nameStart word s n) : ∃ m ∈ findAll word none s, first m = n := by
  obtain ⟨a, b, rfl, ⟨c, n', rfl, hc⟩, hn, ha, hb⟩ := h
  have key : ∃ m ∈ findAll word none (c :: n' ++ b), first m = c :: n' := by
    simp only [List.cons_append, findAll, hc, if_true]
    rw [findAll_run word b n' [c] fun d hd => by simp [nameRest, hn d (by simp [hd])]]
    obtain ⟨X, hX⟩ := findAll_some word b (n'.reverse ++ [c])
    rw [hX]
    refine ⟨_, List.mem_cons_self .., ?_⟩
    have hnd : ∀ d ∈ c :: n', (d != '.') = true := by
      intro d hd'
      simp only [bne_iff_ne, ne_eq]
      rintro rfl
      rw [hn _ hd'] at hd; simp at hd
    have e : (n'.reverse ++ [c]).reverse = c :: n' := by simp
    rw [e]
    unfold first
    rw [List.takeWhile_append_of_pos hnd]
    cases b with
    | nil => simp
    | cons d b =>
      have hd2 := hb d rfl
      by_cases hdd : d = '.'
      · subst hdd
        simp [nameRest]
      · simp [nameRest, hd2, hdd]
  rcases List.eq_nil_or_concat a with rfl | ⟨a', x, rfl⟩
  · simpa using key
  · have hx := ha x (by simp)
    obtain ⟨X, hX⟩ := findAll_break word hw x (c :: n' ++ b) (by simp [nameRest, hx]) a' none
    obtain ⟨m, hm, e⟩ := key
    refine ⟨m, ?_, e⟩
    have : a' ++ [x] ++ (c :: n') ++ b = a' ++ x :: (c :: n' ++ b) := by simp
    rw [List.concat_eq_append, this, hX]
    exact List.mem_append_right _ hm

/-- A match is a contiguous part of the text. -/
theorem findAll_infix (word : Char → Bool) : (t : Str) → (st : Option Str) → ∀ m ∈ findAll word st t,
    m <:+: (st.getD []).reverse ++ t
  | [], none => by simp [findAll]
  | [], some m => by simp [findAll]
  | c :: t, none => by
    simp only [findAll]
    intro m hm
    split at hm
    · simpa using findAll_infix word t _ m hm
    · have := findAll_infix word t _ m hm
      simp only [Option.getD_none, List.reverse_nil, List.nil_append] at *
      exact this.trans (List.suffix_cons c t).isInfix
  | c :: t, some x => by
    simp only [findAll]
    intro m hm
    split at hm
    · simpa using findAll_infix word t _ m hm
    · simp only [List.mem_cons] at hm
      rcases hm with rfl | hm
      · exact (List.prefix_append _ _).isInfix
      · have := findAll_infix word t _ m hm
        simp only [Option.getD_none, List.reverse_nil, List.nil_append, Option.getD_some] at *
        exact this.trans ((List.suffix_cons c t).isInfix.trans (List.suffix_append _ _).isInfix)

/-! ### Variables of templates -/

theorem remove_of_not (old : Str) : (s : Str) → ¬ old <:+: s → remove old 0 s = s
  | [], _ => by simp [remove]
  | c :: s, h => by
    have h1 : old.isPrefixOf (c :: s) = false := by
      cases e : old.isPrefixOf (c :: s) with
      | false => rfl
      | true => exact absurd (List.isPrefixOf_iff_prefix.1 e).isInfix h
    simp only [remove, h1]
    rw [remove_of_not old s fun hi => h (hi.trans (List.suffix_cons c s).isInfix)]
    rfl

theorem unThis_none (s : Str) (ht : ¬ "this.".toList <:+: s) (hs : ¬ "self.".toList <:+: s) : unThis s = s := by
  unfold unThis
  rw [remove_of_not _ s ht, remove_of_not _ s hs]

theorem unThis_this (s : Str) (ht : ¬ "this.".toList <:+: s) (hs : ¬ "self.".toList <:+: s) :
    unThis ("this.".toList ++ s) = s := by
  have : remove "this.".toList 0 ("this.".toList ++ s) = remove "this.".toList 0 s := by
    cases s <;> simp [remove, List.isPrefixOf]
  unfold unThis
  rw [this, remove_of_not _ s ht, remove_of_not _ s hs]

theorem unThis_self (s : Str) (ht : ¬ "this.".toList <:+: s) (hs : ¬ "self.".toList <:+: s) :
    unThis ("self.".toList ++ s) = s := by
  have h1 : remove "this.".toList 0 ("self.".toList ++ s) = "self.".toList ++ remove "this.".toList 0 s := by
    simp [remove, List.isPrefixOf]
  have h2 : remove "self.".toList 0 ("self.".toList ++ s) = remove "self.".toList 0 s := by
    cases s <;> simp [remove, List.isPrefixOf]
  unfold unThis
  rw [h1, remove_of_not _ s ht, h2, remove_of_not _ s hs]

/-- The values read are texts, first one first, that join to `s`. -/
theorem join_map (l : List Str) : join (l.map some) = .ok l.reverse.flatten := by
  induction l with
  | nil => rfl
  | cons a l ih => simp [join, ih]

theorem scan_out (ts rest : List Tok) (h : Tok.varBegin ∉ ts) : scan none (ts ++ rest) = scan none rest := by
  induction ts with
  | nil => rfl
  | cons t ts ih =>
    simp only [List.mem_cons, not_or] at h
    rw [← ih h.2]
    cases t <;> simp_all [scan]

theorem scan_name (var : List (Option Str)) (s : Str) (ts : List Tok) (h : s ≠ ['|']) :
    scan (some var) (.name s :: ts) = scan (some (some s :: var)) ts := by
  simp [scan, Tok.text, h]

theorem scan_dot (var : List (Option Str)) (ts : List Tok) :
    scan (some var) (.dot :: ts) = scan (some (some ['.'] :: var)) ts := by
  simp [scan, Tok.text]

theorem scan_item (var : List (Option Str)) (n : Nat) (ts : List Tok) :
    scan (some (some ['.'] :: var)) (.int n :: ts) = scan (some (some ('[' :: showNat n ++ [']']) :: var)) ts := by
  simp [scan, Tok.text]

theorem scan_end (var : List Str) (ts : List Tok) (t : Tok) (h : t = .varEnd ∨ t = .pipe) :
    scan (some (var.map some)) (t :: ts) = match scan none ts with
      | .error e => .error e
      | .ok vs => .ok (var.reverse.flatten :: vs) := by
  rcases h with rfl | rfl <;> simp only [scan, Tok.text, join_map] <;> simp <;> rfl

theorem scan_path (ts : List Tok) : (path : List Member) → (∀ s, .name s ∈ path → s ≠ ['|']) → (var : List Str) →
    ∃ var' : List Str, scan (some (var.map some)) (Member.toks path ++ ts) = scan (some (var'.map some)) ts
      ∧ var'.reverse.flatten = var.reverse.flatten ++ Member.path path
  | [], _, var => ⟨var, rfl, by simp [Member.path]⟩
  | .name s :: path, h, var => by
    obtain ⟨v', h1, h2⟩ := scan_path ts path (fun s hs => h s (by simp [hs])) (s :: ['.'] :: var)
    refine ⟨v', ?_, ?_⟩
    · rw [← h1]
      simp only [Member.toks, List.cons_append]
      rw [scan_dot, scan_name _ _ _ (h s (by simp))]
      rfl
    · rw [h2]; simp [Member.path]
  | .item n :: path, h, var => by
    obtain ⟨v', h1, h2⟩ := scan_path ts path (fun s hs => h s (by simp [hs])) (('[' :: showNat n ++ [']']) :: var)
    refine ⟨v', ?_, ?_⟩
    · rw [← h1]
      simp only [Member.toks, List.cons_append]
      rw [scan_dot, scan_item]
      rfl
    · rw [h2]; simp [Member.path]

/-- The text of the owner. -/
def ownerText : Owner → Str
  | .none => []
  | .this => "this.".toList
  | .self => "self.".toList

theorem unThis_owner (o : Owner) (s : Str) (ht : ¬ "this.".toList <:+: s) (hs : ¬ "self.".toList <:+: s) :
    unThis (ownerText o ++ s) = s := by
  cases o
  · exact unThis_none s ht hs
  · exact unThis_this s ht hs
  · exact unThis_self s ht hs

theorem scan_var (o : Owner) (n : Str) (path : List Member) (ts : List Tok) (t : Tok) (ht : t = .varEnd ∨ t = .pipe)
    (hn : n ≠ ['|']) (hp : ∀ s, .name s ∈ path → s ≠ ['|']) :
    scan none (.varBegin :: (o.toks ++ .name n :: Member.toks path) ++ t :: ts) = match scan none ts with
      | .error e => .error e
      | .ok vs => .ok ((ownerText o ++ (n ++ Member.path path)) :: vs) := by
  have base : ∀ var : List Str, scan (some (var.map some)) (.name n :: Member.toks path ++ t :: ts)
      = match scan none ts with
      | .error e => .error e
      | .ok vs => .ok ((var.reverse.flatten ++ (n ++ Member.path path)) :: vs) := by
    intro var
    simp only [List.cons_append]
    rw [scan_name _ _ _ hn]
    obtain ⟨v', h1, h2⟩ := scan_path (t :: ts) path hp (n :: var)
    simp only [List.map_cons] at h1
    rw [h1, scan_end _ _ _ ht, h2]
    simp
  cases o
  · have := base []
    simpa [Owner.toks, scan, ownerText] using this
  · have := base [['.'], "this".toList]
    simp only [Owner.toks, List.cons_append, List.nil_append, scan.eq_2] at this ⊢
    rw [scan_name _ _ _ (by decide), scan_dot]
    exact this
  · have := base [['.'], "self".toList]
    simp only [Owner.toks, List.cons_append, List.nil_append, scan.eq_2] at this ⊢
    rw [scan_name _ _ _ (by decide), scan_dot]
    exact this

end Verif.Literal
