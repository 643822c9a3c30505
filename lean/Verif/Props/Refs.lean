import Verif.Spec.Refs
import Verif.Lemmas.Names
/-
C288-C292: commands, relative URLs, documents.
-/
namespace Verif.Refs
open Uri (urldefrag resolveFragment)
open Builder (acronyms humps underscore)

/-! ### C288: A command of the list is the one of its file -/

theorem acronyms_id {s : Str} (h : ∀ c ∈ s, c.isUpper = false) : acronyms s = s := by
  fun_induction acronyms s with
  | case1 a b c s hc ih => simp [h a (by simp)] at hc
  | case2 a b c s hc ih => rw [ih (fun x hx => h x (List.mem_cons_of_mem _ hx))]
  | case3 s _ => rfl

theorem humps_id {s : Str} (h : ∀ c ∈ s, c.isUpper = false) : humps s = s := by
  fun_induction humps s with
  | case1 a b s hc ih => simp [h b (by simp)] at hc
  | case2 a b s hc ih => rw [ih (fun x hx => h x (List.mem_cons_of_mem _ hx))]
  | case3 s _ => rfl

theorem val_lower {c : Char} (h : c.isUpper = true) : c.toLower.val.toNat = c.val.toNat + 32 := by
  have h' : c.val ≥ 'A'.val ∧ c.val ≤ 'Z'.val := of_decide_eq_true h
  unfold Char.toLower
  rw [dif_pos h']
  have h2 : c.val.toNat ≤ 90 := UInt32.le_iff_toNat_le.1 h'.2
  show (c.val + 32).toNat = _
  rw [UInt32.toNat_add]
  show (c.val.toNat + 32) % _ = _
  omega

theorem upper_range {c : Char} (h : c.isUpper = true) : 65 ≤ c.val.toNat ∧ c.val.toNat ≤ 90 := by
  have h' : c.val ≥ 'A'.val ∧ c.val ≤ 'Z'.val := of_decide_eq_true h
  exact ⟨UInt32.le_iff_toNat_le.1 h'.1, UInt32.le_iff_toNat_le.1 h'.2⟩

theorem lower_of_not {c : Char} (h : c.isUpper = false) : c.toLower = c := by
  have h' : ¬ (c.val ≥ 'A'.val ∧ c.val ≤ 'Z'.val) := of_decide_eq_false h
  unfold Char.toLower
  rw [dif_neg h']

theorem toLower_upper {c : Char} (h : c.toLower = c) : c.isUpper = false := by
  cases hu : c.isUpper with
  | false => rfl
  | true =>
    have := val_lower hu
    rw [h] at this
    omega

theorem toLower_idem (c : Char) : c.toLower.toLower = c.toLower := by
  cases hu : c.isUpper with
  | false => rw [lower_of_not hu, lower_of_not hu]
  | true =>
    apply lower_of_not
    cases hv : c.toLower.isUpper with
    | false => rfl
    | true =>
      have h1 := val_lower hu
      have h2 := upper_range hu
      have h3 := upper_range hv
      omega

theorem toLower_dash {c : Char} (h : c ≠ '-') : c.toLower ≠ '-' := by
  cases hu : c.isUpper with
  | false => rw [lower_of_not hu]; exact h
  | true =>
    intro e
    have h1 := val_lower hu
    have h2 := upper_range hu
    rw [e] at h1
    have : '-'.val.toNat = 45 := rfl
    omega

theorem nameOf_fileOf (n : Str) : nameOf (fileOf n) = dasherize n := by
  unfold nameOf fileOf
  congr 1
  have h1 : ("cmd_".toList ++ n ++ ".py".toList).length - 3 = ("cmd_".toList ++ n).length := by simp
  rw [h1, List.take_left' rfl]
  show List.drop ("cmd_".toList).length ("cmd_".toList ++ n) = n
  rw [List.drop_left]

theorem mem_insertName (x y : Str) (l : List Str) : y ∈ insertName x l ↔ y = x ∨ y ∈ l := by
  induction l with
  | nil => simp [insertName]
  | cons z l ih =>
    rw [insertName]
    split
    · simp
    · simp only [List.mem_cons, ih]
      constructor
      · rintro (h | h | h)
        · exact Or.inr (Or.inl h)
        · exact Or.inl h
        · exact Or.inr (Or.inr h)
      · rintro (h | h | h)
        · exact Or.inr (Or.inl h)
        · exact Or.inl h
        · exact Or.inr (Or.inr h)

theorem mem_sortNames (y : Str) (l : List Str) : y ∈ sortNames l ↔ y ∈ l := by
  induction l with
  | nil => rfl
  | cons x l ih => rw [sortNames, List.foldr_cons, mem_insertName, List.mem_cons]; exact or_congr Iff.rfl ih

theorem insertName_sorted {x : Str} {l : List Str} (h : l.Pairwise (fun a b => Names.strLe a b = true)) :
    (insertName x l).Pairwise (fun a b => Names.strLe a b = true) := by
  induction l with
  | nil => simp [insertName]
  | cons z l ih =>
    rw [List.pairwise_cons] at h
    rw [insertName]
    split
    · rename_i hz
      refine List.pairwise_cons.2 ⟨?_, List.pairwise_cons.2 h⟩
      intro b hb
      rcases List.mem_cons.1 hb with rfl | hb
      · exact hz
      · exact Names.strLe_trans hz (h.1 b hb)
    · rename_i hz
      refine List.pairwise_cons.2 ⟨?_, ih h.2⟩
      intro b hb
      rcases (mem_insertName _ _ _).1 hb with rfl | hb
      · exact (Names.strLe_total b z).resolve_left hz
      · exact h.1 b hb

theorem sortNames_sorted (l : List Str) : (sortNames l).Pairwise (fun a b => Names.strLe a b = true) := by
  induction l with
  | nil => exact List.Pairwise.nil
  | cons x l ih => exact insertName_sorted ih

theorem count_insertName (x y : Str) (l : List Str) : (insertName x l).count y = (x :: l).count y := by
  induction l with
  | nil => rfl
  | cons z l ih =>
    rw [insertName]
    split
    · rfl
    · simp only [List.count_cons, ih]
      omega

theorem count_sortNames (y : Str) (l : List Str) : (sortNames l).count y = l.count y := by
  induction l with
  | nil => rfl
  | cons x l ih =>
    rw [sortNames, List.foldr_cons, count_insertName, List.count_cons, List.count_cons]
    exact congrArg (· + _) ih

theorem isCommand_fileOf (n : Str) : isCommand (fileOf n) = true := by
  have h1 : ".py".toList.isSuffixOf (fileOf n) = true := by
    rw [List.isSuffixOf_iff_suffix]; exact ⟨_, rfl⟩
  have h2 : "cmd_".toList.isPrefixOf (fileOf n) = true := by
    rw [List.isPrefixOf_iff_prefix]; exact ⟨_, (List.append_assoc _ _ _).symm⟩
  simp only [isCommand, h1, h2, Bool.and_self]

theorem fileOf_of_isCommand {f : Str} (h : isCommand f = true) : ∃ n, f = fileOf n := by
  simp only [isCommand, Bool.and_eq_true] at h
  obtain ⟨a, ha⟩ := List.isSuffixOf_iff_suffix.1 h.1
  obtain ⟨b, hb⟩ := List.isPrefixOf_iff_prefix.1 h.2
  have e : a ++ ".py".toList = "cmd_".toList ++ b := ha.trans hb.symm
  rcases List.append_eq_append_iff.1 e with ⟨c, h1, h2⟩ | ⟨c, h1, h2⟩
  · cases c with
    | nil =>
      rw [List.append_nil] at h1
      exact ⟨[], by rw [← ha, ← h1]; rfl⟩
    | cons x c =>
      exfalso
      have hx : x = '.' := (List.cons.inj h2).1.symm
      subst hx
      have : '.' ∈ "cmd_".toList := by rw [h1]; simp
      revert this; decide
  · exact ⟨c, by rw [← ha, h1]; rfl⟩

theorem underscore_dasherize {n : Str} (h : ∀ c ∈ n, c ≠ '-' ∧ c.toLower = c) : underscore (dasherize n) = n := by
  have hu : ∀ c ∈ dasherize n, c.isUpper = false := by
    intro c hc
    simp only [dasherize, List.mem_map] at hc
    obtain ⟨d, hd, rfl⟩ := hc
    split
    · decide
    · exact toLower_upper (h d hd).2
  unfold underscore
  rw [acronyms_id hu, humps_id hu, dasherize, List.map_map]
  conv => rhs; rw [← List.map_id n]
  apply List.map_congr_left
  intro c hc
  by_cases e : c = '_'
  · subst e; rfl
  · simp [e, (h c hc).1, (h c hc).2]

theorem underscore_chars (s : Str) : ∀ c ∈ underscore s, c ≠ '-' ∧ c.toLower = c := by
  intro c hc
  simp only [underscore, List.mem_map] at hc
  obtain ⟨d, _, rfl⟩ := hc
  split
  · decide
  · rename_i hd; exact ⟨toLower_dash hd, toLower_idem d⟩

/-- The command of a file is listed under its name with dashes; asking for it gives the file exactly if the name has no
capital letters, dashes or dots. -/
theorem C288_found_partial (files : List Str) (n : Str) (h : fileOf n ∈ files) :
    nameOf (fileOf n) ∈ listCommands files ∧ (Lower n → getCommand files (nameOf (fileOf n)) = some (fileOf n)) := by
  refine ⟨?_, fun hn => ?_⟩
  · unfold listCommands
    rw [mem_sortNames]
    exact List.mem_map.2 ⟨_, List.mem_filter.2 ⟨h, isCommand_fileOf n⟩, rfl⟩
  · rw [nameOf_fileOf]
    have e := underscore_dasherize (fun c hc => ⟨(hn c hc).1, (hn c hc).2.2⟩)
    have hd : '.' ∉ "cmd_".toList ++ n := by
      intro hm
      rcases List.mem_append.1 hm with hm | hm
      · revert hm; decide
      · exact (hn _ hm).2.1 rfl
    simp only [getCommand, e]
    rw [if_pos ⟨hd, h⟩]; rfl

/-- Otherwise it gives nothing, or another file. -/
theorem C288_other_violated (files : List Str) (n : Str) (hn : ¬ Lower n) :
    getCommand files (nameOf (fileOf n)) ≠ some (fileOf n) := by
  rw [nameOf_fileOf]
  intro h
  simp only [getCommand] at h
  split at h
  · rename_i hc
    have e : underscore (dasherize n) = n := by
      have := Option.some.inj h
      unfold fileOf at this
      exact List.append_cancel_left (List.append_cancel_right this)
    apply hn
    intro c hc'
    have h1 := underscore_chars (dasherize n) c (by rw [e]; exact hc')
    refine ⟨h1.1, ?_, h1.2⟩
    rintro rfl
    exact hc.1 (List.mem_append_right _ (by rw [e]; exact hc'))
  · cases h

theorem not_lower_of_upper {c : Char} (h : c.isUpper = true) : c.isLower = false ∧ c.isDigit = false ∧ c ≠ '-' ∧ c ≠ '.' := by
  have := upper_range h
  refine ⟨?_, ?_, ?_, ?_⟩
  · cases hl : c.isLower with
    | false => rfl
    | true =>
      simp only [Char.isLower, Bool.and_eq_true, decide_eq_true_eq] at hl
      have : 97 ≤ c.val.toNat := UInt32.le_iff_toNat_le.1 hl.1
      omega
  · cases hl : c.isDigit with
    | false => rfl
    | true =>
      simp only [Char.isDigit, Bool.and_eq_true, decide_eq_true_eq] at hl
      have : c.val.toNat ≤ 57 := UInt32.le_iff_toNat_le.1 hl.2
      omega
  · rintro rfl; revert h; decide
  · rintro rfl; revert h; decide

theorem not_upper_of_lower {c : Char} (h : c.isLower = true) : c.isUpper = false := by
  cases hu : c.isUpper with
  | false => rfl
  | true => rw [(not_lower_of_upper hu).1] at h; cases h

theorem lower_char {c : Char} (h : c.isLower = true) : c ≠ '-' ∧ c ≠ '.' ∧ c.toLower = c :=
  ⟨by rintro rfl; revert h; decide, by rintro rfl; revert h; decide, lower_of_not (not_upper_of_lower h)⟩

theorem acronyms_word (c : Char) {l : Str} (hl : ∀ x ∈ l, x.isLower = true) : acronyms (c :: l) = c :: l := by
  match l, hl with
  | [], _ => rfl
  | [x], _ => rfl
  | x :: y :: l, hl =>
    rw [acronyms, if_neg (by simp [not_upper_of_lower (hl x (by simp))]), acronyms_id]
    intro z hz
    exact not_upper_of_lower (hl z hz)

theorem acronyms_acronym {u c x : Char} {us l : Str} (hu : ∀ y ∈ u :: us, y.isUpper = true) (hc : c.isUpper = true)
    (hl : ∀ y ∈ x :: l, y.isLower = true) :
    acronyms (u :: us ++ c :: x :: l) = u :: us ++ '_' :: c :: x :: l := by
  induction us generalizing u with
  | nil =>
    rw [List.cons_append, List.nil_append, acronyms, if_pos ⟨hu u (by simp), hc, hl x (by simp)⟩, acronyms_word c hl]
    rfl
  | cons v us ih =>
    have h1 := ih (u := v) (fun y hy => hu y (List.mem_cons_of_mem _ hy))
    have hn : ∃ z r, us ++ c :: x :: l = z :: r ∧ z.isUpper = true := by
      cases us with
      | nil => exact ⟨c, _, rfl, hc⟩
      | cons w us => exact ⟨w, _, rfl, hu w (by simp)⟩
    obtain ⟨z, r, e, hz⟩ := hn
    simp only [List.cons_append] at h1 ⊢
    rw [e] at h1 ⊢
    rw [acronyms, if_neg (by simp [(not_lower_of_upper hz).1]), h1]

theorem humps_skip {a : Char} (l : Str) (h1 : a.isLower = false) (h2 : a.isDigit = false) : humps (a :: l) = a :: humps l := by
  cases l with
  | nil => rfl
  | cons b l => rw [humps, if_neg (by simp [h1, h2])]

theorem humps_uppers {us l : Str} (hu : ∀ y ∈ us, y.isUpper = true) : humps (us ++ l) = us ++ humps l := by
  induction us with
  | nil => rfl
  | cons u us ih =>
    have h := not_lower_of_upper (hu u (by simp))
    rw [List.cons_append, humps_skip _ h.1 h.2.1, ih (fun y hy => hu y (List.mem_cons_of_mem _ hy))]
    rfl

/-- A name of an acronym and a capitalised word, as classes are named, leads to the file of the two with an underscore
between. -/
theorem C288_camel_partial (files : List Str) (u c x : Char) (us l : Str) (hu : ∀ y ∈ u :: us, y.isUpper = true)
    (hc : c.isUpper = true) (hl : ∀ y ∈ x :: l, y.isLower = true)
    (h : fileOf ((u :: us).map Char.toLower ++ '_' :: c.toLower :: x :: l) ∈ files) :
    getCommand files (u :: us ++ c :: x :: l) = some (fileOf ((u :: us).map Char.toLower ++ '_' :: c.toLower :: x :: l)) := by
  have hx : humps (x :: l) = x :: l := humps_id fun y hy => not_upper_of_lower (hl y hy)
  have e : underscore (u :: us ++ c :: x :: l) = (u :: us).map Char.toLower ++ '_' :: c.toLower :: x :: l := by
    have hn := not_lower_of_upper hc
    unfold underscore
    rw [acronyms_acronym hu hc hl, humps_uppers hu, humps_skip _ (by decide) (by decide), humps_skip _ hn.1 hn.2.1, hx]
    rw [List.map_append]
    congr 1
    · apply List.map_congr_left
      intro y hy
      rw [if_neg (not_lower_of_upper (hu y hy)).2.2.1]
    · rw [List.map_cons, List.map_cons, if_neg hn.2.2.1]
      congr 2
      conv => rhs; rw [← List.map_id (x :: l)]
      apply List.map_congr_left
      intro y hy
      have := lower_char (hl y hy)
      rw [if_neg this.1, this.2.2]; rfl
  have hd : '.' ∉ "cmd_".toList ++ ((u :: us).map Char.toLower ++ '_' :: c.toLower :: x :: l) := by
    have hup : ∀ y : Char, y.isUpper = true → y.toLower ≠ '.' := by
      intro y hy e
      have h1 := val_lower hy
      have h2 := upper_range hy
      rw [e] at h1
      have : '.'.val.toNat = 46 := rfl
      omega
    intro hm
    rcases List.mem_append.1 hm with hm | hm
    · revert hm; decide
    · rcases List.mem_append.1 hm with hm | hm
      · obtain ⟨y, hy, e⟩ := List.mem_map.1 hm
        exact hup y (hu y hy) e
      · rcases List.mem_cons.1 hm with hm | hm
        · revert hm; decide
        · rcases List.mem_cons.1 hm with hm | hm
          · exact hup c hc hm.symm
          · exact (lower_char (hl _ hm)).2.1 rfl
  simp only [getCommand, e]
  rw [if_pos ⟨hd, h⟩]; rfl

example : getCommand ["cmd_html_parser.py".toList] "HTMLParser".toList = some "cmd_html_parser.py".toList := by decide +kernel
example : listCommands ["cmd_b.py".toList, "x.py".toList, "cmd_a_c.py".toList] = ["a-c".toList, "b".toList] := by
  decide +kernel
example : getCommand ["cmd_b.py".toList, "cmd_a_c.py".toList] "a-c".toList = some "cmd_a_c.py".toList := by decide +kernel
example : getCommand ["cmd_Build.py".toList] (nameOf "cmd_Build.py".toList) = none := by decide +kernel
example : Lower "a_c".toList := by unfold Lower; decide
example : ¬ Lower "Build".toList := by unfold Lower; decide

/-! ### C289: The list of commands has each command once, in order -/

/-- The list is sorted, and lists the files of commands. -/
theorem C289_sorted_partial (files : List Str) :
    (listCommands files).Pairwise (fun a b => Names.strLe a b = true) ∧
      (∀ c, c ∈ listCommands files ↔ ∃ n, fileOf n ∈ files ∧ c = dasherize n) := by
  constructor
  · exact sortNames_sorted _
  · intro c
    unfold listCommands
    rw [mem_sortNames, List.mem_map]
    constructor
    · rintro ⟨f, hf, rfl⟩
      obtain ⟨hf, hc⟩ := List.mem_filter.1 hf
      obtain ⟨n, rfl⟩ := fileOf_of_isCommand hc
      exact ⟨n, hf, nameOf_fileOf n⟩
    · rintro ⟨n, hf, rfl⟩
      exact ⟨_, List.mem_filter.2 ⟨hf, isCommand_fileOf n⟩, nameOf_fileOf n⟩

theorem dasherize_inj {a b : Str} (ha : '-' ∉ a) (hb : '-' ∉ b) (h : dasherize a = dasherize b) : a = b := by
  induction a generalizing b with
  | nil => cases b <;> simp_all [dasherize]
  | cons x a ih =>
    cases b with
    | nil => simp [dasherize] at h
    | cons y b =>
      simp only [dasherize, List.map_cons, List.cons.injEq] at h
      simp only [List.mem_cons, not_or] at ha hb
      rw [ih ha.2 hb.2 h.2]
      congr 1
      have := h.1
      split at this <;> split at this <;> simp_all

/-- Files without dashes have different commands. -/
theorem C289_distinct_partial (m n : Str) (hm : '-' ∉ m) (hn : '-' ∉ n) (h : m ≠ n) :
    nameOf (fileOf m) ≠ nameOf (fileOf n) := by
  rw [nameOf_fileOf, nameOf_fileOf]
  exact fun e => h (dasherize_inj hm hn e)

/-- With dashes two files have one command, which is listed twice. -/
theorem C289_twice_violated (files : List Str) (a b : Str) (h : fileOf (a ++ '-' :: b) ∈ files)
    (h' : fileOf (a ++ '_' :: b) ∈ files) :
    2 ≤ (listCommands files).count (dasherize (a ++ '-' :: b)) := by
  unfold listCommands
  rw [count_sortNames]
  have hd : dasherize (a ++ '_' :: b) = dasherize (a ++ '-' :: b) := by simp [dasherize]
  have key : ∀ l : List Str, ∀ f g : Str, f ≠ g → f ∈ l → g ∈ l → isCommand f = true → isCommand g = true → nameOf f = nameOf g →
      2 ≤ ((l.filter isCommand).map nameOf).count (nameOf f) := by
    intro l f g hne hf hg cf cg e
    obtain ⟨l1, l2, rfl⟩ := List.append_of_mem hf
    rw [List.filter_append, List.map_append, List.count_append, List.filter_cons_of_pos cf, List.map_cons, List.count_cons_self]
    have hg' : g ∈ l1 ∨ g ∈ l2 := by
      rcases List.mem_append.1 hg with hg | hg
      · exact Or.inl hg
      · rcases List.mem_cons.1 hg with hg | hg
        · exact absurd hg.symm hne
        · exact Or.inr hg
    rcases hg' with hg | hg
    · have : 0 < ((l1.filter isCommand).map nameOf).count (nameOf f) :=
        List.count_pos_iff.2 (List.mem_map.2 ⟨g, List.mem_filter.2 ⟨hg, cg⟩, e.symm⟩)
      omega
    · have : 0 < ((l2.filter isCommand).map nameOf).count (nameOf f) :=
        List.count_pos_iff.2 (List.mem_map.2 ⟨g, List.mem_filter.2 ⟨hg, cg⟩, e.symm⟩)
      omega
  have := key files _ _ (fun e => ?_) h h' (isCommand_fileOf _) (isCommand_fileOf _)
    (by rw [nameOf_fileOf, nameOf_fileOf, hd])
  · rw [nameOf_fileOf] at this; exact this
  · have e := List.append_cancel_left (List.append_cancel_right e)
    have := (List.cons.inj (List.append_cancel_left e)).1
    revert this; decide

example : listCommands ["cmd_a-c.py".toList, "x.py".toList, "cmd_a_c.py".toList] = ["a-c".toList, "a-c".toList] := by
  decide +kernel
example : listCommands ["cmd_c.py".toList, "cmd_a.pyc".toList, "cmd_a_c.py".toList] = ["a-c".toList, "c".toList] := by
  decide +kernel
example : '-' ∉ "a_c".toList ∧ '-' ∉ "ac".toList ∧ "a_c".toList ≠ "ac".toList := by decide

/-! ### C290: A relative URL leads from the base to the target -/

theorem normSegs_proper (acc l : List Str) (h : ∀ s ∈ l, Proper s) : normSegs acc l = acc.reverse ++ l := by
  induction l generalizing acc with
  | nil => simp [normSegs]
  | cons s l ih =>
    obtain ⟨h1, h2, h3⟩ := h s (by simp)
    rw [normSegs, if_neg (by simp [h1, h2]), if_neg h3, ih _ (fun x hx => h x (List.mem_cons_of_mem _ hx))]
    simp

theorem splitCommon_append (c a b : List Str) : splitCommon (c ++ a) (c ++ b) = splitCommon a b := by
  induction c with
  | nil => rfl
  | cons x c ih => simp [splitCommon, ih]

theorem splitCommon_spec (a b : List Str) : ∃ c, a = c ++ (splitCommon a b).1 ∧ b = c ++ (splitCommon a b).2 := by
  fun_induction splitCommon a b with
  | case1 as a bs ih =>
    obtain ⟨c, h1, h2⟩ := ih
    exact ⟨a :: c, congrArg (a :: ·) h1, congrArg (a :: ·) h2⟩
  | case2 => exact ⟨[], rfl, rfl⟩
  | case3 => exact ⟨[], rfl, rfl⟩

theorem removeDots_proper (acc l : List Str) (h : ∀ s ∈ l, Proper s) : removeDots acc l = acc ++ l := by
  induction l generalizing acc with
  | nil => simp [removeDots]
  | cons s l ih =>
    obtain ⟨h1, h2, h3⟩ := h s (by simp)
    cases l with
    | nil => simp [removeDots, h2, h3]
    | cons t l =>
      rw [removeDots, if_neg h2, if_neg h3, ih _ (fun x hx => h x (List.mem_cons_of_mem _ hx))]
      · simp
      · simp

theorem removeDots_cons (acc l : List Str) (s : Str) (h : Proper s) (hl : l ≠ []) :
    removeDots acc (s :: l) = removeDots (acc ++ [s]) l := by
  cases l with
  | nil => exact absurd rfl hl
  | cons t l => rw [removeDots, if_neg h.2.1, if_neg h.2.2]; simp

theorem removeDots_up (acc l : List Str) (hl : l ≠ []) : removeDots acc (['.', '.'] :: l) = removeDots acc.dropLast l := by
  cases l with
  | nil => exact absurd rfl hl
  | cons t l => rw [removeDots, if_neg (by decide), if_pos rfl]; simp

theorem removeDots_down (acc d l : List Str) (hd : ∀ s ∈ d, Proper s) (hl : l ≠ []) :
    removeDots acc (d ++ l) = removeDots (acc ++ d) l := by
  induction d generalizing acc with
  | nil => simp
  | cons s d ih =>
    rw [List.cons_append, removeDots_cons _ _ _ (hd s (by simp)) (by simp [hl]),
      ih _ (fun x hx => hd x (List.mem_cons_of_mem _ hx))]
    simp

theorem removeDots_ups (acc d l : List Str) (hl : l ≠ []) :
    removeDots (acc ++ d) (List.replicate d.length ['.', '.'] ++ l) = removeDots acc l := by
  induction h : d.length generalizing d with
  | zero =>
    have : d = [] := List.length_eq_zero_iff.1 h
    subst this; simp
  | succ n ih =>
    have hne : d ≠ [] := by rintro rfl; simp at h
    rw [List.replicate_succ, List.cons_append, removeDots_up _ _ (by simp [hl]), List.dropLast_append_of_ne_nil hne]
    have := ih d.dropLast (by simp [h])
    exact this

/-- So it is between paths without dots, empty segments, queries and fragments, if the target is not a folder the base is
in. -/
theorem C290_leads_partial (cwd dir t : List Str) (file netloc : Str) (hc : ∀ s ∈ cwd, Proper s) (hd : ∀ s ∈ dir, Proper s)
    (ht : ∀ s ∈ t, Proper s) (hp : ¬ t <+: dir) :
    ∃ rel, relativeUrl cwd ⟨netloc, t, [], []⟩ ⟨netloc, dir ++ [file], [], []⟩ = .ok rel ∧ follow (dir ++ [file]) rel = t := by
  obtain ⟨c, h1, h2⟩ := splitCommon_spec dir t
  have hne : (splitCommon dir t).2 ≠ [] := by
    intro e
    rw [e, List.append_nil] at h2
    exact hp ⟨_, by rw [h2]; exact h1.symm⟩
  refine ⟨_, by rw [relativeUrl, if_neg (by simp)], ?_⟩
  simp only [follow, List.dropLast_concat, relpath]
  have n1 : normSegs [] (cwd ++ dir) = cwd ++ dir := by
    rw [normSegs_proper _ _ (by intro s hs; rcases List.mem_append.1 hs with h | h; exact hc s h; exact hd s h)]; rfl
  have n2 : normSegs [] (cwd ++ t) = cwd ++ t := by
    rw [normSegs_proper _ _ (by intro s hs; rcases List.mem_append.1 hs with h | h; exact hc s h; exact ht s h)]; rfl
  rw [n1, n2, splitCommon_append]
  rw [if_neg (by simp [hne])]
  have hd' := hd
  generalize hr : splitCommon dir t = r at *
  obtain ⟨a, b⟩ := r
  simp only at h1 h2 hne ⊢
  rw [removeDots_down _ _ _ hd (by simp [hne]), List.nil_append, h1, removeDots_ups _ _ _ hne]
  have hcp : ∀ s ∈ b, Proper s := fun s hs => ht s (by rw [h2]; exact List.mem_append_right _ hs)
  rw [removeDots_proper _ _ hcp]
  exact h2.symm

theorem normSegs_congr {acc a b c : List Str} (h : ∀ acc, normSegs acc b = normSegs acc c) :
    normSegs acc (a ++ b) = normSegs acc (a ++ c) := by
  induction a generalizing acc with
  | nil => exact h acc
  | cons s a ih => simp only [List.cons_append, normSegs, ih]

theorem normSegs_dot (acc l : List Str) : normSegs acc (['.'] :: l) = normSegs acc l := by
  rw [normSegs, if_pos (Or.inr rfl)]

theorem normSegs_up (acc l : List Str) (s : Str) (h : Proper s) : normSegs acc (s :: ['.', '.'] :: l) = normSegs acc l := by
  rw [normSegs, if_neg (by simp [h.1, h.2.1]), if_neg h.2.2, normSegs, if_neg (by decide), if_pos rfl, List.tail_cons]

/-- Dots in the path of the target, and segments taken back by two dots, do not matter. -/
theorem C290_dots (cwd a b : List Str) (s n q f : Str) (base : Url) (h : Proper s) :
    relativeUrl cwd ⟨n, a ++ ['.'] :: b, q, f⟩ base = relativeUrl cwd ⟨n, a ++ b, q, f⟩ base ∧
      relativeUrl cwd ⟨n, a ++ s :: ['.', '.'] :: b, q, f⟩ base = relativeUrl cwd ⟨n, a ++ b, q, f⟩ base := by
  simp only [relativeUrl, relpath, ← List.append_assoc]
  rw [normSegs_congr (b := ['.'] :: b) (c := b) (fun acc => normSegs_dot acc b),
    normSegs_congr (b := s :: ['.', '.'] :: b) (c := b) (fun acc => normSegs_up acc b s h)]
  exact ⟨rfl, rfl⟩

/-- Two URLs of different hosts are refused. -/
theorem C290_hosts (cwd : List Str) (target base : Url) (h : base.netloc ≠ target.netloc) :
    relativeUrl cwd target base = .error .valueError := by rw [relativeUrl, if_pos h]

/-- The query, the fragment and a slash at the end of the target are lost. -/
theorem C290_lost_violated (cwd : List Str) (target base : Url) (q f : Str) :
    relativeUrl cwd { target with query := q, fragment := f } base = relativeUrl cwd target base ∧
      relativeUrl cwd { target with path := target.path ++ [[]] } base = relativeUrl cwd target base := by
  refine ⟨rfl, ?_⟩
  have h : ∀ acc l : List Str, normSegs acc (l ++ [[]]) = normSegs acc l := by
    intro acc l
    induction l generalizing acc with
    | nil => simp [normSegs]
    | cons s l ih => simp only [List.cons_append, normSegs, ih]
  simp only [relativeUrl, relpath, ← List.append_assoc, h]

/-- If the target is a folder the base is in, the relative URL leads to it with a slash behind. -/
theorem C290_folder_violated (cwd t d : List Str) (file netloc : Str) (hc : ∀ s ∈ cwd, Proper s) (hd : ∀ s ∈ d, Proper s)
    (ht : ∀ s ∈ t, Proper s) :
    ∃ rel, relativeUrl cwd ⟨netloc, t, [], []⟩ ⟨netloc, t ++ d ++ [file], [], []⟩ = .ok rel ∧
      follow (t ++ d ++ [file]) rel = t ++ [[]] := by
  refine ⟨_, by rw [relativeUrl, if_neg (by simp)], ?_⟩
  have htd : ∀ s ∈ t ++ d, Proper s := by
    intro s hs; rcases List.mem_append.1 hs with h | h; exact ht s h; exact hd s h
  have n1 : normSegs [] (cwd ++ (t ++ d)) = cwd ++ (t ++ d) := by
    rw [normSegs_proper _ _ (by intro s hs; rcases List.mem_append.1 hs with h | h; exact hc s h; exact htd s h)]; rfl
  have n2 : normSegs [] (cwd ++ t) = cwd ++ t := by
    rw [normSegs_proper _ _ (by intro s hs; rcases List.mem_append.1 hs with h | h; exact hc s h; exact ht s h)]; rfl
  have e : splitCommon (t ++ d) t = (d, []) := by
    have := splitCommon_append t d []
    rw [List.append_nil] at this
    rw [this]
    cases d <;> rfl
  simp only [follow, List.dropLast_concat, relpath, n1, n2, splitCommon_append, e, List.append_nil]
  cases d with
  | nil =>
    simp only [List.length_nil, List.replicate_zero, if_true, List.append_nil]
    rw [removeDots_down _ _ _ ht (by simp)]
    simp [removeDots]
  | cons x d =>
    rw [if_neg (by simp [List.replicate_succ]), removeDots_down _ _ _ htd (by simp [List.replicate_succ]), List.nil_append,
      List.length_cons, List.replicate_succ']
    have := removeDots_ups (t ++ [x]) d [['.', '.']] (by simp)
    rw [List.append_assoc, List.singleton_append] at this
    rw [this, removeDots, if_neg (by decide), if_pos rfl, List.dropLast_concat]

example : relativeUrl [] ⟨"h".toList, ["a".toList, "c".toList], [], []⟩ ⟨"h".toList, ["a".toList, "b".toList, "x".toList], [], []⟩ =
    .ok ["..".toList, "c".toList] := by decide +kernel
example : follow ["a".toList, "b".toList, "x".toList] ["..".toList, "c".toList] = ["a".toList, "c".toList] := by decide +kernel
example : relativeUrl [] ⟨"h".toList, ["a".toList], [], []⟩ ⟨"h".toList, ["a".toList, "b".toList, "x".toList], [], []⟩ =
    .ok ["..".toList] ∧ follow ["a".toList, "b".toList, "x".toList] ["..".toList] = ["a".toList, []] := by decide +kernel
example : relativeUrl [] ⟨"h".toList, ["a".toList, "..".toList, ".".toList, "c".toList], [], []⟩
    ⟨"h".toList, ["b".toList, "x".toList], [], []⟩ = .ok ["..".toList, "c".toList] := by decide +kernel
example : ¬ ["a".toList, "c".toList] <+: ["a".toList, "b".toList] := by decide

/-! ### C291: What cannot be resolved is refused -/

/-- The fragment of a registered document is resolved, or refused by InvalidValue. -/
theorem C291_registered_partial (norm unq : Str → Str) (docs : AList Str Val) (value : Str) (doc : Val)
    (h : docs.get? (norm (urldefrag value).1) = some doc) :
    uriResolve norm unq docs value = resolveFragment unq doc (urldefrag value).2 := by
  simp only [uriResolve, h]
  split
  · rename_i e; rw [e]; rfl
  · rfl

/-- A document that is not registered is None. -/
theorem C291_unknown_violated (norm unq : Str → Str) (docs : AList Str Val) (value : Str)
    (h : docs.get? (norm (urldefrag value).1) = none) : uriResolve norm unq docs value = .ok .none := by
  simp only [uriResolve, h]

example : uriResolve id id [("u".toList, .dict [("a".toList, .int 1)])] "u#/a".toList = .ok (.int 1) := by decide +kernel
example : uriResolve id id [("u".toList, .dict [("a".toList, .int 1)])] "u#/b".toList = .error .invalidValue := by
  decide +kernel
example : uriResolve id id [] "u#/b".toList = .ok .none := by decide +kernel

/-! ### C292: A document that is unloaded is no longer registered -/

/-- Loading registers the content under its identifier, and nothing else; unloading clears the content. -/
theorem C292_load_partial (norm : Str → Str) (d : Document) (c : AList Str Val) (docs : AList Str Val) (i u : Str)
    (hc : d.content = some c) (hi : c.get? "$id".toList = some (.str i)) (hne : i ≠ []) :
    (load norm d docs).get? (norm i) = some (.dict c) ∧
      (u ≠ norm i → (load norm d docs).get? u = docs.get? u) ∧ (unload norm d docs).1.content = none := by
  have hd : docId d = some i := by simp only [docId, hc, hi]
  simp only [load, hd, if_neg hne, hc, Option.getD_some]
  exact ⟨AList.get?_set_self _ _ _, fun h => AList.get?_set_ne _ _ (Ne.symm h), rfl⟩

/-- If the document has this identifier as well, unloading takes the registration back. -/
theorem C292_unload_partial (norm : Str → Str) (d : Document) (docs : AList Str Val) (i : Str) (hne : i ≠ [])
    (hid : d.id = some i) :
    (unload norm d (load norm d docs)).2.get? (norm i) = none := by
  simp only [unload, hid, if_neg hne]
  rw [AList.get?_erase, if_pos rfl]

/-- Otherwise, and if the document was given no identifier, the content stays registered. -/
theorem C292_stays_violated (norm : Str → Str) (d : Document) (c : AList Str Val) (docs : AList Str Val) (i : Str)
    (hc : d.content = some c) (hi : c.get? "$id".toList = some (.str i)) (hne : i ≠ [])
    (hid : ∀ j, d.id = some j → norm j ≠ norm i) :
    (unload norm d (load norm d docs)).2.get? (norm i) = some (.dict c) := by
  have h := (C292_load_partial norm d c docs i [] hc hi hne).1
  simp only [unload]
  split
  · rename_i j hj
    split
    · exact h
    · rw [AList.get?_erase, if_neg (fun e => hid j hj e.symm)]; exact h
  · exact h

example : let d : Document := ⟨some "u".toList, some [("$id".toList, .str "u".toList)]⟩
    load id d [] = [("u".toList, .dict [("$id".toList, .str "u".toList)])] ∧ (unload id d (load id d [])).2 = [] := by
  decide +kernel
example : let d : Document := ⟨none, some [("$id".toList, .str "u".toList)]⟩
    (unload id d (load id d [])).2 = [("u".toList, .dict [("$id".toList, .str "u".toList)])] ∧ d.id = none := by decide +kernel

end Verif.Refs
