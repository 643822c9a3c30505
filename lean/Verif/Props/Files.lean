import Verif.Lemmas.Files
/-
C78, C105, C106: writing and appending to files.
-/
namespace Verif.Files
variable {κ : Type}

/-! ### C78 -/

/-- After a successful write the file reads as the text written, and no other file has changed. -/
theorem C78_write (codecs : κ → Option Codec) (loc : Codec) (sv : Saver κ) (c : Codec) (hb : sv.binary = false)
    (hc : codecs sv.charset = some c) (hl : Lossless c) (ob : Option Bool) (fs fs' : FS) (p : Path) (s : Str)
    (h : writeFile codecs loc sv ⟨ob, none⟩ fs p (.text s) = (fs', .ok ())) :
    fs'.text? c p = some s ∧ OnlyFile p fs fs' := by
  rcases writeFile_dirs h with ⟨e, -, he, -⟩ | ⟨fs1, hf, hd, -, -, h⟩
  · simp at he
  · have hopen : openAndWrite codecs loc sv ⟨ob, none⟩ true fs1 p (.text s) = (fs', .ok ()) →
        fs'.text? c p = some s ∧ OnlyFile p fs fs' := by
      intro h
      obtain ⟨c', x, h1, h2, h3, h4, h5, -⟩ := openAndWrite_text hb h
      simp only [Option.getD_none, hc, Option.some.injEq] at h1
      subst h1
      refine ⟨?_, fun q hq => by rw [h4 q hq, hf], fun d hdd => by rw [h5]; exact hd d hdd⟩
      simp [FS.text?, h3, hl s x h2]
    split at h
    · split at h
      · simp at h
      · rename_i content hr
        split at h
        · rename_i hv
          simp only [Prod.mk.injEq, and_true] at h
          subst hv h
          obtain ⟨-, -, c', hc', ht⟩ := readFile_text hr
          rw [hc] at hc'; simp at hc'; subst hc'
          exact ⟨ht, fun q _ => by rw [hf], hd⟩
        · exact hopen h.symm
    · exact hopen h.symm

/-- The same for a saver of bytes. -/
theorem C78_writeBytes (codecs : κ → Option Codec) (loc : Codec) (sv : Saver κ) (o : Opts κ) (fs fs' : FS) (p : Path)
    (b : Bytes) (h : writeFile codecs loc sv o fs p (.bytes b) = (fs', .ok ())) :
    AList.get? fs'.files p = some b ∧ OnlyFile p fs fs' := by
  rcases writeFile_dirs h with ⟨e, -, he, -⟩ | ⟨fs1, hf, hd, -, -, h⟩
  · simp at he
  · have hopen : openAndWrite codecs loc sv o true fs1 p (.bytes b) = (fs', .ok ()) →
        AList.get? fs'.files p = some b ∧ OnlyFile p fs fs' := by
      intro h
      obtain ⟨h3, h4, h5, -⟩ := openAndWrite_bytes h
      exact ⟨by simpa using h3, fun q hq => by rw [h4 q hq, hf], fun d hdd => by rw [h5]; exact hd d hdd⟩
    split at h
    · split at h
      · simp at h
      · rename_i content hr
        split at h
        · rename_i hv
          simp only [Prod.mk.injEq, and_true] at h
          subst hv h
          exact ⟨(readFile_bytes hr).2, fun q _ => by rw [hf], hd⟩
        · exact hopen h.symm
    · exact hopen h.symm

/-- Writing what the file already holds changes nothing, and does not even open the file for writing; so a
write repeated does nothing the second time. -/
theorem C78_noRewrite (codecs : κ → Option Codec) (loc : Codec) (sv : Saver κ) (c : Codec) (hb : sv.binary = false)
    (hc : codecs sv.charset = some c) (o o' : Opts κ) (ob : Option Bool) (fs : FS) (p : Path) (s : Str) :
    (fs.text? c p = some s → fs.exists (parent p) = true → fs.isDir p = false →
      writeFile codecs loc sv o fs p (.text s) = (fs, .ok ())) ∧
    (∀ fs', Lossless c → fs.isDir (parent p) = true → writeFile codecs loc sv ⟨ob, none⟩ fs p (.text s) = (fs', .ok ()) →
      writeFile codecs loc sv o' fs' p (.text s) = (fs', .ok ())) := by
  have key : ∀ (o : Opts κ) (fs : FS), fs.text? c p = some s → fs.exists (parent p) = true → fs.isDir p = false →
      writeFile codecs loc sv o fs p (.text s) = (fs, .ok ()) := by
    intro o fs ht hp hd
    simp only [FS.text?, Option.bind_eq_some_iff] at ht
    obtain ⟨b, hb1, hb2⟩ := ht
    have he : fs.exists p = true := by simp [FS.exists, FS.isFile, AList.contains, hb1]
    have hr : readFile codecs sv fs p = .ok (.text s) := by
      simp [readFile, hd, hb1, hb, hc, hb2]
    simp [writeFile, hp, he, hr]
  refine ⟨key o fs, fun fs' hl hp h => ?_⟩
  obtain ⟨h1, h2⟩ := C78_write codecs loc sv c hb hc hl ob fs fs' p s h
  refine key o' fs' h1 ?_ ?_
  · have := h2.2 _ (by simpa [FS.isDir] using hp)
    simp [FS.exists, FS.isDir, this]
  · rcases writeFile_dirs h with ⟨e, -, he, -⟩ | ⟨fs1, hf, hd, -, -, h⟩
    · simp at he
    · have hopen : openAndWrite codecs loc sv ⟨ob, none⟩ true fs1 p (.text s) = (fs', .ok ()) → fs'.isDir p = false := by
        intro h
        obtain ⟨c', x, -, -, -, -, h5, h6, -⟩ := openAndWrite_text hb h
        simpa [FS.isDir, h5] using h6
      split at h
      · split at h
        · simp at h
        · rename_i content hr
          split at h
          · rename_i hv
            simp only [Prod.mk.injEq, and_true] at h
            subst hv h
            exact (readFile_text hr).2.1
          · exact hopen h.symm
      · exact hopen h.symm

/-- A successful append adds the text at the end of what was there, in the same encoding. -/
theorem C78_append (codecs : κ → Option Codec) (loc : Codec) (sv : Saver κ) (c : Codec) (hb : sv.binary = false)
    (hc : codecs sv.charset = some c) (ha : Appends c) (ob : Option Bool) (fs fs' : FS) (p : Path) (s t : Str)
    (ht : fs.text? c p = some t) (h : appendFile codecs loc sv ⟨ob, none⟩ fs p (.text s) = (fs', .ok ())) :
    fs'.text? c p = some (t ++ s) ∧ OnlyFile p fs fs' := by
  unfold appendFile at h
  split at h
  · simp at h
  · obtain ⟨c', x, h1, h2, h3, h4, h5, -⟩ := openAndWrite_text hb h
    simp only [Option.getD_none, hc, Option.some.injEq] at h1
    subst h1
    simp only [FS.text?, Option.bind_eq_some_iff] at ht
    obtain ⟨b, hb1, hb2⟩ := ht
    refine ⟨?_, fun q hq => h4 q hq, fun d hd => by rw [h5]; exact hd⟩
    simp only [hb1] at h3
    simp only [FS.text?, h3]
    exact ha b t s x hb2 h2

/-- Bytes are added at the end of the bytes that were there. -/
theorem C78_appendBytes (codecs : κ → Option Codec) (loc : Codec) (sv : Saver κ) (o : Opts κ) (fs fs' : FS) (p : Path)
    (b : Bytes) (h : appendFile codecs loc sv o fs p (.bytes b) = (fs', .ok ())) :
    ∃ a, AList.get? fs.files p = some a ∧ AList.get? fs'.files p = some (a ++ b) ∧ OnlyFile p fs fs' := by
  unfold appendFile at h
  split at h
  · simp at h
  · rename_i hf
    obtain ⟨h3, h4, h5, -⟩ := openAndWrite_bytes h
    simp only [FS.isFile, AList.contains, Bool.not_eq_true', Bool.not_eq_false, Option.isSome_iff_exists] at hf
    obtain ⟨a, ha⟩ := hf
    exact ⟨a, ha, by simpa [ha] using h3, fun q hq => h4 q hq, fun d hd => by rw [h5]; exact hd⟩

/-- Any sequence of writes and appends, on any files, leaves in each file the last text written followed by
the later appends. -/
theorem C78_history (codecs : κ → Option Codec) (loc : Codec) (sv : Saver κ) (c : Codec) (hb : sv.binary = false)
    (hc : codecs sv.charset = some c) (hl : Lossless c) (ha : Appends c) (fs fs' : FS) (ops : List Op)
    (h : Run codecs loc sv fs ops fs') (p : Path) (t : Str) (he : expected p (fs.text? c p) ops = some t) :
    fs'.text? c p = some t := by
  have gen : ∀ x, (∀ y, x = some y → fs.text? c p = some y) → expected p x ops = some t → fs'.text? c p = some t := by
    induction h with
    | nil fs => intro x hx he; exact hx t he
    | write fs fs1 fs2 q s ops h r ih =>
      obtain ⟨h1, h2⟩ := C78_write codecs loc sv c hb hc hl none fs fs1 q s h
      intro x hx hex
      rw [expected] at hex
      by_cases e : q = p
      · subst e
        rw [if_pos rfl] at hex
        exact ih (by rw [h1]; exact hex) _ (by intro y hy; rw [h1]; exact hy) hex
      · rw [if_neg e] at hex
        have hsame : fs1.text? c p = fs.text? c p := by simp only [FS.text?, h2.1 p (Ne.symm e)]
        refine ih ?_ x (by rw [hsame]; exact hx) hex
        rw [hsame]
        rw [expected, if_neg e] at he
        exact he
    | append fs fs1 fs2 q s ops h r ih =>
      intro x hx hex
      rw [expected] at hex he
      by_cases e : q = p
      · subst e
        rw [if_pos rfl] at hex he
        cases x with
        | none =>
          -- an append to a file without expected text: only a later write gives one
          refine ih ?_ _ ?_ hex
          · cases hx' : fs.text? c q with
            | none =>
              rw [hx'] at he
              have : ∀ z, expected q none ops = some t → expected q z ops = some t := by
                clear ih r h he hex hx hx'
                intro z
                induction ops generalizing z with
                | nil => intro h; simp [expected] at h
                | cons o ops ih =>
                  cases o with
                  | write q' s' =>
                    simp only [expected]
                    split
                    · exact id
                    · exact ih z
                  | append q' s' =>
                    simp only [expected]
                    split
                    · intro h; exact ih _ (by simpa using h)
                    · exact ih z
              exact this _ (by simpa using he)
            | some y =>
              rw [(C78_append codecs loc sv c hb hc ha none fs fs1 q s y hx' h).1]
              rw [hx'] at he; exact he
          · intro y hy; simp at hy
        | some y =>
          have h1 := (C78_append codecs loc sv c hb hc ha none fs fs1 q s y (hx y rfl) h).1
          refine ih ?_ _ ?_ hex
          · rw [h1]; exact hex
          · intro z hz; rw [h1]; exact hz
      · rw [if_neg e] at hex he
        have hsame : fs1.text? c p = fs.text? c p := by
          unfold appendFile at h
          split at h
          · simp at h
          · obtain ⟨-, -, -, -, -, h4, -⟩ := openAndWrite_text hb h
            simp only [FS.text?, h4 p (Ne.symm e)]
        exact ih (by rw [hsame]; exact he) x (by rw [hsame]; exact hx) hex
  exact gen _ (fun y hy => hy) he

/-- When a write succeeds: the encoding is known and has the text, the path is not a directory, nothing on the
way to it is a file, and the file, if there is one, can be read. -/
theorem C78_succeeds (codecs : κ → Option Codec) (loc : Codec) (sv : Saver κ) (c : Codec) (hb : sv.binary = false)
    (hc : codecs sv.charset = some c) (ob : Option Bool) (fs : FS) (p : Path) (s : Str) (x : Bytes) (hx : c.enc s = some x)
    (hroot : [] ∈ fs.dirs) (hfiles : ∀ q, q <+: parent p → fs.isFile q = false)
    (hdir : p ∉ fs.dirs)
    (hread : fs.isFile p = true → ∃ t, fs.text? c p = some t) :
    ∃ fs', writeFile codecs loc sv ⟨ob, none⟩ fs p (.text s) = (fs', .ok ()) := by
  have hdirs : ∃ fs1, (if fs.exists (parent p) then .ok fs else makedirs fs (parent p)) = (.ok fs1 : Res FS) ∧
      fs1.files = fs.files ∧ parent p ∈ fs1.dirs ∧ p ∉ fs1.dirs := by
    by_cases he : fs.exists (parent p) = true
    · refine ⟨fs, by rw [if_pos he], rfl, ?_, hdir⟩
      simpa [FS.exists, hfiles _ (List.prefix_refl _), FS.isDir] using he
    · rw [if_neg he]
      have he' : fs.exists (parent p) = false := by simpa using he
      obtain ⟨fs1, h1⟩ := makedirsRev_ok (fs := fs) (parent p).reverse hroot (by simpa using he')
        (by simpa using hfiles)
      obtain ⟨a, b, -, d⟩ := makedirsRev_spec _ h1
      refine ⟨fs1, h1, a, by simpa using d, ?_⟩
      intro hm
      rcases makedirsRev_dirs _ h1 p hm with h | h
      · exact hdir h
      · simp only [List.length_reverse, parent, List.length_dropLast] at h
        have hp : p ≠ [] := fun e => hdir (e ▸ hroot)
        have : p.length ≠ 0 := by simpa using hp
        omega
  obtain ⟨fs1, h1, hf, hpd, hpn⟩ := hdirs
  have hopen : ∃ fs', openAndWrite codecs loc sv ⟨ob, none⟩ true fs1 p (.text s) = (fs', .ok ()) := by
    have e1 : fs1.isDir p = false := by simp [FS.isDir, hpn]
    have e2 : fs1.isDir (parent p) = true := by simp [FS.isDir, hpd]
    simp [openAndWrite, openW, e1, e2, hb, hc, hx]
  unfold writeFile
  rw [h1]
  simp only
  by_cases he : fs1.exists p = true
  · rw [if_pos he]
    have hfile : fs.isFile p = true := by
      have : fs1.isDir p = false := by simp [FS.isDir, hpn]
      simpa [FS.exists, this, FS.isFile, hf] using he
    obtain ⟨t, ht⟩ := hread hfile
    have hr : readFile codecs sv fs1 p = .ok (.text t) := by
      simp only [FS.text?, Option.bind_eq_some_iff] at ht
      obtain ⟨b, hb1, hb2⟩ := ht
      simp [readFile, FS.isDir, hpn, hf, hb1, hb, hc, hb2]
    rw [hr]
    simp only
    split
    · exact ⟨_, rfl⟩
    · exact hopen
  · rw [if_neg he]
    exact hopen

/-- Saving: the serialised value is returned, and is what the file holds (without `append`), or what follows what was
there (with `append`). -/
theorem C78_save (codecs : κ → Option Codec) (loc : Codec) (sv : Saver κ) (c : Codec) (hb : sv.binary = false)
    (hc : codecs sv.charset = some c) (hl : Lossless c) (ha : Appends c) (ob : Option Bool) (ser : Value → Res Value)
    (append : Bool) (fs fs' : FS) (p : Path) (v r : Value)
    (h : saveFile codecs loc sv ⟨ob, none⟩ ser append fs p v = (fs', .ok r)) :
    ser v = .ok r ∧ ∀ s, r = .text s → OnlyFile p fs fs' ∧
      (append = false → fs'.text? c p = some s) ∧
      (append = true → ∀ t, fs.text? c p = some t → fs'.text? c p = some (t ++ s)) := by
  unfold saveFile at h
  split at h
  · simp at h
  · rename_i w hw
    split at h
    · simp at h
    · rename_i fs1 u hu
      simp only [Prod.mk.injEq, Except.ok.injEq] at h
      obtain ⟨rfl, rfl⟩ := h
      refine ⟨hw, ?_⟩
      rintro s rfl
      cases append with
      | false =>
        obtain ⟨h1, h2⟩ := C78_write codecs loc sv c hb hc hl ob fs fs1 p s hu
        exact ⟨h2, fun _ => h1, fun h => by simp at h⟩
      | true =>
        refine ⟨?_, fun h => by simp at h, fun _ t ht => (C78_append codecs loc sv c hb hc ha ob fs fs1 p s t ht hu).1⟩
        simp only [if_true] at hu
        unfold appendFile at hu
        split at hu
        · simp at hu
        · obtain ⟨-, -, -, -, -, h4, h5, -⟩ := openAndWrite_text hb hu
          exact ⟨h4, fun d hd => by rw [h5]; exact hd⟩

/-- UTF-8, the default encoding of a saver, satisfies the hypotheses on encodings. -/
theorem C78_utf8 : Lossless utf8 ∧ Appends utf8 := ⟨utf8_lossless, utf8_appends⟩

/-- A saver in Latin-1 over a file system with the directory `d` and the file `d/a`: write, append, write the same
again, write in a directory to be created. -/
example :
    let run := fun (sv : Saver Unit) (fs : FS) (p : List String) (s : String) =>
      (writeFile (fun _ => some latin1) latin1 sv ⟨none, none⟩ fs (p.map (·.toList)) (.text s.toList)).1
    let sv : Saver Unit := ⟨false, ()⟩
    let fs0 : FS := ⟨[(["d".toList, "a".toList], [120])], [[], ["d".toList]], []⟩
    let fs1 := run sv fs0 ["d", "a"] "hé"
    let fs2 := (appendFile (fun _ => some latin1) latin1 sv ⟨none, none⟩ fs1 ["d".toList, "a".toList] (.text "!".toList)).1
    let fs3 := run sv fs2 ["d", "a"] "hé!"
    let fs4 := run sv fs3 ["e", "f", "b"] "new"
    fs1.files = [(["d".toList, "a".toList], [104, 233])] ∧ fs2.files = [(["d".toList, "a".toList], [104, 233, 33])] ∧
    fs3 = fs2 ∧ AList.get? fs4.files ["e".toList, "f".toList, "b".toList] = some [110, 101, 119] ∧
    fs4.dirs = [[], ["d".toList], ["e".toList], ["e".toList, "f".toList]] := by decide +kernel

/-- With a `charset` option, the content is compared in the encoding of the saver: the file is left in that
encoding although it should hold the text in the one asked for. -/
theorem C78_charset_violated : ¬ ∀ (codecs : Bool → Option Codec) (sv : Saver Bool) (k : Bool) (c : Codec)
    (fs fs' : FS) (p : Path) (s : Str), codecs k = some c → Lossless c →
    writeFile codecs utf8 sv ⟨none, some k⟩ fs p (.text s) = (fs', .ok ()) → fs'.text? c p = some s := by
  intro h
  -- a saver in Latin-1, over a file that holds "é" in Latin-1, asked to write "é" in UTF-8
  have := h (fun b => some (if b then utf8 else latin1)) ⟨false, false⟩ true utf8
    ⟨[([['a']], [233])], [[]], []⟩ ⟨[([['a']], [233])], [[]], []⟩ [['a']] ['é'] rfl utf8_lossless (by decide +kernel)
  revert this
  simp only [FS.text?, AList.get?, if_true, Option.bind_some, ne_eq]
  intro hd
  have := utf8_dec_some hd
  revert this
  decide +kernel

/-- With a `charset` option the text is there in that encoding, if the file did not already read as that text
in the saver's own encoding. -/
theorem C78_charset_partial (codecs : κ → Option Codec) (loc : Codec) (sv : Saver κ) (k : κ) (c c' : Codec)
    (hb : sv.binary = false) (hc : codecs sv.charset = some c) (hc' : codecs k = some c') (hl : Lossless c')
    (ob : Option Bool) (fs fs' : FS) (p : Path) (s : Str) (hne : fs.text? c p ≠ some s)
    (h : writeFile codecs loc sv ⟨ob, some k⟩ fs p (.text s) = (fs', .ok ())) :
    fs'.text? c' p = some s ∧ OnlyFile p fs fs' := by
  rcases writeFile_dirs h with ⟨e, -, he, -⟩ | ⟨fs1, hf, hd, -, -, h⟩
  · simp at he
  · have hopen : openAndWrite codecs loc sv ⟨ob, some k⟩ true fs1 p (.text s) = (fs', .ok ()) →
        fs'.text? c' p = some s ∧ OnlyFile p fs fs' := by
      intro h
      obtain ⟨c1, x, h1, h2, h3, h4, h5, -⟩ := openAndWrite_text hb h
      simp only [Option.getD_some, hc', Option.some.injEq] at h1
      subst h1
      refine ⟨?_, fun q hq => by rw [h4 q hq, hf], fun d hdd => by rw [h5]; exact hd d hdd⟩
      simp [FS.text?, h3, hl s x h2]
    split at h
    · split at h
      · simp at h
      · rename_i content hr
        split at h
        · rename_i hv
          subst hv
          obtain ⟨-, -, c1, hc1, ht⟩ := readFile_text hr
          rw [hc] at hc1; simp at hc1; subst hc1
          exact absurd (by simpa [FS.text?, hf] using ht) hne
        · exact hopen h.symm
    · exact hopen h.symm

/-- An append in an encoding with a byte order mark puts the mark in the middle: the file does not read as the
text that was there followed by the text added. -/
theorem C78_appendMark_violated : ¬ ∀ (c : Codec) (fs fs' : FS) (p : Path) (s t : Str), Lossless c →
    fs.text? c p = some t → appendFile (fun _ : Unit => some c) c ⟨false, ()⟩ ⟨none, none⟩ fs p (.text s) = (fs', .ok ()) →
    fs'.text? c p = some (t ++ s) := by
  intro h
  have := h utf16 ⟨[([['a']], [0xFF, 0xFE, 97, 0])], [[]], []⟩ ⟨[([['a']], [0xFF, 0xFE, 97, 0, 0xFF, 0xFE, 98, 0])], [[]], [[['a']]]⟩
    [['a']] ['b'] ['a'] utf16_lossless (by decide +kernel) (by decide +kernel)
  revert this
  decide +kernel

/-! ### C105 -/

/-- A write that fails can destroy the file: the file is emptied before the text is encoded. -/
theorem C105_failedWrite_violated : ¬ ∀ (c : Codec) (fs fs' : FS) (p : Path) (s : Str) (e : Exc), Lossless c →
    writeFile (fun _ : Unit => some c) c ⟨false, ()⟩ ⟨none, none⟩ fs p (.text s) = (fs', .error e) →
    AList.get? fs'.files p = AList.get? fs.files p := by
  intro h
  have := h latin1 ⟨[([['a']], [104, 105])], [[]], []⟩ ⟨[([['a']], [])], [[]], [[['a']]]⟩ [['a']] ['€'] .valueError
    latin1_lossless (by decide +kernel)
  revert this
  decide +kernel

/-- A write that fails leaves every other file as it was; it leaves the file itself as it was, or empty. It leaves it
as it was when the encoding to be used is known and has the text. -/
theorem C105_failedWrite_partial (codecs : κ → Option Codec) (loc : Codec) (sv : Saver κ) (o : Opts κ) (fs fs' : FS)
    (p : Path) (v : Value) (e : Exc) (h : writeFile codecs loc sv o fs p v = (fs', .error e)) :
    (∀ q, q ≠ p → AList.get? fs'.files q = AList.get? fs.files q) ∧
    (AList.get? fs'.files p = AList.get? fs.files p ∨ AList.get? fs'.files p = some []) ∧
    (∀ s c x, sv.binary = false → v = .text s → codecs (o.charset.getD sv.charset) = some c → c.enc s = some x →
      fs'.files = fs.files ∧ fs'.opened = fs.opened) := by
  rcases writeFile_dirs h with ⟨e', rfl, -, -⟩ | ⟨fs1, hf, -, ho, -, h⟩
  · exact ⟨fun _ _ => rfl, .inl rfl, fun _ _ _ _ _ _ _ => ⟨rfl, rfl⟩⟩
  · have hsame : ∀ fs2 : FS, fs2 = fs1 → (∀ q, q ≠ p → AList.get? fs2.files q = AList.get? fs.files q) ∧
        (AList.get? fs2.files p = AList.get? fs.files p ∨ AList.get? fs2.files p = some []) ∧
        (∀ s c x, sv.binary = false → v = .text s → codecs (o.charset.getD sv.charset) = some c → c.enc s = some x →
          fs2.files = fs.files ∧ fs2.opened = fs.opened) := by
      rintro fs2 rfl
      exact ⟨fun _ _ => by rw [hf], .inl (by rw [hf]), fun _ _ _ _ _ _ _ => ⟨hf, ho⟩⟩
    have hopen : openAndWrite codecs loc sv o true fs1 p v = (fs', .error e) →
        (∀ q, q ≠ p → AList.get? fs'.files q = AList.get? fs.files q) ∧
        (AList.get? fs'.files p = AList.get? fs.files p ∨ AList.get? fs'.files p = some []) ∧
        (∀ s c x, sv.binary = false → v = .text s → codecs (o.charset.getD sv.charset) = some c → c.enc s = some x →
          fs'.files = fs.files ∧ fs'.opened = fs.opened) := by
      intro h
      unfold openAndWrite at h
      split at h
      · simp at h; exact hsame _ h.1.symm
      · rename_i fs2 h2
        obtain ⟨a, -⟩ := openW_spec h2
        have hfs : fs' = fs2 ∧ ∀ s c x, sv.binary = false → v = .text s →
            codecs (o.charset.getD sv.charset) = some c → c.enc s ≠ some x := by
          split at h
          · rename_i hb
            refine ⟨?_, fun s c x hb' => by rw [hb'] at hb; simp at hb⟩
            repeat' split at h
            all_goals simp at h
            all_goals exact h.1.symm
          · split at h
            · rename_i hcn
              simp at h
              exact ⟨h.1.symm, fun s c x _ _ hc => by rw [hcn] at hc; simp at hc⟩
            · rename_i c hcs
              split at h
              · simp at h
                exact ⟨h.1.symm, fun s c x _ hv => by simp at hv⟩
              · rename_i s
                split at h
                · rename_i hen
                  simp at h
                  refine ⟨h.1.symm, fun s' c' x _ hv hc' hx => ?_⟩
                  rw [hcs] at hc'
                  simp at hc' hv
                  subst hc' hv
                  rw [hen] at hx; simp at hx
                · simp at h
        obtain ⟨rfl, hno⟩ := hfs
        refine ⟨fun q hq => ?_, .inr ?_, fun s c x hb hv hc hx => absurd hx (hno s c x hb hv hc)⟩
        · rw [a, AList.get?_set_ne _ _ (Ne.symm hq), hf]
        · rw [a, AList.get?_set_self]; rfl
    split at h
    · split at h
      · simp at h; exact hsame _ h.1
      · split at h
        · simp at h
        · exact hopen h.symm
    · exact hopen h.symm

/-- What a refused write raises: an OSError for a directory, below a file, or at the second level below a file; a LookupError
for an encoding that is not known, when there is a file. Nothing is changed then. -/
theorem C105_refused (codecs : κ → Option Codec) (loc : Codec) (sv : Saver κ) (o : Opts κ) (fs : FS) (p : Path) (v : Value) :
    (fs.isDir p = true → fs.isDir (parent p) = true → writeFile codecs loc sv o fs p v = (fs, .error .osError)) ∧
    (fs.exists p = false → fs.isFile (parent p) = true → fs.isDir (parent p) = false →
      writeFile codecs loc sv o fs p v = (fs, .error .osError)) ∧
    (fs.exists (parent p) = false → parent p ≠ [] → fs.isFile (parent (parent p)) = true → fs.isDir (parent (parent p)) = false →
      writeFile codecs loc sv o fs p v = (fs, .error .osError)) ∧
    (fs.isFile p = true → fs.isDir p = false → fs.isDir (parent p) = true → sv.binary = false → codecs sv.charset = none →
      writeFile codecs loc sv o fs p v = (fs, .error .lookupError)) := by
  refine ⟨fun hd hp => ?_, fun he hf hd => ?_, fun he hn hf hd => ?_, fun hf hd hp hb hc => ?_⟩
  · simp [writeFile, FS.exists, hd, hp, readFile]
  · have h1 : fs.exists (parent p) = true := by simp [FS.exists, hf]
    have h2 : fs.isDir p = false := by
      simp only [FS.exists, Bool.or_eq_false_iff] at he; exact he.2
    simp [writeFile, h1, he, openAndWrite, openW, h2, hd]
  · have : makedirs fs (parent p) = .error .osError := by
      unfold makedirs
      have hr : (parent p).reverse = (parent p).getLast hn :: (parent (parent p)).reverse := by
        have := List.dropLast_concat_getLast hn
        conv => lhs; rw [← this]
        rw [List.reverse_append]; rfl
      rw [hr]
      have hrr : ((parent p).getLast hn :: (parent (parent p)).reverse).reverse = parent p := by
        rw [← hr, List.reverse_reverse]
      rw [makedirsRev, List.reverse_reverse, if_pos (by simp [FS.exists, hf]), hrr]
      simp [mkdir, he, hd]
    simp [writeFile, he, this]
  · have hk : ∃ b, AList.get? fs.files p = some b := by
      simp only [FS.isFile, AList.contains] at hf; exact Option.isSome_iff_exists.1 hf
    obtain ⟨b, hk⟩ := hk
    simp [writeFile, FS.exists, hp, hf, readFile, hd, hk, hb, hc]

example : writeFile (fun _ : Unit => some latin1) latin1 ⟨false, ()⟩ ⟨none, none⟩
      ⟨[([['a']], [104])], [[]], []⟩ [['a'], ['b']] (.text ['x']) = (⟨[([['a']], [104])], [[]], []⟩, .error .osError) := by
  decide +kernel

/-- Writing '€' in Latin-1 over 'hi': the file is empty afterwards, the other one intact. -/
example :
    writeFile (fun _ : Unit => some latin1) latin1 ⟨false, ()⟩ ⟨none, none⟩
      ⟨[([['a']], [104, 105]), ([['b']], [98])], [[]], []⟩ [['a']] (.text ['€']) =
    (⟨[([['a']], []), ([['b']], [98])], [[]], [[['a']]]⟩, .error .valueError) := by decide +kernel

/-! ### C106 -/

/-- The `binary` option of a call does not make a text saver write bytes: in every file system where the file
can be created, writing bytes with `binary=True` raises TypeError and leaves an empty file. -/
theorem C106_binaryOption_violated (codecs : κ → Option Codec) (loc : Codec) (sv : Saver κ) (c : Codec)
    (hb : sv.binary = false) (hc : codecs sv.charset = some c) (fs : FS) (p : Path) (b : Bytes)
    (hd : fs.isDir (parent p) = true) (hn : fs.exists p = false) :
    ∃ fs', writeFile codecs loc sv ⟨some true, none⟩ fs p (.bytes b) = (fs', .error .typeError) ∧
      AList.get? fs'.files p = some [] := by
  have he : fs.exists (parent p) = true := by simp [FS.exists, hd]
  have hdp : fs.isDir p = false := by
    simp [FS.exists] at hn; exact hn.2
  simp [writeFile, he, hn, openAndWrite, openW, hdp, hd, hb, hc, AList.get?_set_self]

/-- A saver made with `binary=True` does write bytes: in every file system where the file can be created or
replaced, with the option absent or true. -/
theorem C106_binaryOption_partial (codecs : κ → Option Codec) (loc : Codec) (sv : Saver κ) (o : Opts κ)
    (hb : sv.binary = true) (ho : o.binary ≠ some false) (fs : FS) (p : Path) (b : Bytes)
    (hd : fs.isDir (parent p) = true) (hn : fs.isDir p = false) :
    ∃ fs', writeFile codecs loc sv o fs p (.bytes b) = (fs', .ok ()) ∧ AList.get? fs'.files p = some b := by
  have ho' : o.binary.getD true = true := by
    cases h : o.binary with
    | none => rfl
    | some x => cases x with
      | true => rfl
      | false => exact absurd h ho
  have hopen : ∃ fs', openAndWrite codecs loc sv o true fs p (.bytes b) = (fs', .ok ()) := by
    simp [openAndWrite, openW, hn, hd, hb, ho']
  have : ∃ fs', writeFile codecs loc sv o fs p (.bytes b) = (fs', .ok ()) := by
    have he : fs.exists (parent p) = true := by simp [FS.exists, hd]
    unfold writeFile
    rw [if_pos he]
    simp only
    split
    · rename_i hex
      have hfile : fs.isFile p = true := by simpa [FS.exists, hn] using hex
      simp only [FS.isFile, AList.contains, Option.isSome_iff_exists] at hfile
      obtain ⟨a, ha⟩ := hfile
      have hr : readFile codecs sv fs p = .ok (.bytes a) := by simp [readFile, hn, ha, hb]
      rw [hr]
      simp only
      split
      · exact ⟨_, rfl⟩
      · exact hopen
    · exact hopen
  obtain ⟨fs', h⟩ := this
  exact ⟨fs', h, (C78_writeBytes codecs loc sv o fs fs' p b h).1⟩

example :
    (writeFile (fun _ : Unit => some latin1) latin1 ⟨false, ()⟩ ⟨some true, none⟩ ⟨[], [[]], []⟩ [['a']] (.bytes [1, 2])) =
      (⟨[([['a']], [])], [[]], [[['a']]]⟩, .error .typeError) ∧
    (writeFile (fun _ : Unit => some latin1) latin1 ⟨true, ()⟩ ⟨none, none⟩ ⟨[], [[]], []⟩ [['a']] (.bytes [1, 2])) =
      (⟨[([['a']], [1, 2])], [[]], [[['a']]]⟩, .ok ()) := by decide +kernel

end Verif.Files
