import Verif.Spec.Files
/-
Helper lemmas for C78, C105, C106.
-/
namespace Verif.Files
variable {κ : Type}

theorem utf8_dec_enc (s : Str) : utf8.dec (s.flatMap String.utf8EncodeChar) = some s := by
  have : (s.flatMap String.utf8EncodeChar).toByteArray = s.utf8Encode := rfl
  simp [utf8, this]

theorem utf8_dec_some {b : Bytes} {s : Str} (h : utf8.dec b = some s) : b = s.flatMap String.utf8EncodeChar := by
  simp only [utf8, Option.map_eq_some_iff] at h
  obtain ⟨a, ha, rfl⟩ := h
  have hs : (b.toByteArray.utf8Decode?).isSome := by simp [ha]
  have := ByteArray.utf8Encode_get_utf8Decode? (b := b.toByteArray) (h := hs)
  simp only [ha, Option.get_some] at this
  have h2 := congrArg (fun x => x.data.toList) this
  simp only [List.utf8Encode] at h2
  simpa [List.data_toByteArray] using h2.symm

theorem utf8_appends : Appends utf8 := by
  intro b s t x h1 h2
  have e1 := utf8_dec_some h1
  simp only [utf8, Option.some.injEq] at h2
  rw [e1, ← h2, ← List.flatMap_append]
  exact utf8_dec_enc _

theorem utf8_lossless : Lossless utf8 := by
  intro s b h
  simp only [utf8, Option.some.injEq] at h
  rw [← h]; exact utf8_dec_enc s

theorem latin1_lossless : Lossless latin1 := by
  intro s b h
  simp only [latin1] at h ⊢
  split at h
  · rename_i ha
    simp only [Option.some.injEq] at h
    subst h
    simp only [Option.some.injEq, List.map_map]
    simp only [List.all_eq_true, decide_eq_true_eq] at ha
    refine (List.map_congr_left (fun c hc => ?_)).trans (List.map_id s)
    have := ha c hc
    simp only [Function.comp, UInt8.toNat_ofNat', id]
    rw [Nat.mod_eq_of_lt (by simpa using this)]
    exact Char.ofNat_toNat c
  · simp at h

theorem units_enc (s : Str) (h : ∀ c ∈ s, c.toNat < 65536) :
    utf16.units (s.flatMap (fun c => [UInt8.ofNat (c.toNat % 256), UInt8.ofNat (c.toNat / 256)])) = some s := by
  induction s with
  | nil => rfl
  | cons c s ih =>
    have hc := h c (by simp)
    rw [List.flatMap_cons]
    simp only [List.cons_append, List.nil_append, utf16.units]
    rw [ih (fun x hx => h x (by simp [hx]))]
    simp only [Option.map_some, Option.some.injEq, List.cons.injEq, and_true, UInt8.toNat_ofNat']
    have e1 : c.toNat % 256 % 2 ^ 8 = c.toNat % 256 := by omega
    have e2 : c.toNat / 256 % 2 ^ 8 = c.toNat / 256 := by omega
    rw [e1, e2, Nat.mod_add_div]
    exact Char.ofNat_toNat c

theorem utf16_lossless : Lossless utf16 := by
  intro s b h
  simp only [utf16] at h ⊢
  split at h
  · rename_i ha
    simp only [Option.some.injEq] at h
    subst h
    simp only [List.all_eq_true, decide_eq_true_eq] at ha
    exact units_enc s ha
  · simp at h

theorem mkdir_spec {fs fs' : FS} {p : Path} (h : mkdir fs p = .ok fs') :
    fs'.files = fs.files ∧ fs'.dirs = fs.dirs ++ [p] ∧ fs'.opened = fs.opened := by
  unfold mkdir at h
  split at h
  · simp at h
  · split at h
    · simp at h
    · simp at h; subst h; simp

theorem makedirsRev_spec {fs fs' : FS} (r : List Str) (h : makedirsRev fs r = .ok fs') :
    fs'.files = fs.files ∧ (∀ d, d ∈ fs.dirs → d ∈ fs'.dirs) ∧ fs'.opened = fs.opened ∧ r.reverse ∈ fs'.dirs := by
  induction r generalizing fs' with
  | nil =>
    obtain ⟨a, b, c⟩ := mkdir_spec h
    exact ⟨a, fun d hd => by rw [b]; simp [hd], c, by rw [b]; simp⟩
  | cons x r ih =>
    rw [makedirsRev] at h
    split at h
    · obtain ⟨a, b, c⟩ := mkdir_spec h
      exact ⟨a, fun d hd => by rw [b]; simp [hd], c, by rw [b]; simp⟩
    · split at h
      · simp at h
      · rename_i fs1 h1
        obtain ⟨a1, b1, c1, d1⟩ := ih h1
        obtain ⟨a, b, c⟩ := mkdir_spec h
        exact ⟨a.trans a1, fun d hd => by rw [b]; simp [b1 d hd], c.trans c1, by rw [b]; simp⟩

theorem openW_spec {fs fs' : FS} {trunc : Bool} {p : Path} (h : openW fs trunc p = .ok fs') :
    fs'.files = AList.set fs.files p (if trunc then [] else (AList.get? fs.files p).getD []) ∧ fs'.dirs = fs.dirs ∧
    fs'.opened = fs.opened ++ [p] ∧ fs.isDir p = false ∧ fs.isDir (parent p) = true := by
  unfold openW at h
  split at h
  · simp at h
  · split at h
    · simp at h
    · rename_i h1 h2
      simp at h; subst h
      simp at h1 h2
      simp [h1, h2]

/-- A successful write to an opened text file. -/
theorem openAndWrite_text {codecs : κ → Option Codec} {loc : Codec} {sv : Saver κ} {o : Opts κ} {trunc : Bool}
    {fs fs' : FS} {p : Path} {s : Str} (hb : sv.binary = false)
    (h : openAndWrite codecs loc sv o trunc fs p (.text s) = (fs', .ok ())) :
    ∃ c x, codecs (o.charset.getD sv.charset) = some c ∧ c.enc s = some x ∧
      AList.get? fs'.files p = some ((if trunc then [] else (AList.get? fs.files p).getD []) ++ x) ∧
      (∀ q, q ≠ p → AList.get? fs'.files q = AList.get? fs.files q) ∧ fs'.dirs = fs.dirs ∧ fs.isDir p = false ∧
      fs.isDir (parent p) = true := by
  unfold openAndWrite at h
  split at h
  · simp at h
  · rename_i fs1 h1
    obtain ⟨a, b, -, d, d'⟩ := openW_spec h1
    rw [if_neg (by simp [hb])] at h
    split at h
    · simp at h
    · rename_i c hc
      simp only at h
      split at h
      · simp at h
      · rename_i x hx
        simp only [Prod.mk.injEq, and_true] at h
        subst h
        refine ⟨c, x, hc, hx, ?_, fun q hq => ?_, b, d, d'⟩
        · simp [put, a, AList.get?_set_self]
        · simp [put, a, AList.get?_set_ne _ _ (Ne.symm hq)]

/-- The same for bytes. -/
theorem openAndWrite_bytes {codecs : κ → Option Codec} {loc : Codec} {sv : Saver κ} {o : Opts κ} {trunc : Bool}
    {fs fs' : FS} {p : Path} {b : Bytes}
    (h : openAndWrite codecs loc sv o trunc fs p (.bytes b) = (fs', .ok ())) :
    AList.get? fs'.files p = some ((if trunc then [] else (AList.get? fs.files p).getD []) ++ b) ∧
      (∀ q, q ≠ p → AList.get? fs'.files q = AList.get? fs.files q) ∧ fs'.dirs = fs.dirs ∧ fs.isDir p = false := by
  unfold openAndWrite at h
  split at h
  · simp at h
  · rename_i fs1 h1
    obtain ⟨a, c, -, d, -⟩ := openW_spec h1
    split at h
    · split at h
      · simp only [Prod.mk.injEq, and_true] at h
        subst h
        refine ⟨?_, fun q hq => ?_, c, d⟩
        · simp [put, a, AList.get?_set_self]
        · simp [put, a, AList.get?_set_ne _ _ (Ne.symm hq)]
      · simp at h
    · split at h <;> simp at h

theorem readFile_text {codecs : κ → Option Codec} {sv : Saver κ} {fs : FS} {p : Path} {s : Str}
    (h : readFile codecs sv fs p = .ok (.text s)) :
    sv.binary = false ∧ fs.isDir p = false ∧ ∃ c, codecs sv.charset = some c ∧ fs.text? c p = some s := by
  unfold readFile at h
  split at h
  · simp at h
  · rename_i hd
    split at h
    · simp at h
    · rename_i b hb
      split at h
      · simp at h
      · rename_i hbin
        split at h
        · simp at h
        · rename_i c hc
          split at h
          · simp at h
          · rename_i t ht
            simp at h; subst h
            exact ⟨by simpa using hbin, by simpa using hd, c, hc, by simp [FS.text?, hb, ht]⟩

theorem readFile_bytes {codecs : κ → Option Codec} {sv : Saver κ} {fs : FS} {p : Path} {b : Bytes}
    (h : readFile codecs sv fs p = .ok (.bytes b)) : fs.isDir p = false ∧ AList.get? fs.files p = some b := by
  unfold readFile at h
  split at h
  · simp at h
  · rename_i hd
    split at h
    · simp at h
    · rename_i b' hb
      split at h
      · simp at h; subst h; exact ⟨by simpa using hd, hb⟩
      · split at h
        · simp at h
        · split at h <;> simp at h

/-- What precedes the write: missing directories are created. -/
theorem writeFile_dirs {codecs : κ → Option Codec} {loc : Codec} {sv : Saver κ} {o : Opts κ} {fs fs' : FS} {p : Path}
    {v : Value} {r : Res Unit} (h : writeFile codecs loc sv o fs p v = (fs', r)) :
    (∃ e, fs' = fs ∧ r = .error e ∧ makedirs fs (parent p) = .error e) ∨
    ∃ fs1, fs1.files = fs.files ∧ (∀ d, d ∈ fs.dirs → d ∈ fs1.dirs) ∧ fs1.opened = fs.opened ∧
      (fs.exists (parent p) = true → fs1 = fs) ∧
      (fs', r) = (if fs1.exists p then
        match readFile codecs sv fs1 p with
        | .error e => (fs1, .error e)
        | .ok content =>
          if v = content then (fs1, .ok ())
          else openAndWrite codecs loc sv o true fs1 p v
      else openAndWrite codecs loc sv o true fs1 p v) := by
  unfold writeFile at h
  split at h
  · rename_i e he
    split at he
    · simp at he
    · simp at h; exact .inl ⟨e, h.1.symm, h.2.symm, he⟩
  · rename_i fs1 h1
    refine .inr ⟨fs1, ?_⟩
    split at h1
    · simp at h1; subst h1
      exact ⟨rfl, fun _ h => h, rfl, fun _ => rfl, h.symm⟩
    · rename_i hne
      obtain ⟨a, b, c, -⟩ := makedirsRev_spec _ h1
      exact ⟨a, b, c, fun he => absurd he hne, h.symm⟩

theorem makedirsRev_dirs {fs fs' : FS} (r : List Str) (h1 : makedirsRev fs r = .ok fs') (q : Path) (hq : q ∈ fs'.dirs) :
    q ∈ fs.dirs ∨ q.length ≤ r.length := by
  induction r generalizing fs' with
  | nil => rw [(mkdir_spec h1).2.1] at hq; simpa using hq
  | cons x r ih =>
    rw [makedirsRev] at h1
    split at h1
    · rw [(mkdir_spec h1).2.1] at hq
      simp only [List.mem_append, List.mem_singleton] at hq
      rcases hq with hq | rfl
      · exact .inl hq
      · right; simp
    · split at h1
      · simp at h1
      · rename_i fs2 h2
        rw [(mkdir_spec h1).2.1] at hq
        simp only [List.mem_append, List.mem_singleton] at hq
        rcases hq with hq | rfl
        · rcases ih h2 hq with h | h
          · exact .inl h
          · right; simp; omega
        · right; simp

theorem mkdir_ok {fs : FS} {p : Path} (h1 : fs.exists p = false) (h2 : fs.isDir (parent p) = true) :
    mkdir fs p = .ok { fs with dirs := fs.dirs ++ [p] } := by
  simp [mkdir, h1, h2]

theorem makedirsRev_ok {fs : FS} (r : List Str) (hroot : [] ∈ fs.dirs) (hex : fs.exists r.reverse = false)
    (hf : ∀ q, q <+: r.reverse → fs.isFile q = false) : ∃ fs', makedirsRev fs r = .ok fs' := by
  induction r with
  | nil => simp [FS.exists, FS.isDir, hroot] at hex
  | cons c r ih =>
    have hpar : parent (c :: r).reverse = r.reverse := by simp [parent]
    have hf' : ∀ q, q <+: r.reverse → fs.isFile q = false := fun q hq => hf q (by
      rw [List.reverse_cons]; exact hq.trans (List.prefix_append _ _))
    rw [makedirsRev]
    cases he : fs.exists r.reverse with
    | true =>
      rw [if_pos rfl]
      refine ⟨_, mkdir_ok hex ?_⟩
      rw [hpar]
      simpa [FS.exists, hf' _ (List.prefix_refl _)] using he
    | false =>
      rw [if_neg (by simp)]
      obtain ⟨fs1, h1⟩ := ih he hf'
      rw [h1]
      simp only
      obtain ⟨a, b, c', d⟩ := makedirsRev_spec _ h1
      refine ⟨_, mkdir_ok ?_ (by rw [hpar]; simpa [FS.isDir] using d)⟩
      simp only [FS.exists, Bool.or_eq_false_iff] at hex ⊢
      refine ⟨by simpa [FS.isFile, a] using hex.1, ?_⟩
      simp only [FS.isDir, decide_eq_false_iff_not] at hex ⊢
      intro hm
      rcases makedirsRev_dirs _ h1 _ hm with h | h
      · exact hex.2 h
      · simp at h; omega

end Verif.Files
