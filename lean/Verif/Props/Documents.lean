import Verif.Spec.Documents
/-
C321-C327: documents.
-/
namespace Verif.Documents
open Spec

theorem readRaw_unread (env : Env) (fs : Fs) (d : Doc) (h : Unread d) : readRaw env fs d = (match getRaw env fs d with
    | .error e => (.error e, d)
    | .ok v => (.ok v, { d with raw := ⟨v, some (d.path, d.uri)⟩, content := {} })) := by
  unfold readRaw
  exact if_pos h

/-- Where nothing is kept, the content is made of what `contentRaw` is now. -/
theorem readContent_unread (env : Env) (fs : Fs) (d : Doc) (h : Unread d) (x : Val) (hx : getRaw env fs d = .ok x) :
    (readContent env fs d).1 = .ok (getContent env d.binary (.ok x)) := by
  unfold readContent
  rw [readRaw_unread env fs d h, hx]
  simp [readBinary]

theorem getRaw_file (env : Env) (fs : Fs) (d : Doc) (hu : d.uri = none) (p : Path) (hp : d.path = some p) (b : Bytes)
    (hb : AList.get? fs p = some b) : getRaw env fs d = env.load d.usedBinary d.usedCharset b := by
  simp only [getRaw, hu, hp, hb]

/-! ### C321: the content of a document is that of its file -/

/-- A document that was not read yet, in text mode, gives what its file holds. -/
theorem C321_first_partial (env : Env) (fs : Fs) (d : Doc) (hd : Unread d) (hu : d.uri = none) (p : Path)
    (hp : d.path = some p) (hb : d.binary = false) (v : Val) (h : Holds env fs d.usedBinary d.usedCharset p v) :
    (readContent env fs d).1 = .ok v := by
  obtain ⟨b, x, h1, h2, h3⟩ := h
  rw [readContent_unread env fs d hd x (by rw [getRaw_file env fs d hu p hp b h1, h2])]
  simp [getContent, hb, h3]

/-- A document that is given another file gives what that file holds. -/
theorem C321_path_partial (env : Env) (fs : Fs) (d : Doc) (hu : d.uri = none) (p : Path) (hp : d.path ≠ some p)
    (hb : d.binary = false) (v : Val) (h : Holds env fs d.usedBinary d.usedCharset p v) :
    (readContent env fs (setPath p d)).1 = .ok v := by
  have : setPath p d = { d with path := some p, raw := {}, content := {} } := by rw [setPath, if_neg hp]
  rw [this]
  exact C321_first_partial env fs { d with path := some p, raw := {}, content := {} } (.inl rfl) hu p rfl hb v h

/-- Once the content was read, it is the same for ever, whatever becomes of the file. -/
theorem C321_stale_violated (env : Env) (fs : Fs) (d : Doc) (x v : Val) (hx : (readRaw env fs d).1 = .ok x) (hn : x ≠ .none)
    (hv : (readContent env fs d).1 = .ok v) (hvn : v ≠ .none) (fs' : Fs) :
    (readContent env fs' (readContent env fs d).2).1 = .ok v := by
  have key : ∀ d' : Doc, d'.raw.value = x → d'.raw.inputs = some (d'.path, d'.uri) → d'.content.value = v →
      d'.content.inputs = some (some x) → (readContent env fs' d').1 = .ok v := by
    intro d' h1 h2 h3 h4
    have hr : readRaw env fs' d' = (.ok x, d') := by
      unfold readRaw
      rw [if_neg (by simp [h1, h2, hn]), h1]
    unfold readContent
    rw [hr]
    simp [h3, h4, hvn, result]
  have hr : (readRaw env fs d).2.raw.value = x ∧ (readRaw env fs d).2.raw.inputs
      = some ((readRaw env fs d).2.path, (readRaw env fs d).2.uri) := by
    unfold readRaw at hx ⊢
    split at hx
    · rename_i hc
      rw [if_pos hc]
      cases hg : getRaw env fs d with
      | error e => rw [hg] at hx; cases hx
      | ok y => rw [hg] at hx; cases hx; exact ⟨rfl, rfl⟩
    · rename_i hc
      rw [if_neg hc]
      cases hx
      exact ⟨rfl, Classical.byContradiction fun h => hc (.inr h)⟩
  unfold readContent at hv ⊢
  cases hrd : readRaw env fs d with
  | mk r d1 =>
    rw [hrd] at hx hv hr
    cases hx
    simp only at hv hr ⊢
    by_cases hc : d1.content.value = .none ∨ d1.content.inputs ≠ some (result (.ok x))
    · rw [if_pos hc] at hv ⊢
      simp only [readBinary] at hv ⊢
      cases hv
      exact key _ hr.1 hr.2 rfl rfl
    · rw [if_neg hc] at hv ⊢
      cases hv
      exact key _ hr.1 hr.2 rfl (Classical.byContradiction fun h => hc (.inr h))

/-- A document given by a URI has no content, whatever is registered there, and also if it has a file. -/
theorem C321_uri_violated (env : Env) (fs : Fs) (d : Doc) (hd : Unread d) (hc : d.content = {}) (u : Str)
    (hu : d.uri = some u) :
    (readRaw env fs d).1 = .error .attributeError ∧ (readContent env fs d).1 = .ok .none := by
  have : getRaw env fs d = .error .attributeError := by simp only [getRaw, hu, resolveUri]
  constructor
  · rw [readRaw_unread env fs d hd, this]
  · unfold readContent
    rw [readRaw_unread env fs d hd, this]
    simp only [hc, readBinary, getContent]
    cases d.binary <;> rfl

/-! ### C322: what is written to a document is in its file -/

/-- With a path, the file gets what is written, other files are not changed, and a new document of the file reads it. -/
theorem C322_file_partial (env : Env) (fs : Fs) (d : Doc) (p : Path) (hp : d.path = some p) (c : Val) (b : Bytes)
    (hb : env.put false c (AList.get? fs p) = .ok b) (x : Val) (hx : env.load false "utf-8".toList b = .ok x)
    (hc : env.parse x = .ok c) :
    (write env false c d fs).1 = .ok ()
    ∧ (∀ q, q ≠ p → AList.get? (write env false c d fs).2 q = AList.get? fs q)
    ∧ (readContent env (write env false c d fs).2 (make (some p) none false "utf-8".toList)).1 = .ok c := by
  have hw : write env false c d fs = (.ok (), AList.set fs p b) := by simp only [write, hp, hb]
  rw [hw]
  refine ⟨rfl, fun q hq => AList.get?_set_ne _ _ (Ne.symm hq), ?_⟩
  exact C321_first_partial env _ _ (.inl rfl) rfl p rfl rfl c ⟨b, x, AList.get?_set_self _ _ _, hx, hc⟩

/-- What cannot be written, or is written to a URI, raises and changes nothing. -/
theorem C322_refused_partial (env : Env) (fs : Fs) (d : Doc) (a : Bool) (c : Val) (e : Exc)
    (h : (write env a c d fs).1 = .error e) : (write env a c d fs).2 = fs := by
  unfold write at h ⊢
  split at h
  · split at h
    · rfl
    · cases h
  · split at h
    · rfl
    · cases h

theorem C322_uri_partial (env : Env) (fs : Fs) (d : Doc) (a : Bool) (c : Val) (u : Str) (hp : d.path = none)
    (hu : d.uri = some u) : write env a c d fs = (.error .exception, fs) := by
  simp only [write, hp, hu]

/-- Writing to a document that has neither a path nor a URI succeeds and writes nothing. -/
theorem C322_nowhere_violated (env : Env) (fs : Fs) (d : Doc) (a : Bool) (c : Val) (hp : d.path = none) (hu : d.uri = none) :
    write env a c d fs = (.ok (), fs) := by
  simp only [write, hp, hu]

/-! ### C323: a document that cannot be read says so -/

/-- The content of a file that cannot be decoded or parsed is None, as if the file was missing. -/
theorem C323_content_violated (env : Env) (fs : Fs) (d : Doc) (hd : Unread d) (hc : d.content = {}) (hu : d.uri = none)
    (p : Path) (hp : d.path = some p) (hb : d.usedBinary = false) (h : Broken env fs d.usedCharset p) :
    (readContent env fs d).1 = .ok .none := by
  obtain ⟨b, h1, h2⟩ := h
  have hg := getRaw_file env fs d hu p hp b h1
  rw [hb] at hg
  rcases h2 with ⟨e, h2⟩ | ⟨x, e, h2, h3⟩
  · unfold readContent
    rw [readRaw_unread env fs d hd, hg, h2]
    simp only [hc, readBinary, getContent]
    cases d.binary <;> rfl
  · rw [readContent_unread env fs d hd x (by rw [hg, h2])]
    simp only [getContent, h3]
    cases d.binary <;> rfl

/-- `contentRaw` raises what decoding raises; reading `content` never raises. -/
theorem C323_raw_partial (env : Env) (fs : Fs) (d : Doc) :
    (∀ e, Unread d → getRaw env fs d = .error e → (readRaw env fs d).1 = .error e)
    ∧ ∃ v, (readContent env fs d).1 = .ok v := by
  constructor
  · intro e hd he
    rw [readRaw_unread env fs d hd, he]
  · unfold readContent
    split
    split
    · exact ⟨_, rfl⟩
    · exact ⟨_, rfl⟩

/-! ### C324: the encoding and the mode of a document are those of its file -/

/-- The encoding of a document is not used: with any but UTF-8 there is a file that cannot be read though it is in this
encoding. -/
theorem C324_charset_violated (c : Str) (hc : c ≠ "utf-8".toList) (p : Path) :
    ∃ (env : Env) (fs : Fs) (v : Val), Holds env fs false c p v ∧ v ≠ .none
      ∧ (readContent env fs (make (some p) none false c)).1 = .ok .none := by
  refine ⟨⟨fun _ c' _ => if c' = c then .ok (.int 1) else .error .valueError, .ok, fun _ _ _ => .ok []⟩, [(p, [])], .int 1,
    ⟨[], .int 1, by simp [AList.get?], by simp, rfl⟩, by simp, ?_⟩
  refine C323_content_violated _ _ _ (.inl rfl) rfl rfl p rfl rfl ⟨[], by simp [AList.get?], .inl ⟨.valueError, ?_⟩⟩
  exact if_neg fun h => hc (Eq.symm h)

/-- The mode given to a document is used at once; one that is assigned only after the mode was read. -/
theorem C324_binary_violated (env : Env) (fs : Fs) (p : Path) (b : Bool) (c : Str) (bytes : Bytes)
    (h : AList.get? fs p = some bytes) :
    (readRaw env fs (setBinary b (make (some p) none (!b) c))).1 = env.load (!b) "utf-8".toList bytes
    ∧ (readRaw env fs (readBinary (setBinary b (make (some p) none (!b) c))).2).1 = env.load b "utf-8".toList bytes := by
  constructor
  · rw [readRaw_unread _ _ _ (.inl rfl)]
    simp only [getRaw, setBinary, make, h]
    cases env.load (!b) "utf-8".toList bytes <;> rfl
  · rw [readRaw_unread _ _ _ (.inl rfl)]
    simp only [getRaw, setBinary, make, h, readBinary]
    cases env.load b "utf-8".toList bytes <;> rfl

theorem C324_made_partial (env : Env) (fs : Fs) (p : Path) (b : Bool) (bytes : Bytes) (h : AList.get? fs p = some bytes) :
    (readRaw env fs (make (some p) none b "utf-8".toList)).1 = env.load b "utf-8".toList bytes := by
  rw [readRaw_unread _ _ _ (.inl rfl)]
  simp only [getRaw, make, h]
  cases env.load b "utf-8".toList bytes <;> rfl

/-! ### C325: deleting the file of a document -/

/-- The file is deleted if it is there, and no other; otherwise an exception tells what is missing. -/
theorem C325_delete (d : Doc) (fs : Fs) :
    (d.path = none → delFile d fs = (.error .attributeError, fs))
    ∧ (∀ p, d.path = some p → AList.get? fs p = none → delFile d fs = (.error .valueError, fs))
    ∧ (∀ p b, d.path = some p → AList.get? fs p = some b → (delFile d fs).1 = .ok ()
        ∧ AList.get? (delFile d fs).2 p = none ∧ ∀ q, q ≠ p → AList.get? (delFile d fs).2 q = AList.get? fs q) := by
  refine ⟨fun h => by simp [delFile, h], fun p h hn => ?_, fun p b h hb => ?_⟩
  · have : AList.contains fs p = false := by
      cases hc : AList.contains fs p with
      | false => rfl
      | true =>
        have := AList.get?_isSome.2 ((AList.contains_iff).1 hc)
        rw [hn] at this
        cases this
    simp [delFile, h, this]
  · have : AList.contains fs p = true := by
      rw [AList.contains_iff, ← AList.get?_isSome, hb]
      rfl
    simp only [delFile, h, this, if_true, true_and]
    exact ⟨by rw [AList.get?_erase]; simp, fun q hq => by rw [AList.get?_erase, if_neg hq]⟩

/-! ### C326: the name and the identifier of a document -/

theorem splitOn_none (s : Str) (h : '/' ∉ s) : splitOn '/' s = [s] := by
  induction s with
  | nil => rfl
  | cons c s ih =>
    have hc : c ≠ '/' := fun hc => h (by simp [hc])
    simp only [splitOn, if_neg hc, ih fun h' => h (List.mem_cons_of_mem _ h')]

theorem splitOn_ne (s : Str) : splitOn '/' s ≠ [] := by
  cases s with
  | nil => simp [splitOn]
  | cons c s =>
    simp only [splitOn]
    split
    · simp
    · split <;> simp

theorem lastPart_append (a s : Str) (h : '/' ∉ s) : lastPart (a ++ '/' :: s) = s := by
  unfold lastPart
  have : ∃ l, splitOn '/' (a ++ '/' :: s) = l ++ [s] := by
    induction a with
    | nil => exact ⟨[[]], by simp [splitOn, splitOn_none s h]⟩
    | cons c a ih =>
      obtain ⟨l, hl⟩ := ih
      simp only [List.cons_append, splitOn]
      split
      · exact ⟨[] :: l, by rw [hl]; rfl⟩
      · rw [hl]
        cases l with
        | nil =>
          exfalso
          have h2 : 2 ≤ (splitOn '/' (a ++ '/' :: s)).length := by
            clear hl
            induction a with
            | nil => simp [splitOn, splitOn_none s h]
            | cons c a ih =>
              simp only [List.cons_append, splitOn]
              split
              · simp only [List.length_cons]; omega
              · split
                · rename_i hs; exact absurd hs (splitOn_ne _)
                · rename_i hs; rw [hs] at ih; simpa using ih
          rw [hl] at h2
          simp at h2
        | cons w ws => exact ⟨(c :: w) :: ws, rfl⟩
  obtain ⟨l, hl⟩ := this
  rw [hl]
  simp

/-- The name of a document with a path is what follows the last slash. -/
theorem C326_name_partial (d : Doc) (dir name : Str) (h : '/' ∉ name) :
    (d.path = some (dir ++ '/' :: name) → filename d = .ok name) ∧ (d.path = some name → filename d = .ok name) := by
  refine ⟨fun hp => ?_, fun hp => ?_⟩
  · simp only [filename, hp, lastPart_append dir name h]
  · simp only [filename, hp, lastPart, splitOn_none name h]
    rfl

/-- A document with a URI only has no name: asking for it fails. -/
theorem C326_uri_violated (d : Doc) (hp : d.path = none) : filename d = .error .attributeError := by
  simp only [filename, hp]

/-- The identifier is the `$id` of an object. -/
theorem C326_id_partial (kvs : List (Str × Val)) :
    (∀ v, AList.get? kvs "$id".toList = some v → getDocId (.dict kvs) = .ok v)
    ∧ (AList.get? kvs "$id".toList = none → getDocId (.dict kvs) = .ok .none) :=
  ⟨fun v h => by simp only [getDocId, h, Option.getD], fun h => by simp only [getDocId, h, Option.getD]⟩

/-- A content that is a list or a text, not empty, fails to have no identifier. -/
theorem C326_id_violated (x : Val) (xs : List Val) (c : Char) (s : Str) :
    getDocId (.list (x :: xs)) = .error .attributeError ∧ getDocId (.str (c :: s)) = .error .attributeError := by
  constructor <;> rfl

/-! ### C327: what is told of a file is true of it -/

/-- Until a reading has succeeded, a reading gives what is true of the file, or tells that there is none. -/
theorem C327_first_partial {α : Type} (f : Bytes → α) (p : Path) (before : List Fs)
    (hb : ∀ fs ∈ before, AList.get? fs p = none) (fs : Fs) :
    (∀ b, AList.get? fs p = some b →
      (readKept (ask f fs (some p)) (before.foldl (fun k fs => (readKept (ask f fs (some p)) k).2) none)).1 = .ok (f b))
    ∧ (AList.get? fs p = none →
      (readKept (ask f fs (some p)) (before.foldl (fun k fs => (readKept (ask f fs (some p)) k).2) none)).1 = .error .osError) := by
  have : before.foldl (fun k fs => (readKept (ask f fs (some p)) k).2) none = none := by
    induction before with
    | nil => rfl
    | cons x before ih =>
      rw [List.foldl_cons]
      have hx : (readKept (ask f x (some p)) none).2 = none := by simp only [ask, hb x (by simp), readKept]
      rw [hx]
      exact ih fun fs h => hb fs (by simp [h])
  rw [this]
  exact ⟨fun b h => by simp only [ask, h, readKept], fun h => by simp only [ask, h, readKept]⟩

/-- After a reading has succeeded, all later ones give the same, whatever the file becomes. -/
theorem C327_stale_violated {α : Type} (f : Bytes → α) (p : Path) (fs : Fs) (b : Bytes) (h : AList.get? fs p = some b)
    (later : List Fs) (fs' : Fs) :
    (readKept (ask f fs' (some p))
      (later.foldl (fun k fs => (readKept (ask f fs (some p)) k).2) (readKept (ask f fs (some p)) none).2)).1 = .ok (f b) := by
  have h1 : (readKept (ask f fs (some p)) none).2 = some (f b) := by simp only [ask, h, readKept]
  have h2 : later.foldl (fun k fs => (readKept (ask f fs (some p)) k).2) (some (f b)) = some (f b) := by
    induction later with
    | nil => rfl
    | cons x later ih => exact ih
  rw [h1, h2]
  rfl

example : (readKept (ask List.length [] (some "a".toList))
    (readKept (ask List.length [("a".toList, [1, 2])] (some "a".toList)) none).2).1 = .ok 2 := by decide +kernel

/-! ### An example: bytes are numbers, an object is parsed from one number -/

def toyEnv : Env where
  load := fun _ _ b => .ok (.list (b.map fun x => .int x.toNat))
  parse := fun v => match v with
    | .list [x] => .ok (.dict [("$id".toList, x)])
    | _ => .error .valueError
  put := fun _ v _ => match v with
    | .dict [(_, .int n)] => .ok [UInt8.ofNat n.toNat]
    | _ => .error .typeError

def toyDoc : Doc := make (some "a/b".toList) none false "utf-8".toList
def toyFs : Fs := [("a/b".toList, [5]), ("c".toList, [6, 7])]
def five : Val := .dict [("$id".toList, .int 5)]
def eight : Val := .dict [("$id".toList, .int 8)]

example : Holds toyEnv toyFs false "utf-8".toList "a/b".toList five := ⟨[5], .list [.int 5], by decide +kernel, by decide +kernel, by decide +kernel⟩
example : (readContent toyEnv toyFs toyDoc).1 = .ok five := by decide +kernel
example : (readContent toyEnv (write toyEnv false eight toyDoc toyFs).2 toyDoc).1 = .ok eight
    ∧ (readContent toyEnv (write toyEnv false eight toyDoc toyFs).2 (readContent toyEnv toyFs toyDoc).2).1 = .ok five := by
  decide +kernel
example : Broken toyEnv toyFs "utf-8".toList "c".toList :=
  ⟨[6, 7], by decide +kernel, .inr ⟨.list [.int 6, .int 7], .valueError, by decide +kernel, by decide +kernel⟩⟩
example : (readContent toyEnv toyFs (setPath "c".toList toyDoc)).1 = .ok .none := by decide +kernel
example : (readContent toyEnv toyFs (make (some "a/b".toList) (some "u".toList) false "utf-8".toList)).1 = .ok .none := by
  decide +kernel
example : (write toyEnv false (.int 3) toyDoc toyFs).1 = .error .typeError := by decide +kernel
example : (delFile toyDoc toyFs).2 = [("c".toList, [6, 7])] := by decide +kernel
example : filename toyDoc = .ok "b".toList := by decide +kernel

end Verif.Documents
