import Verif.Spec.Storing
/-
C219-C229: repositories, classes named by data, inputs, and types that count as false.
-/
namespace Verif.Storing
open Spec

/-! ### C219: a repository of many objects holds all that was committed, in order -/

/-- If lists are committed: what the saver makes of them, one after the other. -/
theorem C219_lists_partial (ser : Val → Res Val) (vs : List Val) (ls : List (List Val)) (h : AllSaved ser vs ls) :
    ∀ (r : Repo), r.many = true → (commits ser true r vs).list = r.list ++ ls.flatten := by
  induction h with
  | nil => intro r _; simp [commits]
  | cons v l vs ls h _ ih =>
    intro r hm
    have hc : commit ser true r v = (.ok (), { r with list := r.list ++ l }) := by
      simp [commit, h, hm, iterated]
    rw [commits, hc]
    rw [ih ⟨r.many, r.list ++ l, r.single⟩ hm]
    simp

example : (commits .ok true ⟨true, [], .none⟩ [.list [.int 1, .int 2], .list [], .list [.int 1]]).list
    = [.int 1, .int 2, .int 1] := by decide +kernel

/-- A commit that fails changes nothing, in every repository. -/
theorem C219_failed_partial (ser : Val → Res Val) (save : Bool) (r : Repo) (v : Val) (e : Exc)
    (h : (commit ser save r v).1 = .error e) : (commit ser save r v).2 = r := by
  revert h
  rw [commit]
  split
  · intro _; rfl
  · split
    · split
      · intro _; rfl
      · intro h; exact absurd h (by simp)
    · intro h; exact absurd h (by simp)

example : commit .ok true ⟨true, [.int 1], .none⟩ (.int 2) = (.error .typeError, ⟨true, [.int 1], .none⟩) := by decide +kernel

/-- Of a single object that is a mapping, the names are added; without saving as well. -/
theorem C219_single_violated (ser : Val → Res Val) (r : Repo) (hm : r.many = true) (d : List (Str × Val)) :
    commit ser false r (.dict d) = (.ok (), { r with list := r.list ++ d.map fun p => .str p.1 }) := by
  simp [commit, hm, iterated]

example : commit .ok true ⟨true, [], .none⟩ (.dict [("a".toList, .int 1)]) = (.ok (), ⟨true, [.str "a".toList], .none⟩) := by
  decide +kernel

/-! ### C220: a committed object is contained in the repository -/

/-- In a repository of many, if it is not saved or the saver leaves it as it is. -/
theorem C220_many_partial (ser : Val → Res Val) (save : Bool) (r : Repo) (hm : r.many = true) (l : List Val)
    (hs : save = true → ser (.list l) = .ok (.list l)) (x : Val) (hx : x ∈ l) :
    contains (commit ser save r (.list l)).2 x = .ok true := by
  have h : (if save then ser (.list l) else .ok (.list l)) = .ok (.list l) := by
    cases save with
    | true => exact hs rfl
    | false => rfl
  have hc : commit ser save r (.list l) = (.ok (), { r with list := r.list ++ l }) := by
    rw [commit, h]
    simp [hm, iterated]
  rw [hc]
  simp [contains, hm, isIn, hx]

/-- It stays contained whatever is committed afterwards. -/
theorem C220_stays_partial (ser : Val → Res Val) (save : Bool) (vs : List Val) : ∀ (r : Repo) (_ : r.many = true) (x : Val),
    contains r x = .ok true → contains (commits ser save r vs) x = .ok true := by
  induction vs with
  | nil => intro r _ x h; exact h
  | cons v vs ih =>
    intro r hm x h
    rw [commits]
    have hk : (commit ser save r v).2.many = true ∧ ∃ l, (commit ser save r v).2.list = r.list ++ l := by
      rw [commit]
      split
      · exact ⟨hm, [], by simp⟩
      · rw [if_pos hm]
        split
        · exact ⟨hm, [], by simp⟩
        · exact ⟨hm, _, rfl⟩
    obtain ⟨hm', l, hl⟩ := hk
    apply ih _ hm'
    rw [contains, if_pos hm] at h
    rw [contains, if_pos hm', hl]
    simp only [isIn, Except.ok.injEq, decide_eq_true_eq] at h ⊢
    exact List.mem_append_left _ h

example : contains (commits .ok true ⟨true, [.int 1], .none⟩ [.list [.int 2], .int 3, .list [.int 4]]) (.int 1) = .ok true := by
  decide +kernel

/-- Not if the saver makes something else of it. -/
theorem C220_saved_violated (ser : Val → Res Val) (x y : Val) (h : ser (.list [x]) = .ok (.list [y])) (hne : x ≠ y) :
    contains (commit ser true ⟨true, [], .none⟩ (.list [x])).2 x = .ok false := by
  simp [commit, h, iterated, contains, isIn, hne]

example : contains (commit (fun _ => .ok (.list [.str "1".toList])) true ⟨true, [], .none⟩ (.list [.int 1])).2 (.int 1)
    = .ok false := by decide +kernel

/-- A repository of a single mapping is asked for its names: TypeError. -/
theorem C220_single_violated (ser : Val → Res Val) (r : Repo) (hm : r.many = false) (d : List (Str × Val)) :
    contains (commit ser false r (.dict d)).2 (.dict d) = .error .typeError := by
  simp [commit, hm, contains, isIn]

/-- Such a repository contains the names of the mapping, and no number. -/
theorem C220_names_violated (ser : Val → Res Val) (r : Repo) (hm : r.many = false) (d : List (Str × Val)) (x : Val)
    (hl : ∀ l, x ≠ .list l) (hd : ∀ m, x ≠ .dict m) :
    ∃ b, contains (commit ser false r (.dict d)).2 x = .ok b ∧ (b = true ↔ ∃ k ∈ d.map Prod.fst, x = .str k) := by
  have e : contains (commit ser false r (.dict d)).2 x = isIn x (.dict d) := by simp [commit, hm, contains]
  rw [e]
  cases x with
  | list l => exact absurd rfl (hl l)
  | dict m => exact absurd rfl (hd m)
  | str k =>
    refine ⟨_, rfl, ?_⟩
    rw [AList.contains_iff]
    simp only [AList.keys, Val.str.injEq]
    constructor
    · exact fun h => ⟨k, h, rfl⟩
    · rintro ⟨k', h, rfl⟩; exact h
  | _ => exact ⟨false, rfl, by simp⟩

/-- A repository of a single text contains the parts of the text, and asking it for anything else is a TypeError. -/
theorem C220_text_violated (ser : Val → Res Val) (r : Repo) (hm : r.many = false) (s : Str) :
    (∀ a t b, s = a ++ t ++ b → contains (commit ser false r (.str s)).2 (.str t) = .ok true)
    ∧ ∀ x, (∀ t, x ≠ .str t) → contains (commit ser false r (.str s)).2 x = .error .typeError := by
  have e : ∀ x, contains (commit ser false r (.str s)).2 x = isIn x (.str s) := by simp [commit, hm, contains]
  constructor
  · rintro a t b rfl
    rw [e]
    simp only [isIn, Except.ok.injEq, decide_eq_true_eq]
    exact ⟨a, b, rfl⟩
  · intro x hx
    rw [e]
    cases x <;> first | rfl | exact absurd rfl (hx _)

example : contains (commit .ok false ⟨false, [], .none⟩ (.dict [("a".toList, .int 1)])).2 (.str "a".toList) = .ok true
    ∧ contains (commit .ok false ⟨false, [], .none⟩ (.dict [("a".toList, .int 1)])).2 (.int 1) = .ok false
    ∧ contains (commit .ok false ⟨false, [], .none⟩ (.str "abc".toList)).2 (.str "bc".toList) = .ok true := by
  decide +kernel

/-! ### C221: the dump of a repository is the serialisation of what was committed -/

/-- If it was not saved when it was committed, or serialising twice is serialising once. -/
theorem C221_dump_partial (ser : Val → Res Val) (save : Bool) (r : Repo) (hm : r.many = false) (v w : Val)
    (h : ser v = .ok w) (hs : save = true → ser w = .ok w) : dump ser (commit ser save r v).2 = ser v := by
  cases save with
  | false => simp [commit, hm, dump]
  | true => simp [commit, h, hm, dump, hs]

/-- The names of types, written as texts; texts are written with quotes. -/
def quote : Val → Res Val
  | .str s => .ok (.str ('"' :: s ++ ['"']))
  | v => .ok v

example : dump quote (commit quote false ⟨false, [], .none⟩ (.str "a".toList)).2 = .ok (.str "\"a\"".toList) := by decide +kernel

/-- Otherwise it is serialised twice. -/
theorem C221_twice_violated (ser : Val → Res Val) (r : Repo) (hm : r.many = false) (v w : Val) (h : ser v = .ok w) :
    dump ser (commit ser true r v).2 = ser w := by
  simp [commit, h, hm, dump]

example : dump quote (commit quote true ⟨false, [], .none⟩ (.str "a".toList)).2 = .ok (.str "\"\"a\"\"".toList) := by
  decide +kernel

/-! ### C222: committing to a file repository writes the file, or changes nothing -/

/-- It never succeeds; no file is written after the saver is done. If the saver fails, nothing else changes. -/
theorem C222_failed_partial (save enc : Val → Res Val) (parent : Str → Str) (path : Option Str) (r : Repo) (d : Disk) (v : Val) :
    (∃ e, (commitFile save enc parent path r d v).1 = .error e) ∧ (commitFile save enc parent path r d v).2.2.files = d.files
    ∧ ∀ e, save v = .error e → commitFile save enc parent path r d v = (.error e, r, d) := by
  refine ⟨?_, ?_, ?_⟩
  · rw [commitFile]
    split
    · exact ⟨_, rfl⟩
    · split
      · exact ⟨_, rfl⟩
      · split
        · exact ⟨_, rfl⟩
        · exact ⟨_, rfl⟩
  · rw [commitFile]
    split
    · rfl
    · split
      · rfl
      · split
        · rfl
        · simp only
          split
          · rfl
          · rfl
  · intro e h
    simp [commitFile, commit, h]

/-- NameError, after the object was added and the directory was made. -/
theorem C222_name_violated (save enc : Val → Res Val) (parent : Str → Str) (p : Str) (r : Repo) (hm : r.many = false) (d : Disk)
    (v w x : Val) (hs : save v = .ok w) (he : enc w = .ok x) (hp : parent p ∉ d.dirs) :
    commitFile save enc parent (some p) r d v
      = (.error .nameError, { r with single := w }, { d with dirs := parent p :: d.dirs }) := by
  simp [commitFile, commit, hs, hm, he, hp]

example : commitFile .ok .ok (fun _ => "d".toList) (some "d/f".toList) ⟨false, [], .none⟩ ⟨[], []⟩ (.int 1)
    = (.error .nameError, ⟨false, [], .int 1⟩, ⟨[], ["d".toList]⟩) := by decide +kernel

/-! ### C223: a JSON text is read -/

/-- Errors of the deserializer are passed on. -/
theorem C223_error_partial (des : Str → Res Str) (s : Str) (e : Exc) (h : des s = .error e) : readJson des s = .error e := by
  rw [readJson, h]

example : readJson (fun _ => .error .invalidValue) "{}".toList = .error .invalidValue := by decide +kernel

/-- No text is read: AttributeError. -/
theorem C223_read_violated (des : Str → Res Str) (s t : Str) (h : des s = .ok t) : readJson des s = .error .attributeError := by
  rw [readJson, h]

example : readJson .ok "{}".toList = .error .attributeError := by decide +kernel

/-! ### C224: making an object leaves the data as they are -/

/-- If they name no class, or are given as keyword arguments. -/
theorem C224_kept_partial (c : Classes) (kw : Bool) (cls : Str) (d : AList Str Val)
    (h : kw = true ∨ ∀ v, AList.get? d "$schema".toList = some v → Val.truthy v = false) : (make c kw cls d).given = d := by
  rcases h with rfl | h
  · rw [make]
    split
    · rfl
    · rfl
    · split
      · rfl
      · split <;> rfl
  · have hn : named c cls d = (.ok none, d) := by
      rw [named]
      split
      · next s hs =>
        have := h _ hs
        rw [if_pos (by simpa [Val.truthy] using this)]
      · next v _ hv => rw [if_neg (by rw [h _ hv]; simp)]
      · rfl
    rw [make, hn]
    simp

/-- Otherwise the name of the class is removed from the dictionary of the caller, even if no object is made. -/
theorem C224_removed_violated (c : Classes) (cls s : Str) (d : AList Str Val) (h : Names d s) :
    (make c false cls d).given = AList.erase d "$schema".toList := by
  obtain ⟨h, hs⟩ := h
  rw [make, named, h]
  simp only [if_neg hs]
  cases c.convert (c.scope s cls) with
  | error e => rfl
  | ok i =>
    simp only
    split
    · rfl
    · cases c.load i <;> rfl

/-- Classes A and B, of which B is a subclass of A. -/
def ab : Classes where
  scope s _ := s
  convert s := .ok s
  load s := if s = "B".toList then .ok () else .error .keyError
  sub c d := decide (c = "B".toList ∧ d = "A".toList)

/-- Data of class B. -/
def dataB : AList Str Val := [("$schema".toList, .str "B".toList), ("x".toList, .int 1)]

example : (make ab false "A".toList dataB).given = [("x".toList, .int 1)] ∧ (make ab true "A".toList dataB).given = dataB := by
  decide +kernel

/-! ### C225: the class of an object is the one its data name -/

/-- If there is such a class; else it is the class that was called. -/
theorem C225_class (c : Classes) (kw : Bool) (cls : Str) (d : AList Str Val) :
    (∀ s i, Names d s → c.convert (c.scope s cls) = .ok i → i = cls ∨ c.load i = .ok () →
      ∃ n, (make c kw cls d).result = .ok (i, n))
    ∧ (AList.get? d "$schema".toList = none → (make c kw cls d).result = .ok (cls, 1)) := by
  constructor
  · rintro s i ⟨h, hs⟩ hc hl
    rw [make, named, h]
    simp only [if_neg hs, hc]
    by_cases hi : i = cls
    · exact ⟨1, by rw [if_pos hi, hi]⟩
    · rw [if_neg hi, hl.resolve_left hi]
      exact ⟨_, rfl⟩
  · intro h
    rw [make, named, h]

example : (make ab false "A".toList dataB).result = .ok ("B".toList, 2) := by decide +kernel

/-- If there is none, no object is made: the errors of the identifier and of loading are passed on. -/
theorem C225_unknown (c : Classes) (kw : Bool) (cls s : Str) (d : AList Str Val) (h : Names d s) (e : Exc)
    (he : c.convert (c.scope s cls) = .error e
      ∨ ∃ i, c.convert (c.scope s cls) = .ok i ∧ i ≠ cls ∧ c.load i = .error e) :
    (make c kw cls d).result = .error e := by
  obtain ⟨h, hs⟩ := h
  rw [make, named, h]
  rcases he with he | ⟨i, hc, hi, hl⟩
  · simp only [if_neg hs, he]
  · simp only [if_neg hs, hc, if_neg hi, hl]

example : (make ab false "B".toList [("$schema".toList, .str "C".toList)]).result = .error .keyError := by decide +kernel

/-! ### C226: objects made of the same data are of the same class -/

/-- If the data are given as keyword arguments, or name no class. -/
theorem C226_again_partial (c : Classes) (kw : Bool) (cls : Str) (d : AList Str Val)
    (h : kw = true ∨ ∀ v, AList.get? d "$schema".toList = some v → Val.truthy v = false) :
    (make c kw cls (make c kw cls d).given).result = (make c kw cls d).result := by
  rw [C224_kept_partial c kw cls d h]

/-- Otherwise the second object is of the class that was called, whatever the data named. -/
theorem C226_second_violated (c : Classes) (cls s : Str) (d : AList Str Val) (h : Names d s) :
    (make c false cls (make c false cls d).given).result = .ok (cls, 1) := by
  rw [C224_removed_violated c cls s d h]
  refine (C225_class c false cls _).2 ?_
  rw [AList.get?_erase]
  simp

example : (make ab false "A".toList (make ab false "A".toList dataB).given).result = .ok ("A".toList, 1) := by decide +kernel

/-! ### C227: an object is initialised once -/

/-- Exactly: twice if the data name a proper subclass, else once. -/
theorem C227_times_partial (c : Classes) (kw : Bool) (cls i : Str) (d : AList Str Val) (n : Nat)
    (h : (make c kw cls d).result = .ok (i, n)) : n = if i ≠ cls ∧ c.sub i cls = true then 2 else 1 := by
  revert h
  rw [make]
  split
  · intro h; exact absurd h (by simp)
  · intro h; cases h; simp
  · split
    · intro h; cases h; simp
    · next hi =>
      split
      · intro h; exact absurd h (by simp)
      · intro h
        cases h
        cases c.sub i cls <;> simp [hi]

/-- So not once for all data. -/
theorem C227_twice_violated (c : Classes) (kw : Bool) (cls i s : Str) (d : AList Str Val) (h : Names d s)
    (hc : c.convert (c.scope s cls) = .ok i) (hi : i ≠ cls) (hl : c.load i = .ok ()) (hs : c.sub i cls = true) :
    (make c kw cls d).result = .ok (i, 2) := by
  obtain ⟨n, hn⟩ := (C225_class c kw cls d).1 s i h hc (.inr hl)
  have := C227_times_partial c kw cls i d n hn
  rw [if_pos ⟨hi, hs⟩] at this
  rw [hn, this]

example : (make ab true "A".toList dataB).result = .ok ("B".toList, 2) := by decide +kernel

/-! ### C228: the inputs of a collection are those of its values -/

/-- Of an array, by the types of its items. -/
theorem C228_array_partial (sh : Nat → Str) (ty : Nat → Val → List Str) (inc : Nat → Bool) (l : List Val) (x : Str) :
    x ∈ arrayInputs sh ty inc l ↔ ∃ k v i, l[k]? = some v ∧ inc k = true ∧ i ∈ ty k v ∧ x = sh k ++ '.' :: i := by
  simp only [arrayInputs, List.mem_flatMap, List.mem_filter, List.mem_map, below]
  constructor
  · rintro ⟨⟨v, k⟩, ⟨hm, hi⟩, i, hi', rfl⟩
    exact ⟨k, v, i, by simpa [List.mem_zipIdx_iff_getElem?] using hm, hi, hi', rfl⟩
  · rintro ⟨k, v, i, hk, hi, hi', rfl⟩
    exact ⟨(v, k), ⟨by simpa [List.mem_zipIdx_iff_getElem?] using hk, hi⟩, i, hi', rfl⟩

example : arrayInputs (fun _ => "0".toList) (fun _ _ => ["a".toList]) (fun _ => true) [.none] = ["0.a".toList] := by
  decide +kernel

/-- Of an object, every value is looked at by the type of every included property. -/
theorem C228_object_partial (req : List Str) (ty : Str → Val → List Str) (inc : Str → Bool) (d : List (Str × Val)) (x : Str) :
    x ∈ objectInputs req ty inc d ↔ x ∈ req ∨ ∃ k w k' v i, (k, w) ∈ d ∧ inc k = true ∧ (k', v) ∈ d ∧ i ∈ ty k v
      ∧ x = k' ++ '.' :: i := by
  simp only [objectInputs, List.mem_append, List.mem_flatMap, List.mem_filter, List.mem_map, below]
  constructor
  · rintro (h | ⟨⟨k, w⟩, ⟨hm, hi⟩, ⟨k', v⟩, hm', i, hi', rfl⟩)
    · exact .inl h
    · exact .inr ⟨k, w, k', v, i, hm, hi, hm', hi', rfl⟩
  · rintro (h | ⟨k, w, k', v, i, hm, hi, hm', hi', rfl⟩)
    · exact .inl h
    · exact .inr ⟨(k, w), ⟨hm, hi⟩, (k', v), hm', i, hi', rfl⟩

/-- So they are right if all are included and all types see the same inputs. -/
theorem C228_same_partial (req : List Str) (ty : Val → List Str) (d : List (Str × Val)) (x : Str) :
    x ∈ objectInputs req (fun _ => ty) (fun _ => true) d ↔ x ∈ req ∨ ∃ k v i, (k, v) ∈ d ∧ i ∈ ty v ∧ x = k ++ '.' :: i := by
  rw [C228_object_partial]
  constructor
  · rintro (h | ⟨k, w, k', v, i, _, _, hm', hi', rfl⟩)
    · exact .inl h
    · exact .inr ⟨k', v, i, hm', hi', rfl⟩
  · rintro (h | ⟨k, v, i, hm, hi, rfl⟩)
    · exact .inl h
    · exact .inr ⟨k, v, k, v, i, hm, rfl, hm, hi, rfl⟩

/-- The type of `a` takes all texts for inputs, the type of `b` none. -/
def readers : Str → Val → List Str := fun k v => match v with
  | .str s => if k = "a".toList then [s] else []
  | _ => []

/-- Else there may be inputs that no value has by its own type. -/
theorem C228_mixed_violated :
    "b.x".toList ∈ objectInputs [] readers (fun _ => true) [("a".toList, .none), ("b".toList, .str "x".toList)]
    ∧ ∀ k v i, (k, v) ∈ [("a".toList, Val.none), ("b".toList, Val.str "x".toList)] → i ∈ readers k v → False := by
  refine ⟨by decide +kernel, ?_⟩
  intro k v i hm hi
  simp only [List.mem_cons, Prod.mk.injEq, List.not_mem_nil, or_false] at hm
  rcases hm with ⟨rfl, rfl⟩ | ⟨rfl, rfl⟩
  · simp [readers] at hi
  · revert hi
    have : readers "b".toList (.str "x".toList) = [] := by decide +kernel
    rw [this]
    simp

/-! ### C229: a declared type is used for additional properties and for items -/

/-- If it counts as true: additional properties and items are accepted exactly if the type accepts them. -/
theorem C229_true_partial (d : Decl) (h : d ≠ .null ∧ d ≠ .no) (v : Val) (l : List Val) :
    additional d v = d.accepts v ∧ (arrayAccepts d l = true ↔ ∀ x ∈ l, d.accepts x = true) := by
  cases d with
  | null => exact absurd rfl h.1
  | no => exact absurd rfl h.2
  | yes => simp [additional, arrayAccepts, itemsOf, Decl.truth]
  | type f => simp [additional, arrayAccepts, itemsOf, Decl.truth]

example : additional (.type fun v => v = .int 1) (.int 1) = true
    ∧ arrayAccepts (.type fun v => v = .int 1) [.int 1, .int 2] = false := by decide +kernel

/-- Additional properties of type null are refused, even None, which the type accepts, and nothing else. False refuses
them, as it should. -/
theorem C229_additional_violated (v : Val) : additional .null v = false ∧ (Decl.accepts .null v = true ↔ v = .none)
    ∧ additional .no v = false ∧ Decl.accepts .no v = false := ⟨rfl, by simp [Decl.accepts], rfl, rfl⟩

/-- Items of type null or false are of any type, also those that the type refuses. -/
theorem C229_items_violated (d : Decl) (h : d = .null ∨ d = .no) (l : List Val) (hl : ∃ x ∈ l, x ≠ .none) :
    arrayAccepts d l = true ∧ ∃ x ∈ l, d.accepts x = false := by
  refine ⟨?_, ?_⟩
  · rcases h with rfl | rfl <;> simp [arrayAccepts, itemsOf, Decl.truth, Decl.accepts]
  · obtain ⟨x, hx, hn⟩ := hl
    refine ⟨x, hx, ?_⟩
    rcases h with rfl | rfl <;> simp [Decl.accepts, hn]

example : Decl.accepts .no (.int 1) = false ∧ arrayAccepts .no [.int 1] = true := by decide +kernel

end Verif.Storing
