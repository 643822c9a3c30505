import Verif.Spec.Relations
/-
C253 a relationship is built once; C254 its keys; C255 back-populated relationships; C256 to one or to many;
C257 repositories of a session.
-/
namespace Verif.Relations

variable {load : Str → Res Cls} {rep : Str × Str → Str}

/-! ### C253 -/

theorem buildPlain_keeps (id : Str) (s : Schema) (st : State) {k : Str} {r : Rel}
    (h : AList.get? st.registry k = some r) :
    AList.get? (buildPlain load id s st).1.registry k = some r := by
  unfold buildPlain
  split
  · exact h
  · next hn =>
    simp only
    split
    · exact h
    · simp only
      rw [AList.get?_set_ne _ _ (by intro e; rw [e] at hn; rw [hn] at h; cases h)]
      exact h

theorem backLoop_keeps (id fs : Str) (bps : List (Str × Str)) (st : State) {k : Str} {r : Rel}
    (h : AList.get? st.registry k = some r) :
    AList.get? (backLoop load rep id fs bps st).1.registry k = some r := by
  induction bps with
  | nil => exact h
  | cons bp bps ih =>
    rw [backLoop]
    split
    · exact h
    · exact ih
    · have := buildPlain_keeps (load := load) (fs ++ slashRel ++ ['/'] ++ rep bp) { foreignSchema := before slashRel id } st h
      split
      all_goals (next e => rw [e] at this; exact this)

theorem build_keeps (id : Str) (s : Schema) (st : State) {k : Str} {r : Rel}
    (h : AList.get? st.registry k = some r) :
    AList.get? (build load rep id s st).1.registry k = some r := by
  unfold build
  split
  · exact h
  · next hn =>
    simp only
    split
    · exact h
    · have hk : id ≠ k := by intro e; rw [e] at hn; rw [hn] at h; cases h
      have := backLoop_keeps (load := load) (rep := rep) id (Uri.scope s.foreignSchema id) s.back st h
      split
      · next e => rw [e] at this; exact this
      · next e =>
        rw [e] at this
        simp only
        rw [AList.get?_set_ne _ _ hk]; exact this

theorem runs_keeps (bs : List (Str × Schema)) (st : State) {k : Str} {r : Rel}
    (h : AList.get? st.registry k = some r) :
    AList.get? (runs load rep bs st).registry k = some r := by
  induction bs generalizing st with
  | nil => exact h
  | cons b bs ih => exact ih _ (build_keeps b.1 b.2 st h)

theorem build_registers {id : Str} {s : Schema} {st st' : State} {r : Rel}
    (h : build load rep id s st = (st', .ok r)) : AList.get? st'.registry id = some r := by
  unfold build at h
  split at h
  · next e => cases h; exact e
  · simp only at h
    split at h
    · cases h
    · split at h
      · cases h
      · cases h; exact AList.get?_set_self _ _ _

/-- Once built, a relationship is given again, as it was built, whatever was built in between, whatever the schema given
then and whatever classes have become; nothing is built. -/
theorem C253_built_once {id : Str} {s : Schema} {st st' : State} {r : Rel}
    (h : build load rep id s st = (st', .ok r)) (bs : List (Str × Schema)) (load' : Str → Res Cls) (s' : Schema) :
    build load' rep id s' (runs load rep bs st') = (runs load rep bs st', .ok r) := by
  have := runs_keeps (load := load) (rep := rep) bs st' (build_registers h)
  rw [build, this]

/-! A world of two classes: `a#/x` with the primary key `id`, `a#/y` under construction. -/
namespace Ex
def cls : Str → Res Cls := fun u =>
  if u = "a#/x".toList then .ok (.built ["id".toList]) else if u = "a#/y".toList then .ok .proxy else .error .valueError
def st : State := ⟨[], []⟩
def rp : Str × Str → Str := fun p => "{}".toList ++ p.1
def rx : Rel := ⟨"a#/z/relationships/r".toList, "a#/x".toList, .built ["id".toList], oneToOne, ["id".toList], false⟩
end Ex

example : build Ex.cls Ex.rp "a#/z/relationships/r".toList { foreignSchema := "#/x".toList } Ex.st =
    (⟨[("a#/z/relationships/r".toList, Ex.rx)], []⟩, .ok Ex.rx) := by decide +kernel

/-! ### C254 -/

theorem build_ok {id : Str} {s : Schema} {st st' : State} {r : Rel} (hn : AList.get? st.registry id = none)
    (h : build load rep id s st = (st', .ok r)) :
    ∃ fc, load (Uri.scope s.foreignSchema id) = .ok fc ∧ r = make id (Uri.scope s.foreignSchema id) fc s := by
  unfold build at h
  rw [hn] at h
  simp only at h
  split at h
  · cases h
  · next fc hfc =>
    split at h
    · cases h
    · cases h; exact ⟨fc, hfc, rfl⟩

/-- A relationship that is built has the foreign schema of its schema, read relative to its id, the class loaded for it,
its cardinality or else `OneToOne`, and the keys of its schema; without any, the primary keys of the foreign class if
that is not under construction. -/
theorem C254_attributes_partial {id : Str} {s : Schema} {st st' : State} {r : Rel}
    (hn : AList.get? st.registry id = none) (h : build load rep id s st = (st', .ok r)) :
    r.id = id ∧ r.foreignSchema = Uri.scope s.foreignSchema id ∧ load r.foreignSchema = .ok r.foreignClass ∧
    (∀ c, s.cardinality = some c → r.cardinality = c) ∧ (s.cardinality = none → r.cardinality = "OneToOne".toList) ∧
    (s.foreignKeys ≠ [] → r.foreignKeys = s.foreignKeys) ∧
    (∀ pks, s.foreignKeys = [] → r.foreignClass = .built pks → r.foreignKeys = pks) := by
  obtain ⟨fc, hfc, rfl⟩ := build_ok hn h
  have ho : "OneToOne".toList = oneToOne := by decide +kernel
  refine ⟨rfl, rfl, hfc, fun c hc => by simp [make, hc], fun hc => by rw [ho]; simp [make, hc], fun hk => ?_, ?_⟩
  · cases fc with
    | proxy => rfl
    | built pks => simp [make, hk]
  · intro pks hk hc
    have : fc = .built pks := hc
    subst this
    simp [make, hk]

/-- Built without keys while the foreign class is under construction, a relationship has no keys, and still has none when
asked for once the class has them. -/
theorem C254_keys_violated {id : Str} {s : Schema} {st st' : State} {r : Rel} (hn : AList.get? st.registry id = none)
    (hp : load (Uri.scope s.foreignSchema id) = .ok .proxy) (hk : s.foreignKeys = [])
    (h : build load rep id s st = (st', .ok r)) (load' : Str → Res Cls) (s' : Schema) :
    r.foreignKeys = [] ∧ build load' rep id s' st' = (st', .ok r) := by
  refine ⟨?_, C253_built_once h [] load' s'⟩
  obtain ⟨fc, hfc, rfl⟩ := build_ok hn h
  rw [hp] at hfc; cases hfc
  exact hk

example : (build Ex.cls Ex.rp "a#/z/relationships/r".toList { foreignSchema := "#/y".toList } Ex.st).2.map Rel.foreignKeys =
    .ok [] := by decide +kernel

/-! ### C255 -/

theorem buildPlain_reverse (id : Str) (s : Schema) (st : State) : (buildPlain load id s st).1.reverse = st.reverse := by
  unfold buildPlain
  split
  · rfl
  · simp only; split <;> rfl

theorem backLoop_reverse (id fs : Str) (bps : List (Str × Str)) (st : State) :
    (backLoop load rep id fs bps st).1.reverse = st.reverse := by
  induction bps with
  | nil => rfl
  | cons bp bps ih =>
    rw [backLoop]
    split
    · rfl
    · exact ih
    · have := buildPlain_reverse (load := load) (fs ++ slashRel ++ ['/'] ++ rep bp) { foreignSchema := before slashRel id } st
      split
      all_goals (next e => rw [e] at this; exact this)

/-- No class ever gets a relationship from `backPopulates`. -/
theorem C255_never_violated (id : Str) (s : Schema) (st : State) :
    (build load rep id s st).1.reverse = st.reverse := by
  unfold build
  split
  · rfl
  · simp only
    split
    · rfl
    · have := backLoop_reverse (load := load) (rep := rep) id (Uri.scope s.foreignSchema id) s.back st
      split
      all_goals (next e => rw [e] at this; exact this)

theorem backLoop_proxies {id fs : Str} {bps : List (Str × Str)} (h : Proxies load id bps) (rest : List (Str × Str))
    (st : State) : backLoop load rep id fs (bps ++ rest) st = backLoop load rep id fs rest st := by
  induction bps with
  | nil => rfl
  | cons bp bps ih =>
    rw [List.cons_append, backLoop, h bp (List.mem_cons_self ..)]
    exact ih fun b hb => h b (List.mem_cons_of_mem _ hb)

/-- If every class to be populated is under construction, `backPopulates` has no effect. -/
theorem C255_proxies_partial {id : Str} {s : Schema} (h : Proxies load id s.back) (st : State) :
    build load rep id s st = build load rep id { s with back := [] } st := by
  have := backLoop_proxies (rep := rep) (fs := Uri.scope s.foreignSchema id) h [] st
  rw [List.append_nil] at this
  unfold build
  simp only [this]
  rfl

theorem before_upTo {a s own : Str} (ha : a ≠ []) (h : UpTo a s own) : before a s = own := by
  obtain ⟨⟨y, he⟩, hf⟩ := h
  induction s generalizing own with
  | nil => simp at he; exact absurd he.2.1 ha
  | cons c s ih =>
    rw [before]
    by_cases hp : a.isPrefixOf (c :: s) = true
    · obtain ⟨t, ht⟩ := List.isPrefixOf_iff_prefix.1 hp
      have := hf [] t (by simp [ht])
      rw [if_pos hp]
      exact (List.eq_nil_of_length_eq_zero (by simpa using this)).symm
    · rw [if_neg hp]
      cases own with
      | nil => exact absurd (List.isPrefixOf_iff_prefix.2 ⟨y, by simpa using he.symm⟩) hp
      | cons d own =>
        simp only [List.cons_append, List.cons.injEq] at he
        obtain ⟨rfl, he⟩ := he
        rw [ih (fun x y hx => by
          have := hf (c :: x) y (by simp [hx])
          simpa using this) he]

/-- As soon as one is a class, the relationship is not built: TypeError; only a relationship under an id made of the
`repr` of the entry is left in the registry. -/
theorem C255_fails {id : Str} {s : Schema} {st : State} {fc gc : Cls} {pre post : List (Str × Str)} {bp : Str × Str}
    {pks : List Str} (hn : AList.get? st.registry id = none) (hf : load (Uri.scope s.foreignSchema id) = .ok fc)
    (hb : s.back = pre ++ bp :: post) (hpre : Proxies load id pre) (hbp : load (Uri.scope bp.2 id) = .ok (.built pks))
    (bid : Str) (hbid : bid = Uri.scope s.foreignSchema id ++ "/relationships/".toList ++ rep bp)
    (hnb : AList.get? st.registry bid = none)
    (own : Str) (hown : UpTo "/relationships".toList id own) (hg : load (Uri.scope own bid) = .ok gc) :
    ∃ r, build load rep id s st = ({ st with registry := AList.set st.registry bid r }, .error .typeError) ∧
      r.id = bid ∧ r.foreignSchema = Uri.scope own bid ∧ (id ≠ bid → AList.get? (build load rep id s st).1.registry id = none) := by
  have hs : "/relationships/".toList = slashRel ++ ['/'] := by decide +kernel
  have hb' : before slashRel id = own := before_upTo (by decide +kernel) hown
  rw [hs, ← List.append_assoc] at hbid
  have key : build load rep id s st = (⟨AList.set st.registry bid (make bid (Uri.scope (before slashRel id) bid) gc
      { foreignSchema := before slashRel id }), st.reverse⟩, .error .typeError) := by
    unfold build
    rw [hn]
    simp only [hf, hb, backLoop_proxies hpre]
    rw [backLoop, hbp]
    simp only [← hbid, buildPlain, hnb, hb', hg]
  refine ⟨_, key, rfl, by rw [hb']; rfl, fun hne => ?_⟩
  rw [key]
  simp only
  rw [AList.get?_set_ne _ _ (Ne.symm hne)]; exact hn

example : (build Ex.cls Ex.rp "a#/x/relationships/r".toList
    { foreignSchema := "#/y".toList, back := [("b".toList, "#/x".toList)] } Ex.st).2 = .error .typeError ∧
    AList.keys (build Ex.cls Ex.rp "a#/x/relationships/r".toList
      { foreignSchema := "#/y".toList, back := [("b".toList, "#/x".toList)] } Ex.st).1.registry =
      ["a#/y/relationships/{}b".toList] := by decide +kernel
example : UpTo "/relationships".toList "a#/x/relationships/r".toList "a#/x".toList := by
  refine ⟨⟨"/r".toList, by decide +kernel⟩, fun x y h => ?_⟩
  have hc : ∀ n < 4, ¬ "/relationships".toList <+: ("a#/x/relationships/r".toList.drop n) := by decide +kernel
  refine Nat.le_of_not_lt fun hn => hc x.length hn ⟨y, ?_⟩
  rw [h, List.append_assoc, List.drop_left]

/-! ### C256 -/

theorem hasSub_iff (a s : Str) : hasSub a s = true ↔ Occurs a s := by
  induction s with
  | nil =>
    rw [hasSub, List.isEmpty_iff]
    constructor
    · rintro rfl; exact ⟨[], [], rfl⟩
    · rintro ⟨x, y, h⟩
      have := congrArg List.length h
      simp at this
      exact List.eq_nil_of_length_eq_zero (by omega)
  | cons c s ih =>
    rw [hasSub, Bool.or_eq_true, List.isPrefixOf_iff_prefix, ih]
    constructor
    · rintro (⟨y, h⟩ | ⟨x, y, h⟩)
      · exact ⟨[], y, h.symm⟩
      · exact ⟨c :: x, y, by rw [h]; rfl⟩
    · rintro ⟨x, y, h⟩
      cases x with
      | nil => exact .inl ⟨y, h.symm⟩
      | cons d x =>
        simp only [List.cons_append, List.cons.injEq] at h
        exact .inr ⟨x, y, h.2⟩

/-- A relationship counts as leading to many unless its cardinality has `OneTo` in it. -/
theorem C256_exact {id : Str} {s : Schema} {st st' : State} {r : Rel} (hn : AList.get? st.registry id = none)
    (h : build load rep id s st = (st', .ok r)) : r.one2many = false ↔ Occurs "OneTo".toList r.cardinality := by
  obtain ⟨fc, hfc, rfl⟩ := build_ok hn h
  have ho : "OneTo".toList = oneTo := by decide +kernel
  rw [ho, ← hasSub_iff]
  show (!hasSub oneTo _) = false ↔ _
  rw [Bool.not_eq_false']; rfl

/-- Both cardinalities of the schema count as leading to many: right for `one2many` only. -/
theorem C256_violated {id : Str} {s : Schema} {st st' : State} {r : Rel} {b : Bool} (hn : AList.get? st.registry id = none)
    {c : Str} (hc : s.cardinality = some c) (hm : ToMany c b) (h : build load rep id s st = (st', .ok r)) :
    r.one2many = true ∧ (r.one2many = b ↔ c = "one2many".toList) := by
  obtain ⟨fc, hfc, rfl⟩ := build_ok hn h
  have h1 : (make id (Uri.scope s.foreignSchema id) fc s).one2many = !hasSub oneTo c := by simp [make, hc]
  rw [h1]
  cases hm <;> decide +kernel

/-- `OneToMany` counts as leading to one, `ManyToOne` as leading to many. -/
theorem C256_names_violated (id fs : Str) (fc : Cls) (s : Schema) :
    (make id fs fc { s with cardinality := some "OneToMany".toList }).one2many = false ∧
    (make id fs fc { s with cardinality := some "ManyToOne".toList }).one2many = true :=
  ⟨by show (!hasSub oneTo "OneToMany".toList) = false; decide +kernel,
   by show (!hasSub oneTo "ManyToOne".toList) = true; decide +kernel⟩

example : (build Ex.cls Ex.rp "a#/z/relationships/r".toList
    { foreignSchema := "#/x".toList, cardinality := some "one2one".toList } Ex.st).2.map Rel.one2many = .ok true := by
  decide +kernel

/-! ### C257 -/

variable {early late : Str → Option Exc} {reg : AList Str Str}

/-- If the session has repositories whose class has the name asked for, the first of them is given and nothing is made. -/
theorem C257_found_partial {i : Nat} {name : Str} {s : Sessions} {pre post : List Repo} {r : Repo}
    (h : s.repos i = pre ++ r :: post) (hr : r.cls = name) (hpre : ∀ q ∈ pre, q.cls ≠ name) :
    getOrCreate early late reg i name s = (s, .ok r) := by
  have : (s.repos i).find? (fun r => r.cls == name) = some r := by
    rw [h, List.find?_append, List.find?_eq_none.2 (by intro q hq; simpa using hpre q hq)]
    simp [hr]
  rw [getOrCreate, this]

/-- A name that is neither the class of a repository of the session nor registered is a TypeError. -/
theorem C257_unknown {i : Nat} {name : Str} {s : Sessions} (h : ∀ r ∈ s.repos i, r.cls ≠ name)
    (hr : AList.get? reg name = none) : getOrCreate early late reg i name s = (s, .error .typeError) := by
  rw [getOrCreate, List.find?_eq_none.2 (by intro q hq; simpa using h q hq), hr]

theorem create_eq {i : Nat} {name c : Str} {s : Sessions} (h : ∀ r ∈ s.repos i, r.cls ≠ name)
    (hr : AList.get? reg name = some c) (he : early c = none) (hl : late c = none) :
    getOrCreate early late reg i name s = (bind { s with fresh := s.fresh + 1 } s.dflt ⟨c, s.fresh⟩, .ok ⟨c, s.fresh⟩) := by
  rw [getOrCreate, List.find?_eq_none.2 (by intro q hq; simpa using h q hq), hr]
  simp [makeRepo, he, hl]

/-- A repository made for a session that is not the default one is bound to the default session: the session asked has
none more than before, and asked again makes another one. -/
theorem C257_other_session_violated {i : Nat} {name c : Str} {s : Sessions} (hi : i ≠ s.dflt)
    (h : ∀ r ∈ s.repos i, r.cls ≠ name) (hr : AList.get? reg name = some c) (he : early c = none) (hl : late c = none) :
    ∃ s' s'' r r', getOrCreate early late reg i name s = (s', .ok r) ∧ s'.repos i = s.repos i ∧
      s'.repos s.dflt = s.repos s.dflt ++ [r] ∧
      getOrCreate early late reg i name s' = (s'', .ok r') ∧ r'.obj ≠ r.obj := by
  have h1 : (bind { s with fresh := s.fresh + 1 } s.dflt ⟨c, s.fresh⟩).repos i = s.repos i := by simp [bind, hi]
  refine ⟨_, _, _, _, create_eq h hr he hl, h1, by simp [bind],
    create_eq (s := bind { s with fresh := s.fresh + 1 } s.dflt ⟨c, s.fresh⟩) (by rw [h1]; exact h) hr he hl, ?_⟩
  show s.fresh + 1 ≠ s.fresh
  omega

/-- Asked twice, the default session gives the same repository exactly if the name is that of the class registered under
it. -/
theorem C257_default_twice {name c : Str} {s : Sessions} (h : ∀ r ∈ s.repos s.dflt, r.cls ≠ name)
    (hr : AList.get? reg name = some c) (he : early c = none) (hl : late c = none) :
    ∃ s' r, getOrCreate early late reg s.dflt name s = (s', .ok r) ∧
      ((getOrCreate early late reg s.dflt name s').2 = .ok r ↔ c = name) := by
  have h1 : (bind { s with fresh := s.fresh + 1 } s.dflt ⟨c, s.fresh⟩).repos s.dflt = s.repos s.dflt ++ [⟨c, s.fresh⟩] := by
    simp [bind]
  refine ⟨_, _, create_eq h hr he hl, ?_, ?_⟩
  · intro e
    by_cases hc : c = name
    · exact hc
    · rw [create_eq (s := bind { s with fresh := s.fresh + 1 } s.dflt ⟨c, s.fresh⟩) (by
        rw [h1]; intro r hr'
        rcases List.mem_append.1 hr' with hm | hm
        · exact h r hm
        · rw [List.mem_singleton.1 hm]; exact hc) hr he hl] at e
      simp only [Except.ok.injEq, Repo.mk.injEq] at e
      have : s.fresh + 1 = s.fresh := e.2
      omega
  · intro hc
    rw [C257_found_partial (r := ⟨c, s.fresh⟩) (post := []) h1 hc h]

/-- No name registered is that of its class: in no session is a repository made under a registered name found again. -/
theorem C257_registered_violated (name c : Str) (h : AList.get? repositoriesRegistry name = some c) : c ≠ name := by
  have hm := AList.mem_of_get? h
  simp only [repositoriesRegistry, List.mem_cons, Prod.mk.injEq, List.not_mem_nil, or_false] at hm
  rcases hm with ⟨rfl, rfl⟩ | ⟨rfl, rfl⟩ | ⟨rfl, rfl⟩ | ⟨rfl, rfl⟩ <;> decide +kernel

example : (getOrCreate (fun _ => none) (fun _ => none) repositoriesRegistry 1 "json".toList ⟨fun _ => [], 0, 0⟩).2 =
    .ok ⟨"JsonFileRepository".toList, 0⟩ := by decide +kernel

end Verif.Relations
