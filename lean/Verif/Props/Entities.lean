import Verif.Lemmas.Entities
/-
C266 the root of an object; C267 the parent of an object; C268 the context of an object; C269 references by identity
keys; C270 references by entity keys; C271 added identity keys; C272 names that are not serialised; C273 types of
references; C274 the present keys of an entity.
-/
namespace Verif.Entities

/-! ### C266 -/

theorem root_above {w : World} {o r : Nat} (t : Top (parentOf w) o r)
    (h : ∀ a, Above (parentOf w) o a → entriesOf w a ≠ 0) : ∃ N, ∀ n ≥ N, rootOf w n o = .ok r := by
  induction t with
  | top hp =>
    refine ⟨1, fun n hn => ?_⟩
    obtain ⟨n, rfl⟩ : ∃ m, n = m + 1 := ⟨n - 1, by omega⟩
    rw [rootOf, hp]
  | @up o p r hp t ih =>
    obtain ⟨N, hN⟩ := ih fun a ha => h a (.up hp ha)
    refine ⟨N + 1, fun n hn => ?_⟩
    obtain ⟨n, rfl⟩ : ∃ m, n = m + 1 := ⟨n - 1, by omega⟩
    rw [rootOf, hp]
    simp only
    rw [if_neg (h p (.here hp))]
    exact hN n (by omega)

/-- As long as nothing is inserted into lazily loaded arrays, every object has one outermost object, and this is the
root if no object above is empty. -/
theorem C266_outermost_partial (ops : List Op) (h : NoInsert ops) (o : Nat) (ho : o < (run [] ops).length) :
    ∃ r, Top (parentOf (run [] ops)) o r ∧ (∀ s, Top (parentOf (run [] ops)) o s → s = r) ∧
      ((∀ a, Above (parentOf (run [] ops)) o a → entriesOf (run [] ops) a ≠ 0) →
        ∃ N, ∀ n ≥ N, rootOf (run [] ops) n o = .ok r) := by
  obtain ⟨r, hr⟩ := (run_inv ops h [] [] inv_nil).top o ho
  exact ⟨r, hr, fun s hs => hs.unique hr, root_above hr⟩

/-- An object in an empty one is its own root, though it is not outermost. -/
theorem C266_empty_violated (w : World) (o p : Nat) (hp : parentOf w o = some p) (he : entriesOf w p = 0) (hne : p ≠ o)
    (n : Nat) : rootOf w (n + 1) o = .ok o ∧ ¬ Top (parentOf w) o o := by
  constructor
  · rw [rootOf, hp]; simp only; rw [if_pos he]
  · intro h
    -- an object above itself has no outermost one
    have key : ∀ {a r : Nat}, Top (parentOf w) a r → parentOf w r = none := by
      intro a r t
      induction t with
      | top h => exact h
      | up _ _ ih => exact ih
    rw [key h] at hp
    cases hp

example : rootOf (run [] [.make false 1, .build 0 false 1, .build 1 false 1]) 9 2 = .ok 0
    ∧ rootOf (run [] [.make false 1, .build 0 false 1, .build 1 false 1, .resize 1 0]) 9 2 = .ok 2 := by decide +kernel

/-- An object inserted into a lazily loaded array of an object within it has no root: the search does not end. -/
theorem C266_cycle_violated (n : Nat) :
    rootOf (run [] [.make false 1, .build 0 false 1, .insert 1 0]) n 0 = .error .recursionError := by
  have h : ∀ m, rootOf (run [] [.make false 1, .build 0 false 1, .insert 1 0]) m 0 = .error .recursionError
      ∧ rootOf (run [] [.make false 1, .build 0 false 1, .insert 1 0]) m 1 = .error .recursionError := by
    intro m
    induction m with
    | zero => exact ⟨rfl, rfl⟩
    | succ m ih => exact ⟨ih.2, ih.1⟩
  exact (h n).1

/-! ### C267 -/

/-- As long as nothing is inserted into lazily loaded arrays, the parent of every object is the one it was built in. -/
theorem C267_built_partial (ops : List Op) (h : NoInsert ops) (o : Nat) :
    parentOf (run [] ops) o = ((builtIn ops [])[o]?).getD none := by
  have i := run_inv ops h [] [] inv_nil
  rcases Nat.lt_or_ge o (builtIn ops []).length with hl | hl
  · cases hb : (builtIn ops [])[o] with
    | none =>
      have hb' : (builtIn ops [])[o]? = some none := by rw [List.getElem?_eq_getElem hl, hb]
      rw [hb', (i.own o hb').2]; rfl
    | some p =>
      have hb' : (builtIn ops [])[o]? = some (some p) := by rw [List.getElem?_eq_getElem hl, hb]
      rw [hb', (i.below o p hb').2.2]; rfl
  · rw [List.getElem?_eq_none hl, parentOf, List.getElem?_eq_none (by rw [i.length]; exact hl)]; rfl

example : parentOf (run [] [.make false 1, .build 0 false 1, .build 0 false 1, .build 2 false 1]) 3 = some 2 := by
  decide +kernel

/-- An object that is assigned to a property keeps the parent it had; one that had none has none. -/
theorem C267_assigned_violated (ops : List Op) (h : NoInsert ops) (p o : Nat) :
    parentOf (run [] (ops ++ [.assign p o])) o = ((builtIn ops [])[o]?).getD none := by
  rw [run, List.foldl_append]
  exact C267_built_partial ops h o

example : parentOf (run [] [.make false 1, .make false 1, .assign 0 1]) 1 = none := by decide +kernel

/-- An object inserted into a lazily loaded array in another one gets this one as its parent, if that has been made by
its data. -/
theorem C267_inserted_partial (ops : List Op) (h : NoInsert ops) (p o : Nat) (hp : p < (run [] ops).length)
    (ho : o < (run [] ops).length) (hne : p ≠ o) : parentOf (run [] (ops ++ [.insert p o])) o = some p := by
  have i := run_inv ops h [] [] inv_nil
  rw [run, List.foldl_append]
  show parentOf (step (run [] ops) (.insert p o)) o = some p
  rw [step, if_pos hp]
  obtain ⟨x, hx, _, hpar, _⟩ := setContext_self (run [] ops) o (ctxOf (run [] ops) p) ho
  rw [parentOf, hx]
  show x.parent = some p
  rw [hpar]
  obtain ⟨outer, hc⟩ := i.ctx hp
  have : (p != o) = true := by simpa using hne
  rw [hc]; simp [createContext, firstObj, this]

example : parentOf (run [] [.make false 1, .make false 1, .insert 0 1]) 1 = some 0 := by decide +kernel

/-- What is then built in the inserted object has not this one for its parent, but the one around it. -/
theorem C267_within_inserted_violated (ops : List Op) (h : NoInsert ops) (p o : Nat) (hp : p < (run [] ops).length)
    (ho : o < (run [] ops).length) (hne : p ≠ o) (inst : Bool) (n : Nat) :
    parentOf (run [] (ops ++ [.insert p o, .build o inst n])) (run [] ops).length = some p := by
  have i := run_inv ops h [] [] inv_nil
  have e : run [] (ops ++ [.insert p o, .build o inst n])
      = create (setContext (run [] ops) o (ctxOf (run [] ops) p)) (ctxOf (run [] ops) p) inst n := by
    rw [run, List.foldl_append]
    show step (step (run [] ops) (.insert p o)) (.build o inst n) = _
    have h1 : step (run [] ops) (.insert p o) = setContext (run [] ops) o (ctxOf (run [] ops) p) := by
      rw [step, if_pos hp]
    rw [h1, step, if_pos (by rw [setContext_length]; exact ho)]
    obtain ⟨x, hx, hc, _⟩ := setContext_self (run [] ops) o (ctxOf (run [] ops) p) ho
    have : ctxOf (setContext (run [] ops) o (ctxOf (run [] ops) p)) o = ctxOf (run [] ops) p := by
      rw [ctxOf, hx]; exact hc
    rw [this]
  have hl := setContext_length (run [] ops) o (ctxOf (run [] ops) p)
  rw [e, ← hl, parentOf_create]
  obtain ⟨outer, hc⟩ := i.ctx hp
  have : (p != (setContext (run [] ops) o (ctxOf (run [] ops) p)).length) = true := by simp [hl]; omega
  generalize (setContext (run [] ops) o (ctxOf (run [] ops) p)).length = q at this ⊢
  rw [hc]
  simp [createContext, firstObj, this]

example : parentOf (run [] [.make false 1, .make false 1, .insert 0 1, .build 1 false 1]) 2 = some 0 := by decide +kernel

/-! ### C268 -/

/-- As long as nothing is inserted into lazily loaded arrays, `this` is the object itself in its context, and its own
data come before all others. -/
theorem C268_own_partial (ops : List Op) (h : NoInsert ops) (o : Nat) (ho : o < (run [] ops).length) :
    thisOf (ctxOf (run [] ops) o) = some o ∧
      ∃ pre post, ctxOf (run [] ops) o = pre ++ .data o :: post ∧ ∀ q, .data q ∉ pre := by
  obtain ⟨outer, hc⟩ := (run_inv ops h [] [] inv_nil).ctx ho
  rw [hc]
  exact ⟨rfl, [.other 1, .this o], .obj o :: outer, rfl, by simp⟩

example : thisOf (ctxOf (run [] [.make false 1, .build 0 false 1]) 1) = some 1 := by decide +kernel

/-- In the context of an object inserted into a lazily loaded array, `this` is the object the array is in, and the
data of the object itself are not there. -/
theorem C268_inserted_violated (ops : List Op) (h : NoInsert ops) (p o : Nat) (hp : p < o)
    (ho : o < (run [] ops).length) : thisOf (ctxOf (run [] (ops ++ [.insert p o])) o) = some p ∧
      .data o ∉ ctxOf (run [] (ops ++ [.insert p o])) o := by
  have i := run_inv ops h [] [] inv_nil
  have e : ctxOf (run [] (ops ++ [.insert p o])) o = ctxOf (run [] ops) p := by
    rw [run, List.foldl_append]
    show ctxOf (step (run [] ops) (.insert p o)) o = _
    rw [step, if_pos (by omega)]
    obtain ⟨x, hx, hc, _⟩ := setContext_self (run [] ops) o (ctxOf (run [] ops) p) ho
    rw [ctxOf, hx]; exact hc
  rw [e]
  refine ⟨?_, fun hm => ?_⟩
  · obtain ⟨outer, hc⟩ := i.ctx (o := p) (by omega)
    rw [hc]; rfl
  · have := i.maps p (by omega) hm
    omega

example : thisOf (ctxOf (run [] [.make false 1, .make false 1, .insert 0 1]) 1) = some 0 := by decide +kernel

/-! ### C269 -/

/-- With `use_identity_keys` everything can be written. -/
theorem C269_written (inst : Bool) (o : Opts) (hi : o.ids = true) (n : Node) : ∃ x, ser inst o n = .ok x :=
  ser_total o (.inr hi) inst n

/-- Each entity that is met outside the roots is written as its keys: at the place of the entity are its keys, one by
itself, several as a list. -/
theorem C269_reference_partial (inst : Bool) (o : Opts) (hi : o.ids = true) (ho : o.only = []) (hp : o.pre = [])
    (ha : o.addIds = false) (n : Node) (p : List Step) (ex : List Str) (c : Cls) (fs : List (Str × Node))
    (he : c.entity = true) (w : Way true o.excludes o.root n p ex false (.obj c fs)) (x : Out)
    (hx : ser inst o n = .ok x) :
    (∀ k, c.pks = [k] → x.at? p = some (rawOut (field fs k))) ∧
    (c.pks.length ≠ 1 → x.at? p = some (.list (c.pks.map fun k => rawOut (field fs k)))) := by
  obtain ⟨y, hy, hs⟩ := ser_way w o inst x rfl rfl ho hp ha (fun h => by cases h) hx
  rw [ser, if_pos (by simp [he, hi])] at hs
  cases hs
  rw [hy, keyOut]
  constructor
  · intro k hk; rw [hk]; rfl
  · intro hl
    match hm : c.pks, hl with
    | [], _ => rfl
    | _ :: _ :: _, _ => rfl

/-- What is not below another entity than a root is written as it is. -/
theorem C269_full_partial (inst : Bool) (o : Opts) (ho : o.only = []) (hp : o.pre = [])
    (ha : o.addIds = false) (n : Node) (p : List Step) (ex : List Str) (root : Bool) (v : Val)
    (w : Way true o.excludes o.root n p ex root (.prim v)) (x : Out) (hx : ser inst o n = .ok x) :
    x.at? p = some (.val v) := by
  obtain ⟨y, hy, hs⟩ := ser_way w o inst x rfl rfl ho hp ha (fun h => by cases h) hx
  rw [ser] at hs
  cases hs
  exact hy

/-- An author with a key, in a book with a key, in a plain shelf. -/
def author : Node := .obj { entity := true, pks := ["id".toList] } [("id".toList, .prim (.int 7)), ("name".toList, .prim (.str "Ann".toList))]
def book : Node := .obj { entity := true, pks := ["isbn".toList, "vol".toList] }
  [("isbn".toList, .prim (.int 1)), ("vol".toList, .prim (.int 2)), ("by".toList, .arr [author])]

/-- The way to the author in a book that is a root. -/
theorem way_author : Way true [] true (.arr [book]) [.item 0, .name "by".toList, .item 0] [] false author :=
  .item (n := book) rfl (.name (n := .arr [author]) rfl nofun (by decide) (by decide) (.inr (.inr rfl))
    (.item (n := author) rfl .here))

theorem way_volume : Way true [] true (.arr [book]) [.item 0, .name "vol".toList] [] false (.prim (.int 2)) :=
  .item (n := book) rfl (.name (n := .prim (.int 2)) rfl nofun (by decide) (by decide) (.inr (.inr rfl)) .here)

example : ∃ x, ser true { ids := true, root := true } (.arr [book]) = .ok x ∧
    x.at? [.item 0, .name "by".toList, .item 0] = some (.val (.int 7)) ∧
    x.at? [.item 0, .name "vol".toList] = some (.val (.int 2)) := by
  obtain ⟨x, hx⟩ := C269_written true { ids := true, root := true } rfl (.arr [book])
  exact ⟨x, hx, (C269_reference_partial true _ rfl rfl rfl rfl _ _ _ _ _ rfl way_author x hx).1 _ rfl,
    C269_full_partial true _ rfl rfl rfl _ _ _ _ _ way_volume x hx⟩

/-- Entities without primary keys are all written alike. -/
theorem C269_nokeys_violated (inst : Bool) (o : Opts) (hi : o.ids = true) (hr : o.root = false) (c : Cls)
    (he : c.entity = true) (hk : c.pks = []) (fs : List (Str × Node)) : ser inst o (.obj c fs) = .ok (.list []) := by
  rw [ser, if_pos (by simp [he, hi, hr]), hk]; rfl

/-- A key that is itself an object is not serialised. -/
theorem C269_raw_violated (inst : Bool) (o : Opts) (hi : o.ids = true) (hr : o.root = false) (c d : Cls)
    (he : c.entity = true) (k : Str) (hk : c.pks = [k]) (fs gs : List (Str × Node))
    (hf : AList.get? fs k = some (.obj d gs)) : ser inst o (.obj c fs) = .ok (.raw (.obj d gs)) := by
  rw [ser, if_pos (by simp [he, hi, hr]), hk]
  simp [keyOut, field, hf, rawOut]

/-! ### C270 -/

/-- An entity with one key that is serialised itself is written as its key and the name of the key. -/
theorem C270_single_partial (o : Opts) (hi : o.ids = false) (he : o.ents = true) (hr : o.root = false) (c : Cls)
    (hc : c.entity = true) (k : Str) (hk : c.pks = [k]) (hd : k ≠ "$id".toList) (v : Val) (fs : List (Str × Node))
    (hv : AList.get? fs k = some (.prim v)) : ser true o (.obj c fs) = .ok (.dict [(k, .val v)]) := by
  rw [ser, if_neg (by simp [hi]), if_pos (by simp [hc, he, hr]), hk]
  simp only [entityRef, field, hv]
  rw [if_neg (by simp), if_pos hd]; rfl

/-- The key `$id` becomes a reference. -/
theorem C270_id_partial (o : Opts) (hi : o.ids = false) (he : o.ents = true) (hr : o.root = false) (c : Cls)
    (hc : c.entity = true) (hk : c.pks = ["$id".toList]) (v : Val) (fs : List (Str × Node))
    (hv : AList.get? fs "$id".toList = some (.prim v)) :
    ser true o (.obj c fs) = .ok (.dict [("$ref".toList, .val v)]) := by
  rw [ser, if_neg (by simp [hi]), if_pos (by simp [hc, he, hr]), hk]
  simp only [entityRef, field, hv]
  rfl

/-- An entity with several keys, or none, is refused. -/
theorem C270_several_violated (o : Opts) (hi : o.ids = false) (he : o.ents = true) (hr : o.root = false) (c : Cls)
    (hc : c.entity = true) (hk : c.pks.length ≠ 1) (fs : List (Str × Node)) :
    ser true o (.obj c fs) = .error .assertionError := by
  rw [ser, if_neg (by simp [hi]), if_pos (by simp [hc, he, hr])]
  match hm : c.pks, hk with
  | [], _ => rfl
  | _ :: _ :: _, _ => rfl

/-- An object that has an entity in it cannot be written, whatever its keys. -/
theorem C270_nested_violated (inst : Bool) (o : Opts) (hi : o.ids = false) (he : o.ents = true) (ho : o.only = [])
    (hp : o.pre = []) (ha : o.addIds = false) (n : Node) (s : Step) (p : List Step) (ex : List Str) (c : Cls)
    (fs : List (Str × Node)) (hc : c.entity = true)
    (w : Way true o.excludes o.root n (s :: p) ex false (.obj c fs)) (x : Out) : ser inst o n ≠ .ok x := by
  intro hx
  obtain ⟨y, hy, hs⟩ := ser_way w o inst x rfl rfl ho hp ha (fun h => by cases h) hx
  rw [ser, if_neg (by simp [hi]), if_pos (by simp [hc, he])] at hs
  simp [entityRef] at hs

example (x : Out) : ser true { ents := true, root := true } (.arr [book]) ≠ .ok x :=
  C270_nested_violated true _ rfl rfl rfl rfl rfl _ _ _ _ _ _ rfl way_author x

/-! ### C271 -/

theorem addKeys_other (fs : List (Str × Node)) : (ks : List Str) → (d : List (Str × Out)) → {k : Str} → k ∉ ks →
    AList.get? (addKeys fs ks d) k = AList.get? d k
  | [], _, _, _ => rfl
  | k' :: ks, d, k, h => by
    have h1 : k' ≠ k := fun e => h (by simp [e])
    have h2 : k ∉ ks := fun e => h (by simp [e])
    rw [addKeys, addKeys_other fs ks _ h2]
    split
    · rfl
    · exact AList.get?_set_ne _ _ h1

theorem addKeys_get (fs : List (Str × Node)) : (ks : List Str) → (d : List (Str × Out)) → {k : Str} → k ∈ ks →
    (field fs k).isNone = false → AList.get? (addKeys fs ks d) k = some (rawOut (field fs k))
  | [], _, _, h, _ => by cases h
  | k' :: ks, d, k, h, hn => by
    rw [addKeys]
    by_cases hk : k ∈ ks
    · exact addKeys_get fs ks _ hk hn
    · have e : k = k' := by simpa [hk] using h
      subst e
      rw [addKeys_other fs ks _ hk]
      rw [if_neg (by simp [hn])]
      exact AList.get?_set_self ..

/-- An entity written in full with `add_identity_keys` has each key that is not None, as it is: whether or not it is
excluded, or left out by `only`, or not serialised by the class; and without prefix. -/
theorem C271_keys_partial (inst : Bool) (o : Opts) (ha : o.addIds = true) (hr : o.root = true) (c : Cls)
    (hc : c.entity = true) (fs : List (Str × Node)) (x : Out) (hx : ser inst o (.obj c fs) = .ok x) (k : Str)
    (hk : k ∈ c.pks) (n : Node) (hf : AList.get? fs k = some n) (hn : n ≠ .prim .none) :
    ∃ y, x.at? [.name k] = some y ∧ AsIs n y := by
  have hfi : field fs k = n := by rw [field, hf]; rfl
  refine ⟨rawOut n, ?_, rawOut_asIs n⟩
  rw [ser, if_neg (by simp [hr]), if_neg (by simp [hr])] at hx
  cases hs : serFields (c.notSer ++ o.excludes) o.only c.required (o.inner c) fs with
  | error e => rw [hs] at hx; cases hx
  | ok d =>
    rw [hs] at hx
    simp only [hc, ha, Bool.and_self, if_true] at hx
    cases hx
    simp [Out.at?, Out.step, addKeys_get fs c.pks d hk (isNone_false.2 (hfi ▸ hn)), hfi]

/-- A key that is excluded is written nevertheless. -/
theorem C271_excluded_violated (c : Cls) (hc : c.entity = true) (k : Str) (hk : k ∈ c.pks) (v : Val) (hv : v ≠ .none)
    (fs : List (Str × Node)) (hf : AList.get? fs k = some (.prim v)) :
    ∃ x, ser true { excludes := [k], addIds := true, root := true } (.obj c fs) = .ok x ∧
      x.at? [.name k] = some (.val v) := by
  obtain ⟨x, hx⟩ := ser_total { excludes := [k], addIds := true, root := true } (.inl rfl) true (.obj c fs)
  obtain ⟨y, hy, has⟩ := C271_keys_partial true _ rfl rfl c hc fs x hx k hk _ hf (by simpa using hv)
  cases has
  exact ⟨x, hx, hy⟩

/-- With a prefix for attributes a key is written twice. -/
theorem C271_prefix_violated : ∃ x, ser true { pre := "@".toList, addIds := true, root := true } author = .ok x ∧
    x.at? [.name "@id".toList] = some (.val (.int 7)) ∧ x.at? [.name "id".toList] = some (.val (.int 7)) :=
  ⟨.dict [("@id".toList, .val (.int 7)), ("@name".toList, .val (.str "Ann".toList)), ("id".toList, .val (.int 7))], rfl,
    rfl, rfl⟩

/-- A prefix is put before the names of primitive values only. -/
theorem C271_names_partial (inst : Bool) (o : Opts) (c : Cls) (hc : c.entity = false) (ho : o.only = []) (k : Str) (n : Node)
    (hn : n ≠ .prim .none) (hk : k ∉ c.notSer) (hk' : k ∉ o.excludes) (x : Out) (hx : ser inst o (.obj c [(k, n)]) = .ok x) :
    (∀ v, n = .prim v → x = .dict [(o.pre ++ k, .val v)]) ∧ ((∀ v, n ≠ .prim v) → ∃ y, x = .dict [(k, y)]) := by
  have hinc : included (c.notSer ++ o.excludes) o.only k n = true := by
    rw [ho]
    exact included_of hn (by simp [hk, hk'])
  simp only [ser, serFields, hc, Bool.false_and, hinc, if_true, Bool.false_eq_true, if_false] at hx
  cases n with
  | prim v =>
    simp only [ser, outName, Node.isPrim, Opts.inner, if_true, Except.ok.injEq] at hx
    refine ⟨fun w hw => ?_, fun h => absurd rfl (h v)⟩
    cases hw
    exact hx.symm
  | obj d fs =>
    refine ⟨fun w hw => (nomatch hw), fun _ => ?_⟩
    cases hs : ser false (o.inner c) (.obj d fs) with
    | error e => rw [hs] at hx; cases hx
    | ok y => rw [hs] at hx; exact ⟨y, by simpa [outName, Node.isPrim] using hx.symm⟩
  | arr l =>
    refine ⟨fun w hw => (nomatch hw), fun _ => ?_⟩
    cases hs : ser false (o.inner c) (.arr l) with
    | error e => rw [hs] at hx; cases hx
    | ok y => rw [hs] at hx; exact ⟨y, by simpa [outName, Node.isPrim] using hx.symm⟩

example : ser true { pre := "@".toList } (.obj {} [("by".toList, .obj {} [("n".toList, .prim (.int 1))])])
    = .ok (.dict [("by".toList, .dict [("@n".toList, .val (.int 1))])]) := rfl

/-! ### C272 -/

/-- Without references, what is written at a place is what the value at that place is written as, and no name on the
way there is hidden, by the caller or by a class of an object around; or it is None, for a name that the class of the
object that has it requires, and that is hidden or None there. -/
theorem C272_exact_partial (p : List Step) : ∀ (inst : Bool) (o : Opts), o.ids = false → o.ents = false →
    o.addIds = false → o.only = [] → o.pre = [] → ∀ (n : Node), n.Distinct → ∀ (x y : Out), ser inst o n = .ok x →
    x.at? p = some y →
    (y = .val .none ∧ ∃ q k ex root c fs n', p = q ++ [.name k] ∧ Way false o.excludes o.root n q ex root (.obj c fs) ∧
      k ∈ c.required ∧ AList.get? fs k = some n' ∧ (n' = .prim .none ∨ k ∈ c.notSer ∨ k ∈ ex)) ∨
    ∃ m ex root, Way false o.excludes o.root n p ex root m ∧
      ser (if p = [] then inst else false) { o with excludes := ex, root := root } m = .ok y := by
  induction p with
  | nil =>
    intro inst o _ _ _ _ _ n _ x y hx hy
    have : x = y := by simpa [Out.at?] using hy
    subst this
    exact .inr ⟨n, _, _, .here, by simpa using hx⟩
  | cons s p ih =>
    intro inst o hi he ha ho hp n hd x y hx hy
    cases hd with
    | prim v => rw [ser] at hx; cases hx; simp [Out.at?, Out.step] at hy
    | obj c fs wf hin =>
      rw [ser, if_neg (by simp [hi]), if_neg (by simp [he])] at hx
      cases hf : serFields (c.notSer ++ o.excludes) o.only c.required (o.inner c) fs with
      | error e => rw [hf] at hx; cases hx
      | ok d =>
        rw [hf] at hx
        have hx : Out.dict d = x := by simpa [ha] using hx
        subst hx
        cases s with
        | item i => simp [Out.at?, Out.step] at hy
        | name k =>
          cases hg : AList.get? d k with
          | none => simp [Out.at?, Out.step, hg] at hy
          | some z =>
            have hy : z.at? p = some y := by simpa [Out.at?, Out.step, hg] using hy
            obtain ⟨m, hm, hh⟩ := serFields_from (o := o.inner c) (by simpa [Opts.inner] using hp) wf hf hg
            rcases hh with ⟨hinc, hz⟩ | ⟨hninc, hreq, hz⟩
            · have hinc' : (k ∉ c.notSer ∧ k ∉ o.excludes) ∧ m ≠ .prim .none := by
                rw [← isNone_false]
                simpa [included, ho] using hinc
              rcases ih false (o.inner c) (by simpa [Opts.inner] using hi) (by simpa [Opts.inner] using he)
                (by simpa [Opts.inner] using ha) rfl (by simpa [Opts.inner] using hp) m
                (hin _ (AList.mem_of_get? hm)) z y hz hy with ⟨hy', q, k', ex, root, c', fs', n', hpq, w, hr⟩ | ⟨q, ex, root, w, hq⟩
              · exact .inl ⟨hy', .name k :: q, k', ex, root, c', fs', n', by simp [hpq],
                  .name hm hinc'.2 hinc'.1.1 hinc'.1.2 (.inl rfl) w, hr⟩
              · refine .inr ⟨q, ex, root, .name hm hinc'.2 hinc'.1.1 hinc'.1.2 (.inl rfl) w, ?_⟩
                have h1 : { o.inner c with excludes := ex, root := root } = { o with excludes := ex, root := root } := by
                  cases o
                  simp only [Opts.inner]
                  congr
                  exact ho.symm
                rw [h1] at hq
                simpa using hq
            · subst hz
              cases p with
              | nil =>
                refine .inl ⟨by simpa [Out.at?] using hy.symm, [], k, _, _, c, fs, m, rfl, .here, hreq, hm, ?_⟩
                by_cases h1 : m = .prim .none
                · exact .inl h1
                · by_cases h2 : k ∈ c.notSer
                  · exact .inr (.inl h2)
                  · refine .inr (.inr (Classical.byContradiction fun h3 => ?_))
                    rw [ho, included_of h1 (by simp [h2, h3])] at hninc
                    cases hninc
              | cons => simp [Out.at?, Out.step] at hy
    | arr l hin =>
      rw [ser] at hx
      cases hf : serItems o l with
      | error e => rw [hf] at hx; cases hx
      | ok d =>
        rw [hf] at hx
        cases hx
        cases s with
        | name k => simp [Out.at?, Out.step] at hy
        | item i =>
          cases hg : d[i]? with
          | none => simp [Out.at?, Out.step, hg] at hy
          | some z =>
            have hy : z.at? p = some y := by simpa [Out.at?, Out.step, hg] using hy
            obtain ⟨m, hm, hz⟩ := serItems_from hf hg
            rcases ih false o hi he ha ho hp m (hin _ (List.mem_of_getElem? hm)) z y hz hy with
              ⟨hy', q, k', ex, root, c', fs', n', hpq, w, hr⟩ | ⟨q, ex, root, w, hq⟩
            · exact .inl ⟨hy', .item i :: q, k', ex, root, c', fs', n', by simp [hpq], .item hm w, hr⟩
            · exact .inr ⟨q, ex, root, .item hm w, by simpa using hq⟩

/-- And everything that is not hidden is written. -/
theorem C272_shown_partial (inst : Bool) (o : Opts) (hi : o.ids = false) (he : o.ents = false)
    (ha : o.addIds = false) (ho : o.only = []) (hp : o.pre = []) (n : Node) (p : List Step) (ex : List Str) (root : Bool)
    (v : Val) (w : Way false o.excludes o.root n p ex root (.prim v)) :
    ∃ x, ser inst o n = .ok x ∧ x.at? p = some (.val v) := by
  obtain ⟨x, hx⟩ := ser_total o (.inl he) inst n
  obtain ⟨y, hy, hs⟩ := ser_way w o inst x rfl rfl ho hp ha (fun _ => ⟨hi, he⟩) hx
  rw [ser] at hs
  cases hs
  exact ⟨x, hx, hy⟩

example : ∃ x, ser true {} book = .ok x ∧
    x.at? [.name "by".toList, .item 0, .name "name".toList] = some (.val (.str "Ann".toList)) :=
  C272_shown_partial true {} rfl rfl rfl rfl rfl _ _ [] false _
    (.name rfl nofun (by simp) (by simp) (.inl rfl) (.item rfl (.name rfl nofun (by simp) (by simp) (.inl rfl) .here)))

theorem serFields_names (excludes only required : List Str) (o : Opts) (hp : o.pre = []) : ∀ fs d,
    serFields excludes only required o fs = .ok d → d.map Prod.fst
      = (fs.filter fun p => included excludes only p.1 p.2 || decide (p.1 ∈ required)).map Prod.fst := by
  intro fs
  induction fs with
  | nil => intro d h; rw [serFields] at h; cases h; rfl
  | cons p fs ih =>
    obtain ⟨k, n⟩ := p
    intro d h
    have hn : outName o.pre k n = k := by unfold outName; rw [hp]; simp
    rw [serFields, hn] at h
    split at h
    · rename_i hi
      split at h
      · cases h
      · split at h
        · cases h
        · rename_i d' hd
          cases h
          rw [List.filter_cons, if_pos (by simp [hi])]
          simp [ih _ hd]
    · rename_i hi
      split at h
      · cases h
      · rename_i d' hd
        injection h with h
        subst h
        by_cases hr : k ∈ required
        · rw [List.filter_cons, if_pos (by simp [hr])]
          simp [hr, ih _ hd]
        · rw [List.filter_cons, if_neg (by simp [hr, hi])]
          simp [hr, hi, ih _ hd]

/-- With `only`, the names written of an object are, in their order, those asked for that are neither hidden nor None,
and the required ones. (`only` is not handed on: objects inside are written in full.) -/
theorem C272_only_partial (inst : Bool) (o : Opts) (hi : o.ids = false) (he : o.ents = false) (ha : o.addIds = false)
    (hp : o.pre = []) (ho : o.only ≠ []) (c : Cls) (fs : List (Str × Node)) (x : Out)
    (hx : ser inst o (.obj c fs) = .ok x) :
    ∃ d, x = .dict d ∧ (d.map Prod.fst).Sublist (fs.map Prod.fst) ∧ ∀ k, k ∈ d.map Prod.fst ↔ ∃ n, (k, n) ∈ fs ∧
      (k ∈ c.required ∨ (k ∈ o.only ∧ k ∉ c.notSer ∧ k ∉ o.excludes ∧ n ≠ .prim .none)) := by
  rw [ser, hi, he, ha] at hx
  simp only [Bool.and_false, Bool.false_eq_true, if_false] at hx
  split at hx
  · cases hx
  · rename_i d hd
    cases hx
    have hn := serFields_names _ _ _ (o.inner c) hp fs d hd
    refine ⟨d, rfl, by rw [hn]; exact List.Sublist.map _ List.filter_sublist, fun k => ?_⟩
    have hin : ∀ n, included (c.notSer ++ o.excludes) o.only k n = true
        ↔ k ∈ o.only ∧ k ∉ c.notSer ∧ k ∉ o.excludes ∧ n ≠ .prim .none := by
      intro n
      have h0 : o.only.isEmpty = false := by
        cases h : o.only with
        | nil => exact absurd h ho
        | cons _ _ => rfl
      have h1 : n.isNone = false ↔ n ≠ .prim .none := by
        unfold Node.isNone
        split <;> simp_all
      simp only [included, h0, Bool.false_or, Bool.and_eq_true, decide_eq_true_eq, List.mem_append, not_or,
        Bool.not_eq_true', h1]
      constructor
      · rintro ⟨⟨⟨a, b⟩, c⟩, d⟩; exact ⟨c, a, b, d⟩
      · rintro ⟨c, a, b, d⟩; exact ⟨⟨⟨a, b⟩, c⟩, d⟩
    rw [hn]
    simp only [List.mem_map, List.mem_filter, Bool.or_eq_true, decide_eq_true_eq]
    constructor
    · rintro ⟨⟨k', n⟩, ⟨hm, h⟩, rfl⟩
      exact ⟨n, hm, h.symm.imp id (hin n).1⟩
    · rintro ⟨n, hm, h⟩
      exact ⟨(k, n), ⟨hm, h.symm.imp (hin n).2 id⟩, rfl⟩

example : ∃ x, ser true { only := ["by".toList] } book = .ok x ∧ x.at? [.name "isbn".toList] = none ∧
    x.at? [.name "by".toList, .item 0, .name "name".toList] = some (.val (.str "Ann".toList)) :=
  ⟨_, rfl, rfl, rfl⟩

/-- What the class of an object does not serialise is not written of the objects in it either, though their classes
serialise it. -/
theorem C272_inner_violated (c d : Cls) (a k : Str) (v : Val) (hk : k ∈ c.notSer) (ha : a ∉ c.notSer)
    (hd : k ∉ d.required) (hd' : d.notSer = []) (x : Out)
    (hx : ser true {} (.obj c [(a, .obj d [(k, .prim v)])]) = .ok x) :
    x.at? [.name a, .name k] = none ∧
      ∃ y, ser true {} (.obj d [(k, .prim v)]) = .ok y ∧ (v ≠ .none → y.at? [.name k] = some (.val v)) := by
  constructor
  · have e : ser true {} (.obj c [(a, .obj d [(k, .prim v)])]) = .ok (.dict [(a, .dict [])]) := by
      simp [ser, serFields, included, ha, hd, hk, Opts.inner, Node.isNone, outName, Node.isPrim]
    rw [e] at hx
    cases hx
    simp [Out.at?, Out.step, AList.get?]
  · obtain ⟨y, hy⟩ := ser_total {} (.inl rfl) true (.obj d [(k, .prim v)])
    refine ⟨y, hy, fun hv => ?_⟩
    have hn : Node.prim v ≠ .prim .none := by simpa using hv
    obtain ⟨z, hz, hz'⟩ := C272_shown_partial true {} rfl rfl rfl rfl rfl (.obj d [(k, .prim v)]) [.name k] _ _ v
      (.name (by simp [AList.get?]) hn (by simp [hd']) (by simp) (.inl rfl) .here)
    rw [hy] at hz; cases hz; exact hz'

/-- An inner object is not written with the name, on its own it is. -/
example : ser true {} (.obj { notSer := ["name".toList] } [("by".toList, author)])
    = .ok (.dict [("by".toList, .dict [("id".toList, .val (.int 7))])]) := rfl

/-! ### C273 -/

/-- Evaluating a reference gives the converted text, if it is valid. -/
theorem C273_evaluate_partial (str : Val → Res Val) (resolves : Val → Bool) (conv : Val → Res Val) (b : Bool)
    (v w r : Val) (hc : conv v = .ok w) (hs : str w = .ok r) : refEvaluate str resolves conv b v = .ok w := by
  rw [refEvaluate, hc]
  cases b
  · rfl
  · simp [refValidate, hs]

/-- Validating a reference gives a Boolean in place of the value, and refuses no reference that leads nowhere. -/
theorem C273_validate_violated (str : Val → Res Val) (resolves : Val → Bool) (v r : Val) (hs : str v = .ok r) :
    refValidate str resolves true v = .ok (.bool (resolves v)) ∧ refValidate str resolves false v = .ok .none := by
  simp [refValidate, hs]

/-- In a validated list of references each is replaced by a Boolean. -/
theorem C273_list_violated (str : Val → Res Val) (resolves : Val → Bool) : (l : List Val) →
    (∀ v ∈ l, v ≠ .none ∧ ∃ r, str v = .ok r) →
    refsValidate str resolves l = .ok (l.map fun v => .bool (resolves v))
  | [], _ => rfl
  | v :: l, h => by
    obtain ⟨hn, r, hr⟩ := h v (by simp)
    rw [refsValidate, if_neg hn, (C273_validate_violated str resolves v r hr).1,
      C273_list_violated str resolves l fun v hv => h v (by simp [hv])]
    rfl

/-- No value can be converted to a canonical name. -/
theorem C273_canonical_violated (v : Val) : canonicalConvert v = .error .attributeError := rfl

example : refsValidate .ok (fun v => v = .str "a".toList) [.str "a".toList, .str "b".toList] =
    .ok [.bool true, .bool false] := by decide +kernel

/-! ### C274 -/

/-- The cache and its inputs agree with the keys. -/
structure Fresh (e : Ent) : Prop where
  same : e.pks = e.deps
  cached : ∀ ks, e.cached = some ks → ks = e.inputs ∧ ks = e.attr

theorem fresh_read {e : Ent} (f : Fresh e) : Fresh (readIds e).1 ∧ (readIds e).2 = e.pks.map e.val
    ∧ (readIds e).1.attr = e.pks.map e.val ∧ (readIds e).1.vals = e.vals ∧ (readIds e).1.pks = e.pks := by
  rw [readIds]
  split
  · refine ⟨⟨f.same, fun ks h => ?_⟩, rfl, rfl, rfl, rfl⟩
    cases h
    exact ⟨by rw [f.same], rfl⟩
  · next h =>
    have h1 : e.cached ≠ none := fun hc => h (.inl hc)
    have h2 : e.inputs = e.deps.map e.val := Classical.byContradiction fun hc => h (.inr hc)
    obtain ⟨ks, hk⟩ := Option.ne_none_iff_exists'.1 h1
    obtain ⟨h3, h4⟩ := f.cached ks hk
    refine ⟨f, ?_, ?_, rfl, rfl⟩
    · rw [hk, f.same]; exact h3.trans h2
    · rw [← h4, f.same]; exact h3.trans h2

theorem fresh_run {e : Ent} (f : Fresh e) : (ops : List EOp) → Fresh (erun e ops)
  | [] => f
  | .assign k v :: ops => by
    refine fresh_run (e := assign e k v) ⟨f.same, fun ks h => ?_⟩ ops
    simp only [assign] at h ⊢
    split at h
    · cases h
    · exact f.cached ks h
  | .read :: ops => fresh_run (fresh_read f).1 ops

/-- If an entity has the keys of its class, then after any history `identityKeys` gives the present values of the keys;
once read, they are also what is shown, and what a relationship gets. -/
theorem C274_read_partial (vals : AList Str Val) (pks : List Str) (ops : List EOp) :
    (readIds (erun (newEnt vals pks pks) ops)).2 = (erun (newEnt vals pks pks) ops).pks.map (erun (newEnt vals pks pks) ops).val
    ∧ shown (readIds (erun (newEnt vals pks pks) ops)).1 = (readIds (erun (newEnt vals pks pks) ops)).2
    ∧ related (readIds (erun (newEnt vals pks pks) ops)).1 = (readIds (erun (newEnt vals pks pks) ops)).2 := by
  have f0 : Fresh (newEnt vals pks pks) := (fresh_read (e := { vals, pks, deps := pks }) ⟨rfl, fun ks h => by cases h⟩).1
  obtain ⟨_, h2, h3, _⟩ := fresh_read (fresh_run f0 ops)
  exact ⟨h2, h3.trans h2.symm, h3.trans h2.symm⟩

/-- Until `identityKeys` is read again, a changed entity is shown and referred to by the keys it had before. -/
theorem C274_shown_violated (e : Ent) (changes : List (Str × Val)) :
    shown (erun e (changes.map fun q => .assign q.1 q.2)) = shown e
    ∧ related (erun e (changes.map fun q => .assign q.1 q.2)) = related e := by
  induction changes generalizing e with
  | nil => exact ⟨rfl, rfl⟩
  | cons q l ih => exact ih (assign e q.1 q.2)

/-- If an entity was given other keys than its class has, `identityKeys` does not follow them. -/
theorem C274_given_violated (vals : AList Str Val) (pks deps : List Str) (k : Str) (hk : k ∉ deps) (v : Val) :
    (readIds (assign (newEnt vals pks deps) k v)).2 = (newEnt vals pks deps).attr := by
  have e1 : (newEnt vals pks deps).cached = some (newEnt vals pks deps).attr := by simp [newEnt, readIds]
  have e2 : (newEnt vals pks deps).inputs = deps.map (newEnt vals pks deps).val := by simp [newEnt, readIds, Ent.val]
  have e3 : (newEnt vals pks deps).deps = deps := by simp [newEnt, readIds]
  have hv : ∀ k' ∈ deps, (assign (newEnt vals pks deps) k v).val k' = (newEnt vals pks deps).val k' := by
    intro k' hk'
    have : k ≠ k' := fun h => hk (h ▸ hk')
    simp only [Ent.val, assign, AList.get?_set_ne _ _ this]
  have hc : (assign (newEnt vals pks deps) k v).cached = some (newEnt vals pks deps).attr := by
    simp only [assign]
    rw [if_neg (by rw [e3]; exact fun h => hk h.2), e1]
  have hi : ¬ ((assign (newEnt vals pks deps) k v).cached = none ∨
      (assign (newEnt vals pks deps) k v).inputs ≠
        (assign (newEnt vals pks deps) k v).deps.map (assign (newEnt vals pks deps) k v).val) := by
    rintro (h | h)
    · rw [hc] at h; cases h
    · apply h
      show (newEnt vals pks deps).inputs = (newEnt vals pks deps).deps.map _
      rw [e2, e3]
      exact (List.map_congr_left hv).symm
  rw [readIds, if_neg hi, hc]; rfl

example : shown (erun (newEnt [("id".toList, .int 1)] ["id".toList] ["id".toList]) [.assign "id".toList (.int 2)]) = [.int 1]
    ∧ shown (erun (newEnt [("id".toList, .int 1)] ["id".toList] ["id".toList]) [.assign "id".toList (.int 2), .read]) = [.int 2] := by
  decide +kernel

end Verif.Entities
