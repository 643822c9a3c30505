import Verif.Lemmas.Keys
/-
C153 The foreign key of an entity is made of its keys; C154 components of a key; C155 a written foreign key reads back;
C156 resolving a foreign key; C157 resolving in a session; C158 entities written by their identity; C159 the keys referred to; C160 relationships.
-/
namespace Verif.Keys
open Spec

/-! C153 -/

/-- C153: an object given for a foreign key stands for the values of the keys, each converted by its type. -/
theorem C153_entity (ev : Val → Val) (names : List Str) (types : List (Val → Res Val)) (e : Entity) (v : Val)
    (h : names.length = types.length) :
    convert ev names types (.entity e) = .ok v ↔ ∃ vs ws, Has e names vs ∧ Conv types vs ws ∧ Key ws v := by
  rw [convert]
  constructor
  · intro hc
    cases ha : attrs e names with
    | error x => rw [ha] at hc; cases hc
    | ok vs =>
      rw [ha] at hc
      have hh := (attrs_iff e names vs).1 ha
      obtain ⟨ws, h1, h2⟩ := (apply_iff types vs v (by rw [← h, has_length hh])).1 hc
      exact ⟨vs, ws, hh, h1, h2⟩
  · rintro ⟨vs, ws, hh, h1, h2⟩
    rw [(attrs_iff e names vs).2 hh]
    exact (apply_iff types vs v (by rw [← h, has_length hh])).2 ⟨ws, h1, h2⟩

/-- Integers as they are, texts of digits as numbers. -/
def intKey : Val → Res Val
  | .int i => .ok (.int i)
  | .str ['7'] => .ok (.int 7)
  | .none => .ok .none
  | _ => .error .conversionError

/-- Texts as they are. -/
def strKey : Val → Res Val
  | .str s => .ok (.str s)
  | .none => .ok .none
  | _ => .error .conversionError

/-- An object with two attributes. -/
def someone : Entity where
  ref := 5
  attr n := if n = "id".toList then .ok (.int 7) else if n = "name".toList then .ok (.str "x,y".toList)
    else .error .attributeError

example : convert id ["id".toList, "name".toList] [intKey, strKey] (.entity someone)
    = .ok (.list [.int 7, .str "x,y".toList]) := by decide +kernel
example : convert id ["age".toList] [intKey] (.entity someone) = .error .attributeError := by decide +kernel

/-! C154 -/

/-- C154: a list with as many items as there are keys gives the key with these components. -/
theorem C154_list_partial (ev : Val → Val) (names : List Str) (types : List (Val → Res Val)) (vs : List Val) (v : Val)
    (h : types.length = vs.length) (hl : ∀ x ∈ vs, Literal x) :
    convert ev names types (.val (.list vs)) = .ok v ↔ ∃ ws, Conv types vs ws ∧ Key ws v := by
  rw [convert, items_list ev true vs hl]
  · exact apply_iff types vs v h
  all_goals simp

/-- C154: a text with as many parts between commas as there are keys gives the key with these components. -/
theorem C154_text_partial (ev : Val → Val) (names : List Str) (types : List (Val → Res Val)) (parts : List Str) (v : Val)
    (h : types.length = parts.length) (hp : joinWith [','] parts ≠ []) (hc : ∀ p ∈ parts, ',' ∉ p)
    (hl : ∀ p ∈ parts, Literal (.str (strip isSpace p))) :
    convert ev names types (.val (.str (joinWith [','] parts))) = .ok v ↔
      ∃ ws, Conv types (parts.map fun p => .str (strip isSpace p)) ws ∧ Key ws v := by
  have hne : parts ≠ [] := by rintro rfl; exact hp rfl
  have hs : splitOn ',' (joinWith [','] parts) = parts := splitOn_joinWith parts hne hc
  rw [convert, items_text ev _ hp (by rw [hs]; exact hl), hs]
  · exact apply_iff types _ v (by simpa using h)
  all_goals simp

theorem zipConv_surplus : (ts : List (Val → Res Val)) → (vs more : List Val) → ts.length = vs.length →
    zipConv ts (vs ++ more) = zipConv ts vs
  | [], [], more, _ => by cases more <;> rfl
  | t :: ts, v :: vs, more, h => by
    rw [List.cons_append, zipConv, zipConv, zipConv_surplus ts vs more (by simpa using h)]
  | [], _ :: _, _, h => by simp at h
  | _ :: _, [], _, h => by simp at h

/-- C154 is violated: components in surplus are dropped. -/
theorem C154_surplus_violated (ev : Val → Val) (names : List Str) (types : List (Val → Res Val)) (vs more : List Val)
    (h : types.length = vs.length) (hl : ∀ x ∈ vs ++ more, Literal x) :
    convert ev names types (.val (.list (vs ++ more))) = convert ev names types (.val (.list vs)) := by
  rw [convert, convert, items_list ev true _ hl, items_list ev true vs fun x hx => hl x (List.mem_append_left _ hx)]
  · dsimp only
    match types, vs, h with
    | [], [], _ => cases more <;> rfl
    | [t], [x], _ => rfl
    | t :: u :: ts, x :: vs, h =>
      simp only [apply]
      rw [zipConv_surplus _ _ _ h]
  all_goals simp

theorem zipConv_short : (ts : List (Val → Res Val)) → (more : List (Val → Res Val)) → (vs : List Val) →
    ts.length = vs.length → zipConv (ts ++ more) vs = zipConv ts vs
  | [], more, [], _ => by cases more <;> rfl
  | t :: ts, more, v :: vs, h => by
    rw [List.cons_append, zipConv, zipConv, zipConv_short ts more vs (by simpa using h)]
  | [], _, _ :: _, h => by simp at h
  | _ :: _, _, [], h => by simp at h

/-- C154 is violated: a key with too few components is accepted as a shorter one. -/
theorem C154_missing_violated (ev : Val → Val) (names : List Str) (types more : List (Val → Res Val)) (vs ws : List Val)
    (hm : 2 ≤ (types ++ more).length) (hl : ∀ x ∈ vs, Literal x) (hc : Conv types vs ws) :
    convert ev names (types ++ more) (.val (.list vs)) = .ok (.list ws) := by
  have h := (conv_length hc).1
  rw [convert, items_list ev true vs hl]
  · dsimp only
    have : apply (types ++ more) vs = pack (zipConv (types ++ more) vs) := by
      unfold apply
      split
      · rename_i h1; rw [h1] at hm; simp at hm
      · rfl
    rw [this, zipConv_short types more vs h, (zipConv_iff types vs ws h).2 hc]
    rfl
  all_goals simp

example : convert id [] [intKey, strKey] (.val (.str "7, ab".toList)) = .ok (.list [.int 7, .str "ab".toList]) := by
  decide +kernel
example : convert id [] [intKey, strKey] (.val (.str "7, ab, c".toList)) = .ok (.list [.int 7, .str "ab".toList]) := by
  decide +kernel
example : convert id [] [intKey, strKey] (.val (.str "7".toList)) = .ok (.list [.int 7]) := by decide +kernel

/-! C155 -/

theorem truthy_plain (s : Str) (h : s ≠ []) : (Val.str s).truthy = true := by simp [Val.truthy, h]

/-- C155: a key of one component is written as it is and reads back, when the component is not negative, or a text
without commas and spaces around it. -/
theorem C155_single_partial (ev : Val → Val) (names : List Str) (t : Val → Res Val) (w : Val) (hw : Plain w)
    (ht : t w = .ok w) :
    serialize [t] w = .ok w ∧ convert ev names [t] (.val w) = .ok w := by
  refine ⟨ht, ?_⟩
  cases w with
  | none => rfl
  | bool b => exact hw.elim
  | int i => rw [convert, if_neg (by simpa [Plain] using hw)]; exact ht
  | str s =>
    obtain ⟨h1, h2, h3, h4, h5⟩ := hw
    have hs : splitOn ',' s = [s] := splitOn_of_notMem h2
    have hst := strip_id s h3 h4
    rw [convert, items_text ev s h1 (by rw [hs]; simp only [List.mem_singleton, forall_eq, hst]; exact h5), hs]
    · simp only [List.map_cons, List.map_nil, hst]; exact ht
    all_goals simp
  | list l => exact hw.elim
  | dict d => exact hw.elim

/-- C155: a key of several components is written as it is and reads back. -/
theorem C155_several_partial (ev : Val → Val) (names : List Str) (types : List (Val → Res Val)) (ws : List Val)
    (h : types.length ≠ 1) (hl : ∀ x ∈ ws, Literal x) (hc : Conv types ws ws) :
    serialize types (.list ws) = .ok (.list ws) ∧ convert ev names types (.val (.list ws)) = .ok (.list ws) := by
  have hn := conv_length hc
  constructor
  · have : serialize types (.list ws) = pack (zipConv types ws) := by
      unfold serialize
      split
      · exact absurd rfl h
      · rfl
    rw [this, (zipConv_iff types ws ws hn.1).2 hc]
    rfl
  · exact (C154_list_partial ev names types ws (.list ws) hn.1 hl).2 ⟨ws, hc, .many ws (by omega)⟩

/-- C155 is violated by a text with a comma: the entity with this key gives it, but reading the written key keeps what is
before the comma. -/
theorem C155_comma_violated (ev : Val → Val) (n : Str) (a b : Str) (ha : Plain (.str a))
    (hb : ∀ p ∈ splitOn ',' b, Literal (.str (strip isSpace p))) (e : Entity)
    (he : e.attr n = .ok (.str (a ++ ',' :: b))) :
    convert ev [n] [strKey] (.entity e) = .ok (.str (a ++ ',' :: b)) ∧
    serialize [strKey] (.str (a ++ ',' :: b)) = .ok (.str (a ++ ',' :: b)) ∧
    convert ev [n] [strKey] (.val (.str (a ++ ',' :: b))) = .ok (.str a) := by
  obtain ⟨h1, h2, h3, h4, h5⟩ := ha
  refine ⟨?_, rfl, ?_⟩
  · rw [convert, attrs, he, attrs]; rfl
  · have hs : splitOn ',' (a ++ ',' :: b) = a :: splitOn ',' b := splitOn_append h2
    have hst := strip_id a h3 h4
    rw [convert, items_text ev _ (by simp) (by
      rw [hs]
      intro p hp
      rcases List.mem_cons.1 hp with rfl | hp
      · rw [hst]; exact h5
      · exact hb p hp), hs]
    · simp only [List.map_cons, hst]; rfl
    all_goals simp

/-- C155 is violated by a negative key, which reads back as None. -/
theorem C155_negative_violated (ev : Val → Val) (n : Str) (t : Val → Res Val) (i : Int) (hi : i < 0) (e : Entity)
    (he : e.attr n = .ok (.int i)) (ht : t (.int i) = .ok (.int i)) :
    convert ev [n] [t] (.entity e) = .ok (.int i) ∧ serialize [t] (.int i) = .ok (.int i) ∧
    convert ev [n] [t] (.val (.int i)) = .ok .none := by
  refine ⟨?_, ht, ?_⟩
  · rw [convert, attrs, he, attrs]; exact ht
  · rw [convert, if_pos hi]

/-- C155 is violated by None with several keys: it converts to None, which cannot be written. -/
theorem C155_none_violated (ev : Val → Val) (names : List Str) (types : List (Val → Res Val)) (h : types.length ≠ 1) :
    convert ev names types (.val .none) = .ok .none ∧ serialize types .none = .error .typeError := by
  refine ⟨rfl, ?_⟩
  unfold serialize
  split
  · exact absurd rfl h
  · rfl

/-- C155 is violated by a text given for a key of several components: its characters are written. Of a mapping, the names
are. -/
theorem C155_chars_violated (types : List (Val → Res Val)) (h : types.length ≠ 1) :
    (∀ s, serialize types (.str s) = serialize types (.list (s.map fun c => .str [c]))) ∧
    (∀ d, serialize types (.dict d) = serialize types (.list (d.map fun kv => .str kv.1))) := by
  have hs : ∀ v, serialize types v = match iter v with
      | none => .error .typeError
      | some vs => pack (zipConv types vs) := by
    intro v
    unfold serialize
    split
    · exact absurd rfl h
    · rfl
  exact ⟨fun s => by rw [hs, hs]; rfl, fun d => by rw [hs, hs]; rfl⟩

example : serialize [strKey, strKey] (.str "ab".toList) = .ok (.list [.str ['a'], .str ['b']]) := by decide +kernel

example : Plain (.str "ab c".toList) := by
  refine ⟨by decide, by decide, ?_, ?_, by decide, ?_, ?_⟩
  · intro c hc; simp at hc; subst hc; decide
  · intro c hc; simp at hc; subst hc; decide
  · rw [← isInfix_iff]; decide
  · rw [← isInfix_iff]; decide
example : convert id [] [strKey] (.val (.str "x,y".toList)) = .ok (.str "x".toList) := by decide +kernel
example : convert id ["name".toList] [strKey] (.entity someone) = .ok (.str "x,y".toList) := by decide +kernel

/-! C156 -/

/-- The key as a tuple, for keys that do not count as false when they have one component. -/
theorem items_key (ev : Val → Val) (ks : List Val) (key : Val) (hk : Key ks key) (hl : ∀ x ∈ ks, Literal x)
    (h1 : ∀ k, ks = [k] → k.truthy = true ∧ ∀ l, k ≠ .list l) : items ev false key = .ok ks := by
  cases hk with
  | one => exact items_one ev key (h1 key rfl).1 (h1 key rfl).2 (hl key List.mem_cons_self)
  | many _ hn => exact items_list ev false ks hl

/-- C156: a key that the first repository of the class has gives the object stored under it, unless the key has one
component that counts as false. -/
theorem C156_resolve_partial (ev : Val → Val) (pre post : List Repo) (r : Repo) (ks : List Val) (key : Val) (o : Nat)
    (hk : Key ks key) (hl : ∀ x ∈ ks, Literal x) (h1 : ∀ k, ks = [k] → k.truthy = true ∧ ∀ l, k ≠ .list l)
    (hp : ∀ p ∈ pre, p.sub = false) (hr : r.sub = true) (hg : AList.get? r.catalog ks = some o) :
    resolve ev (pre ++ r :: post) key = .ok o := by
  have hf : (pre ++ r :: post).filter Repo.sub = r :: post.filter Repo.sub := by
    rw [List.filter_append, List.filter_cons, if_pos hr, List.filter_eq_nil_iff.2 (by simpa using hp), List.nil_append]
  rw [resolve, items_key ev ks key hk hl h1, hf]
  simp only [Repo.find, hg]

/-- The foreign key made from an object resolves to the object, under these conditions. -/
theorem C156_entity_partial (ev : Val → Val) (names : List Str) (types : List (Val → Res Val)) (e : Entity)
    (pre post : List Repo) (r : Repo) (ks : List Val) (h : names.length = types.length) (he : Has e names ks)
    (hc : Conv types ks ks) (hl : ∀ x ∈ ks, Literal x) (h1 : ∀ k, ks = [k] → k.truthy = true ∧ ∀ l, k ≠ .list l)
    (hp : ∀ p ∈ pre, p.sub = false) (hr : r.sub = true) (hg : AList.get? r.catalog ks = some e.ref) :
    ∃ key, convert ev names types (.entity e) = .ok key ∧ resolve ev (pre ++ r :: post) key = .ok e.ref := by
  have : ∃ key, Key ks key := by
    by_cases hn : ks.length = 1
    · obtain ⟨k, rfl⟩ := List.length_eq_one_iff.1 hn; exact ⟨k, .one k⟩
    · exact ⟨.list ks, .many ks hn⟩
  obtain ⟨key, hk⟩ := this
  exact ⟨key, (C153_entity ev names types e key h).2 ⟨ks, ks, he, hc, hk⟩,
    C156_resolve_partial ev pre post r ks key e.ref hk hl h1 hp hr hg⟩

/-- C156 is violated by the key 0, and any key that counts as false: it is looked up as the empty tuple. -/
theorem C156_zero_violated (ev : Val → Val) (repos : List Repo) (key : Val) (hk : key.truthy = false)
    (ha : Absent repos []) (hs : ∃ r ∈ repos, r.sub = true) : resolve ev repos key = .error .keyError := by
  rw [resolve, items_false ev false key hk]
  obtain ⟨r, hr, hrs⟩ := hs
  have hm : r ∈ repos.filter Repo.sub := List.mem_filter.2 ⟨hr, hrs⟩
  cases hf : repos.filter Repo.sub with
  | nil => rw [hf] at hm; simp at hm
  | cons q qs =>
    have hq : q ∈ repos.filter Repo.sub := by rw [hf]; exact List.mem_cons_self
    have := List.mem_filter.1 hq
    simp only [Repo.find, ha q this.1 this.2]

/-- C156 is violated by several repositories: what is not in the first one raises KeyError. -/
theorem C156_second_violated (ev : Val → Val) (r r' : Repo) (rs : List Repo) (ks : List Val) (key : Val) (hk : Key ks key)
    (hl : ∀ x ∈ ks, Literal x) (h1 : ∀ k, ks = [k] → k.truthy = true ∧ ∀ l, k ≠ .list l) (hr : r.sub = true)
    (hg : AList.get? r.catalog ks = none) : resolve ev (r :: r' :: rs) key = .error .keyError := by
  rw [resolve, items_key ev ks key hk hl h1, List.filter_cons, if_pos hr]
  simp only [Repo.find, hg]

/-- Two repositories of the class. -/
def stores : List Repo := [⟨true, [([.int 0], 10), ([.int 1, .str "a".toList], 11)]⟩, ⟨true, [([.int 7], 12)]⟩]

example : resolve id stores (.list [.int 1, .str "a".toList]) = .ok 11 := by decide +kernel
example : resolve id stores (.int 0) = .error .keyError := by decide +kernel
example : resolve id stores (.int 7) = .error .keyError ∧ sessionResolve id stores (.int 7) = .ok 12 := by decide +kernel

/-! C157 -/

theorem search_ok (ks : List Val) (o : Nat) : (repos : List Repo) →
    (search ks (repos.filter Repo.sub) = .ok o ↔ FirstHolds repos ks o)
  | [] => by
    constructor
    · intro h; cases h
    · rintro ⟨pre, r, post, h, _⟩; simp at h
  | q :: qs => by
    have ih := search_ok ks o qs
    have step : (q.sub = true → AList.get? q.catalog ks = none) → (FirstHolds (q :: qs) ks o ↔ FirstHolds qs ks o) := by
      intro hq
      constructor
      · rintro ⟨pre, r, post, h, hr, hg, hp⟩
        cases pre with
        | nil =>
          simp only [List.nil_append, List.cons.injEq] at h
          obtain ⟨rfl, rfl⟩ := h
          rw [hq hr] at hg; cases hg
        | cons p pre =>
          simp only [List.cons_append, List.cons.injEq] at h
          exact ⟨pre, r, post, h.2, hr, hg, fun x hx => hp x (List.mem_cons_of_mem _ hx)⟩
      · rintro ⟨pre, r, post, h, hr, hg, hp⟩
        refine ⟨q :: pre, r, post, by rw [h]; rfl, hr, hg, ?_⟩
        intro x hx
        rcases List.mem_cons.1 hx with rfl | hx
        · exact hq
        · exact hp x hx
    by_cases hs : q.sub = true
    · rw [List.filter_cons, if_pos hs, search]
      cases hg : AList.get? q.catalog ks with
      | none =>
        have : AList.contains q.catalog ks = false := by simp [AList.contains, hg]
        rw [this, step fun _ => hg]
        exact ih
      | some o' =>
        have : AList.contains q.catalog ks = true := by simp [AList.contains, hg]
        rw [this]
        simp only [if_true, Repo.find, hg, Except.ok.injEq]
        constructor
        · rintro rfl; exact ⟨[], q, qs, rfl, hs, hg, by simp⟩
        · rintro ⟨pre, r, post, h, hr, hg', hp⟩
          cases pre with
          | nil =>
            simp only [List.nil_append, List.cons.injEq] at h
            obtain ⟨rfl, rfl⟩ := h
            rw [hg] at hg'; simpa using hg'
          | cons p pre =>
            simp only [List.cons_append, List.cons.injEq] at h
            obtain ⟨rfl, -⟩ := h
            have := hp q List.mem_cons_self hs
            rw [hg] at this; cases this
    · rw [List.filter_cons, if_neg hs, step fun h => absurd h hs]
      exact ih

/-- C157: a session gives the object that the first repository of the class that has the key holds under it, unless the
key has one component that counts as false. -/
theorem C157_session_partial (ev : Val → Val) (repos : List Repo) (ks : List Val) (key : Val) (o : Nat) (hk : Key ks key)
    (hl : ∀ x ∈ ks, Literal x) (h1 : ∀ k, ks = [k] → k.truthy = true ∧ ∀ l, k ≠ .list l) :
    sessionResolve ev repos key = .ok o ↔ FirstHolds repos ks o := by
  rw [sessionResolve, items_key ev ks key hk hl h1]
  exact search_ok ks o repos

theorem search_absent (ks : List Val) : (repos : List Repo) → Absent repos ks →
    search ks (repos.filter Repo.sub) = .error (if ks.length = 1 then .exception else .typeError)
  | [], _ => rfl
  | q :: qs, h => by
    have ih := search_absent ks qs fun r hr => h r (List.mem_cons_of_mem _ hr)
    by_cases hs : q.sub = true
    · have : AList.contains q.catalog ks = false := by simp [AList.contains, h q List.mem_cons_self hs]
      rw [List.filter_cons, if_pos hs, search, this]
      exact ih
    · rw [List.filter_cons, if_neg hs]
      exact ih

/-- A key that is nowhere raises the generic exception, or TypeError when it has several components, which comes from
writing the message. -/
theorem C157_absent_violated (ev : Val → Val) (repos : List Repo) (ks : List Val) (key : Val) (hk : Key ks key)
    (hl : ∀ x ∈ ks, Literal x) (h1 : ∀ k, ks = [k] → k.truthy = true ∧ ∀ l, k ≠ .list l) (ha : Absent repos ks) :
    sessionResolve ev repos key = .error (if ks.length = 1 then .exception else .typeError) := by
  rw [sessionResolve, items_key ev ks key hk hl h1]
  exact search_absent ks repos ha

/-- C157 is violated by the key 0 and any key that counts as false. -/
theorem C157_zero_violated (ev : Val → Val) (repos : List Repo) (key : Val) (hk : key.truthy = false)
    (ha : Absent repos []) : sessionResolve ev repos key = .error .typeError := by
  rw [sessionResolve, items_false ev false key hk]
  exact search_absent [] repos ha

example : sessionResolve id stores (.list [.int 1, .str "a".toList]) = .ok 11 := by decide +kernel
example : sessionResolve id stores (.int 0) = .error .typeError := by decide +kernel
example : sessionResolve id stores (.int 8) = .error .exception := by decide +kernel
example : FirstHolds stores [.int 7] 12 :=
  ⟨[⟨true, [([.int 0], 10), ([.int 1, .str "a".toList], 11)]⟩], ⟨true, [([.int 7], 12)]⟩, [], rfl, rfl, rfl, by
    decide +kernel⟩

/-! C158 -/

/-- C158: an entity with one key that does not count as false, written by its identity, is made from the stored entity. -/
theorem C158_single_partial (ev : Val → Val) (repos : List Repo) (k : Val) (o : Nat) (hl : Literal k)
    (ht : k.truthy = true) (hk : ∀ l, k ≠ .list l) (hd : ∀ d, k ≠ .dict d) (ho : FirstHolds repos [k] o) :
    construct ev repos (identity [k]) = .ok (some o) := by
  have h1 : sessionResolve ev repos k = .ok o :=
    (C157_session_partial ev repos [k] k o (.one k) (by simpa using hl) (by
      intro k' h; cases h; exact ⟨ht, hk⟩)).2 ho
  have h2 : sessionResolve ev repos (.list [k]) = .ok o := by
    rw [sessionResolve, items_list ev false [k] (by simpa using hl)]
    exact (search_ok [k] o repos).2 ho
  have : construct ev repos k = (if !k.truthy then .ok none else
      match sessionResolve ev repos (.list [k]) with
      | .error x => .error x
      | .ok _ => match sessionResolve ev repos k with
        | .error x => .error x
        | .ok o => .ok (some o)) := by
    cases k <;> first | exact absurd rfl (hd _) | rfl
  show construct ev repos k = _
  rw [this, ht, h1, h2]
  rfl

/-- C158 is violated by several keys: they are never found. -/
theorem C158_several_violated (ev : Val → Val) (repos : List Repo) (ks : List Val) (hn : 2 ≤ ks.length)
    (ha : Absent repos [.list ks]) : construct ev repos (identity ks) = .error .exception := by
  have hi : identity ks = .list ks := by
    match ks, hn with
    | _ :: _ :: _, _ => rfl
  have ht : (Val.list ks).truthy = true := by
    match ks, hn with
    | _ :: _ :: _, _ => rfl
  have : sessionResolve ev repos (.list [.list ks]) = .error .exception := by
    rw [sessionResolve, items_list ev false [.list ks] (by simp [Literal])]
    exact search_absent [.list ks] repos ha
  rw [hi, construct, ht, this]
  · rfl
  · simp

/-- C158 is violated by the key 0 and any key that counts as false: a new entity is made. -/
theorem C158_zero_violated (ev : Val → Val) (repos : List Repo) (k : Val) (ht : k.truthy = false) :
    construct ev repos (identity [k]) = .ok none := by
  show construct ev repos k = _
  cases k <;> simp_all [construct]

example : construct id stores (identity [.int 7]) = .ok (some 12) := by decide +kernel
example : construct id stores (identity [.int 0]) = .ok none := by decide +kernel
example : construct id stores (identity [.int 1, .str "a".toList]) = .error .exception := by decide +kernel

/-! C159 -/

/-- C159: a foreign key refers to the keys it declares, else to the primary keys of the class, when the class is an entity
that is already built and knows the declared keys, or else a property `id`. -/
theorem C159_primary_partial (declared : Option (List Str)) (c : Target) (hp : c.proxy = false) (he : c.entity = true)
    (hd : ∀ l, declared = some l → ∀ k ∈ l, c.knows k = true) (hi : declared = none → c.knows "id".toList = true) :
    (∀ l, declared = some l → buildKeys declared c = .ok l) ∧
    (declared = none → buildKeys declared c = .ok c.primary) := by
  unfold buildKeys
  rw [hp, he]
  constructor
  · rintro l rfl
    have : l.all c.knows = true := List.all_eq_true.2 (hd l rfl)
    simp [this]
  · rintro rfl
    simpa using hi rfl

/-- C159 is violated: without a property `id` in the class the type cannot be built, whatever the primary keys. -/
theorem C159_id_violated (c : Target) (hp : c.proxy = false) (hi : c.knows "id".toList = false) :
    buildKeys none c = .error .assertionError := by
  unfold buildKeys
  dsimp only [Option.getD_none]
  rw [List.all_cons, hi, hp]
  rfl

/-- C159 is violated: a class that is still under construction is referred to by `id`, whatever the primary keys. -/
theorem C159_proxy_violated (c : Target) (hp : c.proxy = true) : buildKeys none c = .ok ["id".toList] := by
  simp [buildKeys, hp]

example : buildKeys none ⟨false, true, ["code".toList], fun k => k = "code".toList || k = "id".toList⟩
    = .ok ["code".toList] := by decide +kernel
example : buildKeys none ⟨false, true, ["code".toList], fun k => k = "code".toList⟩ = .error .assertionError := by
  decide +kernel
example : buildKeys (some ["code".toList]) ⟨false, true, ["a".toList], fun k => k = "code".toList⟩ = .ok ["code".toList] := by
  decide +kernel

/-! C160 -/

/-- C160: an entity assigned to a relationship is read back, when the first repository of the class has it under its keys
and a single key is plain and does not count as false. -/
theorem C160_relationship_partial (ev : Val → Val) (names : List Str) (types : List (Val → Res Val))
    (pre post : List Repo) (r : Repo) (ks : List Val) (o : Nat) (hc : Conv types ks ks) (hl : ∀ x ∈ ks, Literal x)
    (h1 : ∀ k, ks = [k] → k.truthy = true ∧ Plain k)
    (hp : ∀ p ∈ pre, p.sub = false) (hr : r.sub = true) (hg : AList.get? r.catalog ks = some o) :
    ∃ held, relSet ev names types ks = .ok held ∧ relGet ev names types (pre ++ r :: post) held = .ok o := by
  have hlen := conv_length hc
  have hnl : ∀ k, ks = [k] → k.truthy = true ∧ ∀ l, k ≠ .list l := by
    intro k hk
    refine ⟨(h1 k hk).1, ?_⟩
    rintro l rfl
    exact (h1 _ hk).2
  by_cases hn : ks.length = 1
  · obtain ⟨k, rfl⟩ := List.length_eq_one_iff.1 hn
    cases hc with
    | cons ht hrest =>
      cases hrest
      rename_i t
      refine ⟨k, ?_, ?_⟩
      · exact (C154_list_partial ev names [t] [k] k rfl hl).2 ⟨[k], .cons ht .nil, .one k⟩
      · rw [relGet, (C155_single_partial ev names t k (h1 k rfl).2 ht).2]
        exact C156_resolve_partial ev pre post r [k] k o (.one k) hl hnl hp hr hg
  · have hm := C155_several_partial ev names types ks (by omega) hl hc
    refine ⟨.list ks, hm.2, ?_⟩
    rw [relGet, hm.2]
    exact C156_resolve_partial ev pre post r ks (.list ks) o (.many ks hn) hl hnl hp hr hg

/-- C160 is violated by the key 0, the first one that a repository assigns. -/
theorem C160_zero_violated (ev : Val → Val) (names : List Str) (t : Val → Res Val) (ht : t (.int 0) = .ok (.int 0))
    (repos : List Repo) (ha : Absent repos []) (hs : ∃ r ∈ repos, r.sub = true) :
    relSet ev names [t] [.int 0] = .ok (.int 0) ∧ relGet ev names [t] repos (.int 0) = .error .keyError := by
  constructor
  · exact (C154_list_partial ev names [t] [.int 0] (.int 0) rfl (by simp [Literal])).2
      ⟨[.int 0], .cons ht .nil, .one _⟩
  · have : convert ev names [t] (.val (.int 0)) = .ok (.int 0) := ht
    rw [relGet, this]
    exact C156_zero_violated ev repos (.int 0) rfl ha hs

example : relSet id [] [intKey, strKey] [.int 1, .str "a".toList] = .ok (.list [.int 1, .str "a".toList]) ∧
    relGet id [] [intKey, strKey] stores (.list [.int 1, .str "a".toList]) = .ok 11 := by decide +kernel
example : relGet id [] [intKey] stores (.int 0) = .error .keyError := by decide +kernel

end Verif.Keys
