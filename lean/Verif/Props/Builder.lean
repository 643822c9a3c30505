import Verif.Lemmas.Builder
/-
C76, C77: the type builder.
-/
namespace Verif.Builder

/-! ### Schemas for the examples -/

def txt (s : String) : Str := s.toList

/-- A schema with nothing but the given keywords. -/
def ref (r : String) : Schema := .node none (some (txt r)) [] [] [] [] none none [] none [] false
def lit (t : String) : Schema := .node (some (txt t)) none [] [] [] [] none none [] none [] false
def obj (props : List (Str × Schema)) : Schema := .node (some (txt "object")) none [] [] props [] none none [] none [] false
def arr (items : Schema) : Schema := .node (some (txt "array")) none [] [] [] [] none (some items) [] none [] false

/-- A tree: the children of a node are an array of nodes, which refer to their parent. -/
def docsEx : AList Id Schema :=
  [(txt "u#/Node", obj [(txt "name", lit "string"), (txt "parent", ref "#/Node"), (txt "children", ref "#/Nodes")]),
   (txt "u#/Nodes", arr (ref "#/Node"))]

def noFail (_ : Id) (_ : Schema) (_ : List Cls) : Option Exc := none
def cfgEx : Cfg := ⟨docsEx, noFail⟩
def s0 : St := ⟨[], [], 0, []⟩

/-! ### C76 -/

/-- **C76**: every request ends, whatever the documents and their reference cycles, in whatever state, and has one
outcome. -/
theorem C76_terminates (cfg : Cfg) (r : Req) (s : St) : ∃ out s', Gives cfg r s out s' ∧
    ∀ out2 s2, Gives cfg r s out2 s2 → out2 = out ∧ s2 = s' := by
  obtain ⟨n, ⟨out, s'⟩, h⟩ := run_ends cfg (free cfg s + 1) s (Nat.lt_succ_self _) r
  exact ⟨out, s', ⟨n, h⟩, fun out2 s2 h2 => gives_unique h2 ⟨n, h⟩⟩

/-- The tree type: the node is made last, its parent and the items of its children are proxies of it. -/
example : ((run cfgEx 9 (.load (txt "u#/Nodes")) s0).map fun x => (x.1.toOption, x.2.registry, x.2.log)) =
    some (some (.made (txt "u#/Nodes") 5),
      [(txt "u#/Node/properties/name", .made (txt "u#/Node/properties/name") 0),
       (txt "u#/Node/properties/parent", .proxy (txt "u#/Node") 1),
       (txt "u#/Node/properties/children", .proxy (txt "u#/Nodes") 2),
       (txt "u#/Node", .made (txt "u#/Node") 4),
       (txt "u#/Nodes/items", .made (txt "u#/Node") 4),
       (txt "u#/Nodes", .made (txt "u#/Nodes") 5)],
      [.built (txt "u#/Nodes"), .built (txt "u#/Nodes/items"), .built (txt "u#/Node"),
       .built (txt "u#/Node/properties/children"), .proxied (txt "u#/Nodes"),
       .built (txt "u#/Node/properties/parent"), .proxied (txt "u#/Node"), .built (txt "u#/Node/properties/name")]) := by
  decide +kernel

/-- **C76**: over any history of requests, on any documents, an identifier is successfully built at most once. -/
theorem C76_once {s s' : St} {h : List (Cfg × Req × Res Cls)} (hh : Hist s h s') :
    ∃ l, s'.log = l ++ s.log ∧ ∀ i, l.count (.built i) ≤ 1 := by
  obtain ⟨⟨l, hl⟩, _⟩ := hist_grows hh
  exact ⟨l, hl.log, hl.once⟩

/-- **C76** (the part that holds): a request for an identifier that is not under construction, and is no inline
boolean schema, when it succeeds, settles the class: after any further history every request for the identifier, by
`load` or by `build` with whatever schema, returns that class, unless a class made for another identifier was
registered over it by `extend_type`. -/
theorem C76_same_partial {cfg : Cfg} {r : Req} {s s1 s2 : St} {c : Cls} {h : List (Cfg × Req × Res Cls)}
    (hi : AList.get? s.onC r.id = none) (hb : ∀ i b, r ≠ .build i (some (.bool b)))
    (hb2 : ∀ i b, r = .build i none → AList.get? cfg.store i ≠ some (.bool b))
    (hg : Gives cfg r s (.ok c) s1) (hh : Hist s1 h s2) (hc : ¬ Clash r.id s2.log) :
    ∀ cfg' r', r'.id = r.id → Gives cfg' r' s2 (.ok c) s2 := by
  have hreg : AList.get? s1.registry r.id = some c := by
    obtain ⟨n, hn⟩ := hg
    cases n with
    | zero => simp [run] at hn
    | succ n =>
      cases r with
      | build i sch =>
        rw [run] at hn
        cases hr : AList.get? s.registry i with
        | some d =>
          rw [hr] at hn
          simp only [Option.some.injEq, Prod.mk.injEq] at hn
          obtain ⟨h1, rfl⟩ := hn
          injection h1 with h1
          rw [← h1]; exact hr
        | none =>
          rw [hr] at hn
          simp only [show AList.get? s.onC i = none from hi] at hn
          rcases good_start (good_run cfg n) hr hi hn with ⟨e, he, _⟩ | ⟨b, h1, _⟩ | ⟨sc, _, _, h1 | h1⟩
          · cases he
          · exfalso
            cases sch with
            | some sc =>
              simp only [given, Except.ok.injEq] at h1
              exact hb i b (by rw [h1])
            | none =>
              simp only [given] at h1
              split at h1
              · rename_i sc hsc
                injection h1 with h1
                exact hb2 i b rfl (by rw [hsc, h1])
              · cases h1
          · obtain ⟨e, l, he, _⟩ := h1; cases he
          · obtain ⟨d, l, he, _, _, h2, _⟩ := h1
            injection he with he
            rw [he]; exact h2
      | load i =>
        rw [run] at hn
        cases hr : AList.get? s.registry i with
        | some d =>
          rw [hr] at hn
          simp only [Option.some.injEq, Prod.mk.injEq] at hn
          obtain ⟨h1, rfl⟩ := hn
          injection h1 with h1
          rw [← h1]; exact hr
        | none =>
          rw [hr] at hn
          simp only [show AList.get? s.onC i = none from hi] at hn
          cases hb : run cfg n (.build i none) s with
          | none => rw [hb] at hn; simp [store] at hn
          | some y =>
            obtain ⟨o, s3⟩ := y
            rw [hb] at hn
            cases o with
            | error e => simp [store] at hn
            | ok d =>
              simp only [store, Option.some.injEq, Prod.mk.injEq] at hn
              obtain ⟨h1, rfl⟩ := hn
              injection h1 with h1
              subst h1
              exact AList.get?_set_self _ _ _
  obtain ⟨⟨l, hl⟩, _⟩ := hist_grows hh
  have h2 : AList.get? s2.registry r.id = some c := by
    rcases hl.reg _ _ hreg with h | ⟨h, _⟩
    · exact h
    · exact absurd (by rw [hl.log]; exact h.left) hc
  intro cfg' r' hr'
  exact gives_registered (by rw [hr']; exact h2)

/-- **C76**: identifiers with an upper case letter or a hyphen, as `…#/Node`, are never registered over. -/
theorem C76_upper_no_clash {i : Id} (h : ∃ c ∈ i, c.isUpper = true ∨ c = '-') (l : List Event) : ¬ Clash i l := by
  rintro ⟨a, _, h2, _⟩
  obtain ⟨c, hc, h3⟩ := h
  rw [← h2] at hc
  obtain ⟨h4, h5⟩ := underscore_not_upper hc
  rcases h3 with h3 | h3
  · rw [h3] at h4; cases h4
  · exact h5 h3

example : AList.get? s0.onC (txt "u#/Node") = none ∧
    ((run cfgEx 9 (.load (txt "u#/Node")) s0).map fun x => (x.1.toOption)) = some (some (.made (txt "u#/Node") 5)) ∧
    (((run cfgEx 9 (.load (txt "u#/Node")) s0).bind fun x => run cfgEx 9 (.load (txt "u#/Nodes")) x.2).bind fun x =>
      (run cfgEx 9 (.build (txt "u#/Node") (some (lit "string"))) x.2).map fun x => x.1.toOption) =
      some (some (.made (txt "u#/Node") 5)) ∧
    (∃ c ∈ txt "u#/Node", c.isUpper = true ∨ c = '-') := by
  refine ⟨rfl, by decide +kernel, by decide +kernel, 'N', by decide +kernel, Or.inl rfl⟩

/-- An object, and another identifier that extends a text type, whose other spelling is the first one. -/
def docsClash : AList Id Schema :=
  [(txt "u#/my_type", obj []), (txt "u#/name", lit "string"),
   (txt "u#/myType", .node none (some (txt "#/name")) [] [] [] [] none none [] none [] true)]

def cfgClash : Cfg := ⟨docsClash, noFail⟩

def final (cfg : Cfg) : List Req → St → List (Option Cls) × St
  | [], s => ([], s)
  | r :: rs, s =>
    match run cfg 20 r s with
    | none => ([], s)
    | some (out, s1) => let (os, s2) := final cfg rs s1; (out.toOption :: os, s2)

/-- **C76** is violated: a later request for `u#/my_type` returns another class, the one built for `u#/myType`
(type_protocol.py 152 registers the extended class under `inflection.underscore(id)`). -/
theorem C76_same_violated :
    ¬ (∀ (cfg : Cfg) (i : Id) (s s1 s2 : St) (c : Cls) (h : List (Cfg × Req × Res Cls)), Idle s → s.registry = [] →
      Gives cfg (.load i) s (.ok c) s1 → Hist s1 h s2 → Gives cfg (.load i) s2 (.ok c) s2) := by
  intro hall
  have h1 : Gives cfgClash (.load (txt "u#/my_type")) s0 (.ok (.made (txt "u#/my_type") 1))
      (final cfgClash [.load (txt "u#/my_type")] s0).2 := ⟨20, rfl⟩
  have h2 : Hist (final cfgClash [.load (txt "u#/my_type")] s0).2
      [(cfgClash, .load (txt "u#/myType"), .ok (.made (txt "u#/myType") 3))]
      (final cfgClash [.load (txt "u#/my_type"), .load (txt "u#/myType")] s0).2 :=
    .cons ⟨20, rfl⟩ (.nil _)
  have h3 := hall _ _ _ _ _ _ _ (show Idle s0 from rfl) rfl h1 h2
  have h4 : Gives cfgClash (.load (txt "u#/my_type"))
      (final cfgClash [.load (txt "u#/my_type"), .load (txt "u#/myType")] s0).2 (.ok (.made (txt "u#/myType") 3))
      (final cfgClash [.load (txt "u#/my_type"), .load (txt "u#/myType")] s0).2 := ⟨20, rfl⟩
  have h5 := (gives_unique h3 h4).1
  injection h5 with h5
  revert h5
  decide +kernel

/-- **C76**: from an idle builder, after any history of successful requests, nothing is under construction, and each
identifier a proxy was handed out for resolves (`proxy_type`) to the class made for that identifier (unless
registered over). -/
theorem C76_proxies {s s' : St} {h : List (Cfg × Req × Res Cls)} (hs : Idle s) (hl : s.log = []) (hh : Hist s h s')
    (hok : ∀ x ∈ h, ∃ c, x.2.2 = .ok c) :
    Idle s' ∧ ∀ i, Event.proxied i ∈ s'.log → (∃ n, proxyType i s' = some (.made i n)) ∨ Clash i s'.log := by
  obtain ⟨_, ho, hp⟩ := hist_grows hh
  have hid : Idle s' := by unfold Idle; rw [ho hok]; exact hs
  refine ⟨hid, fun i hi => ?_⟩
  have := hp (by intro j hj; rw [hl] at hj; cases hj) i hi
  rcases this with ⟨sch, h1, _⟩ | h1 | h1
  · rw [show s'.onC = [] from hid] at h1; cases h1
  · exact Or.inl h1
  · exact Or.inr h1

/-- **C76**: requests for an identifier under construction return at once, registering nothing: a proxy of it, or,
when the schema under construction has no `type` (a bare `$ref` or `enum`), a KeyError. -/
theorem C76_during_partial {cfg : Cfg} {r : Req} {s s' : St} {sch : Schema} {out : Res Cls}
    (hr : AList.get? s.registry r.id = none) (hi : AList.get? s.onC r.id = some sch) (hg : Gives cfg r s out s') :
    s'.registry = s.registry ∧ (sch.typed = true → ∃ n, out = .ok (.proxy r.id n)) ∧
    (sch.typed = false → out = .error .keyError) := by
  obtain ⟨h1, h2⟩ := gives_unique hg (gives_onC hr hi)
  subst h1 h2
  cases sch with
  | bool b => exact ⟨rfl, by simp [Schema.typed], fun _ => rfl⟩
  | node type =>
    cases type with
    | none => exact ⟨rfl, by simp [Schema.typed], fun _ => rfl⟩
    | some t => exact ⟨rfl, fun _ => ⟨_, rfl⟩, by simp [Schema.typed]⟩

/-- Two aliases of each other: no class, KeyError. -/
example : (run ⟨[(txt "u#/a", ref "#/b"), (txt "u#/b", ref "#/a")], noFail⟩ 9 (.load (txt "u#/a")) s0).map
    (fun x => x.1.toOption) = some none := by decide +kernel

/-! ### C77 -/

/-- **C77** (the part that holds): asking for an identifier no document has fails and changes nothing, so that it
can be asked for again once the document is known. -/
theorem C77_unknown_partial {cfg : Cfg} {r : Req} {s s' : St} {out : Res Cls} (hr : AList.get? s.registry r.id = none)
    (hi : AList.get? s.onC r.id = none) (hst : AList.get? cfg.store r.id = none)
    (hreq : r = .load r.id ∨ r = .build r.id none) (hg : Gives cfg r s out s') :
    out = .error .invalidValue ∧ s' = s := by
  apply gives_unique hg
  rcases hreq with h | h
  · rw [h]
    refine ⟨2, ?_⟩
    simp only [run, hr, hi]
    simp [start, given, hst, store]
  · rw [h]
    refine ⟨1, ?_⟩
    simp only [run, hr, hi]
    simp [start, given, hst]

example : (run cfgEx 2 (.load (txt "u#/Leaf")) s0).map (fun x => (x.1.toOption, x.2.registry, x.2.onC.length)) =
    some (none, [], 0) := by decide +kernel

/-- What becomes of an identifier whose construction failed once begun: over any later history, with whatever
documents, it is never built; every request for it returns a proxy that resolves to nothing, or, if its schema has no
`type`, raises KeyError (unless another class was registered over it). -/
theorem C77_stuck_partial {cfg : Cfg} {i : Id} {sch : Option Schema} {sc : Schema} {s s1 s2 : St} {e : Exc}
    {h : List (Cfg × Req × Res Cls)} (hr : AList.get? s.registry i = none) (hi : AList.get? s.onC i = none)
    (hsc : given cfg i sch = .ok sc) (hg : Gives cfg (.build i sch) s (.error e) s1) (hh : Hist s1 h s2)
    (hc : ¬ Clash i s2.log) (cfg' : Cfg) (r' : Req) (hr' : r'.id = i) :
    ∃ out s3, Gives cfg' r' s2 out s3 ∧ proxyType i s3 = none ∧ (sc.typed = true → ∃ n, out = .ok (.proxy i n)) ∧
      (sc.typed = false → out = .error .keyError) := by
  subst hr'
  have hst : Stuck r'.id s1 ∧ AList.get? s1.onC r'.id = some sc := by
    obtain ⟨n, hn⟩ := hg
    cases n with
    | zero => simp [run] at hn
    | succ n =>
      rw [run, hr] at hn
      simp only [hi] at hn
      have hn' := hn
      rcases good_start (good_run cfg n) hr hi hn with ⟨e', _, _, h1⟩ | ⟨b, _, h1, _⟩ | ⟨sc', h0, hb, h1 | h1⟩
      · rw [h1] at hsc; cases hsc
      · cases h1
      · rw [h0] at hsc
        injection hsc with hsc
        subst hsc
        obtain ⟨e', l, _, hl⟩ := h1
        refine ⟨?_, hl.onC _ _ (AList.get?_set_self _ _ _)⟩
        unfold start at hn'
        rw [h0] at hn'
        cases sc' with
        | bool b => cases hb
        | node =>
          refine stuck_construct (goodn_run cfg n) hn' (Or.inr ⟨?_, hr⟩) (Or.inr ⟨e, rfl⟩)
          simp [AList.get?_set_self]
      · obtain ⟨d, l, h2, _⟩ := h1; cases h2
  have h2 := hist_stuck hh hst.1
  obtain ⟨⟨l, hl⟩, _⟩ := hist_grows hh
  have honC := hl.onC _ _ hst.2
  rcases h2 with h2 | ⟨_, h2⟩
  · exact absurd h2 hc
  · refine ⟨_, _, gives_onC h2 honC, ?_, ?_⟩
    · have := (C76_during_partial h2 honC (gives_onC (cfg := cfg) h2 honC)).1
      unfold proxyType
      rw [this]; exact h2
    · exact (C76_during_partial h2 honC (gives_onC (cfg := cfg) h2 honC)).2

/-- A type with a reference to an identifier of a document that is not loaded yet. -/
def docsLate : AList Id Schema := [(txt "u#/A", obj [(txt "b", ref "v#/B")])]
def docsAll : AList Id Schema := docsLate ++ [(txt "v#/B", lit "string")]

example : AList.get? s0.registry (txt "u#/A") = none ∧ AList.get? s0.onC (txt "u#/A") = none ∧
    (run ⟨docsLate, noFail⟩ 9 (.build (txt "u#/A") none) s0).map (fun x => x.1.toOption) = some none ∧
    ((run ⟨docsLate, noFail⟩ 9 (.build (txt "u#/A") none) s0).bind fun x =>
      (run ⟨docsAll, noFail⟩ 9 (.load (txt "u#/A")) x.2).map fun x => (x.1.toOption, proxyType (txt "u#/A") x.2)) =
      some (some (.proxy (txt "u#/A") 0), none) ∧
    (run ⟨docsAll, noFail⟩ 9 (.load (txt "u#/A")) s0).map (fun x => x.1.toOption) =
      some (some (.made (txt "u#/A") 2)) := by
  refine ⟨rfl, rfl, by decide +kernel, by decide +kernel, by decide +kernel⟩

/-- **C77** is violated: loading `u#/A` fails as long as the document of `v#/B` is not loaded; once it is, the request
that would have succeeded returns a reference that resolves to nothing. -/
theorem C77_retry_violated :
    ¬ (∀ (cfg cfg' : Cfg) (i : Id) (s s1 s2 : St) (e : Exc) (n : Nat), Idle s →
      Gives cfg (.load i) s (.error e) s1 → Gives cfg' (.load i) s (.ok (.made i n)) s2 →
      ∃ m s3, Gives cfg' (.load i) s1 (.ok (.made i m)) s3) := by
  intro hall
  have h1 : Gives ⟨docsLate, noFail⟩ (.load (txt "u#/A")) s0 (.error .invalidValue)
      (final ⟨docsLate, noFail⟩ [.load (txt "u#/A")] s0).2 := ⟨20, rfl⟩
  have h2 : Gives ⟨docsAll, noFail⟩ (.load (txt "u#/A")) s0 (.ok (.made (txt "u#/A") 2))
      (final ⟨docsAll, noFail⟩ [.load (txt "u#/A")] s0).2 := ⟨20, rfl⟩
  obtain ⟨m, s3, h3⟩ := hall _ _ _ _ _ _ _ _ (show Idle s0 from rfl) h1 h2
  have h4 : Gives ⟨docsAll, noFail⟩ (.load (txt "u#/A")) (final ⟨docsLate, noFail⟩ [.load (txt "u#/A")] s0).2
      (.ok (.proxy (txt "u#/A") 0)) _ := ⟨20, rfl⟩
  have h5 := (gives_unique h3 h4).1
  injection h5 with h5
  cases h5

end Verif.Builder
