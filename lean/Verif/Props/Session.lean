import Verif.Lemmas.Session
/-
C74, C75, C103, C104: session factories and scoped sessions.
-/
namespace Verif.Session

/-! ### C74 -/

/-- Every option but `info`: the value of the call, else the one last configured, else the one of the
constructor, else the documented default. The factory keeps its configuration, and no existing dictionary
object changes. -/
theorem C74_options (given : AList Str Arg) (configs : List (AList Str Arg)) (h : Heap) (loc : AList Str Arg)
    (wg : AList.WF given) (wc : ∀ c ∈ configs, AList.WF c) (w' : World) (r : AList Str Arg)
    (hr : makerCall ⟨configs.foldl configure (makerInit given), h⟩ loc = (w', .ok r)) :
    (∀ k, k ≠ "info".toList → AList.get? r k = (AList.get? loc k).or (configured given configs k)) ∧
    w'.kw = configs.foldl configure (makerInit given) ∧ (∀ a, a < h.length → w'.heap[a]? = h[a]?) := by
  have wk := wf_configures (wf_makerInit wg) configs
  unfold makerCall at hr
  simp only at hr
  have hw : w'.kw = configs.foldl configure (makerInit given) := by
    simp only [Prod.mk.injEq] at hr; rw [← hr.1]
  refine and_left_comm.1 ⟨hw, ?_⟩
  simp only [← configured_eq _ _ wc]
  cases hl : AList.get? loc kInfo with
  | none =>
    obtain ⟨r', h1, h2⟩ := callLoop_noLocal h loc _ wk hl
    rw [h1] at hr
    simp only [Prod.mk.injEq, Except.ok.injEq] at hr
    rw [← hr.2, ← hr.1]
    exact ⟨fun k _ => h2 k, fun a _ => rfl⟩
  | some i =>
    cases hv : AList.get? (configs.foldl configure (makerInit given)) kInfo with
    | none =>
      obtain ⟨r', h1, h2⟩ := callLoop_noInfo h loc _ (notMem_keys hv)
      rw [h1] at hr
      simp only [Prod.mk.injEq, Except.ok.injEq] at hr
      rw [← hr.2, ← hr.1]
      exact ⟨fun k _ => h2 k, fun a _ => rfl⟩
    | some v =>
      have := callLoop_both h loc _ wk i v hl hv
      rcases hm : mergeInfo h v i with ⟨h', e | d⟩
      · rw [hm] at this
        simp only at this
        rw [this] at hr; simp at hr
      · rw [hm] at this
        simp only at this
        obtain ⟨r', h1, h2, h3⟩ := this
        rw [h1] at hr
        simp only [Prod.mk.injEq, Except.ok.injEq] at hr
        rw [← hr.2, ← hr.1]
        refine ⟨h3, fun a ha => ?_⟩
        simp only
        unfold mergeInfo at hm
        repeat' split at hm
        all_goals simp only [Prod.mk.injEq, reduceCtorEq, and_false, Except.ok.injEq] at hm
        rw [← hm.1, List.getElem?_append_left ha]

/-- `info`: given at one level only, the session receives that object; given at both as dictionaries, a new
dictionary that has every entry of both, those of the call winning. -/
theorem C74_info (given : AList Str Arg) (configs : List (AList Str Arg)) (h : Heap) (loc : AList Str Arg)
    (wg : AList.WF given) (wc : ∀ c ∈ configs, AList.WF c) :
    (AList.get? loc "info".toList = none → ∃ r,
      makerCall ⟨configs.foldl configure (makerInit given), h⟩ loc = (⟨configs.foldl configure (makerInit given), h⟩, .ok r) ∧
      AList.get? r "info".toList = configured given configs "info".toList) ∧
    (configured given configs "info".toList = none → ∃ r,
      makerCall ⟨configs.foldl configure (makerInit given), h⟩ loc = (⟨configs.foldl configure (makerInit given), h⟩, .ok r) ∧
      AList.get? r "info".toList = AList.get? loc "info".toList) ∧
    (∀ a b d e, configured given configs "info".toList = some (.ref a) → AList.get? loc "info".toList = some (.ref b) →
      h[a]? = some d → h[b]? = some e → AList.WF e → ∃ w' r m,
      makerCall ⟨configs.foldl configure (makerInit given), h⟩ loc = (w', .ok r) ∧
      AList.get? r "info".toList = some (.ref h.length) ∧ w'.heap[h.length]? = some m ∧
      ∀ k, AList.get? m k = (AList.get? e k).or (AList.get? d k)) := by
  have wk := wf_configures (wf_makerInit wg) configs
  simp only [← configured_eq _ _ wc]
  refine ⟨fun hl => ?_, fun hv => ?_, fun a b d e hv hl ha hb we => ?_⟩
  · obtain ⟨r', h1, h2⟩ := callLoop_noLocal h loc _ wk hl
    refine ⟨r', by simp only [makerCall, h1], ?_⟩
    rw [h2, hl]; rfl
  · obtain ⟨r', h1, h2⟩ := callLoop_noInfo h loc _ (notMem_keys hv)
    refine ⟨r', by simp only [makerCall, h1], ?_⟩
    rw [h2, hv, Option.or_none]
  · have := callLoop_both h loc _ wk (.ref b) (.ref a) hl hv
    have hm : mergeInfo h (.ref a) (.ref b) = (h ++ [AList.update d e], .ok (.ref h.length)) := by
      simp only [mergeInfo, ha, hb]
    rw [hm] at this
    simp only at this
    obtain ⟨r', h1, h2, -⟩ := this
    refine ⟨⟨configs.foldl configure (makerInit given), h ++ [AList.update d e]⟩, r', AList.update d e, by simp only [makerCall, h1], h2, by simp, fun k => ?_⟩
    rw [AList.get?_update _ we]

/-- A call with `info` at both levels fails unless both are dictionaries; a call fails for no other reason. -/
theorem C74_failure (given : AList Str Arg) (configs : List (AList Str Arg)) (h : Heap) (loc : AList Str Arg)
    (wg : AList.WF given) (wc : ∀ c ∈ configs, AList.WF c) (w' : World) (e : Exc)
    (hr : makerCall ⟨configs.foldl configure (makerInit given), h⟩ loc = (w', .error e)) :
    w' = ⟨configs.foldl configure (makerInit given), h⟩ ∧
    ∃ v i, configured given configs "info".toList = some v ∧ AList.get? loc "info".toList = some i ∧
      ¬ ∃ a b d d', v = .ref a ∧ i = .ref b ∧ h[a]? = some d ∧ h[b]? = some d' := by
  have wk := wf_configures (wf_makerInit wg) configs
  simp only [← configured_eq _ _ wc]
  unfold makerCall at hr
  simp only at hr
  cases hl : AList.get? loc kInfo with
  | none =>
    obtain ⟨r', h1, h2⟩ := callLoop_noLocal h loc _ wk hl
    rw [h1] at hr; simp at hr
  | some i =>
    cases hv : AList.get? (configs.foldl configure (makerInit given)) kInfo with
    | none =>
      obtain ⟨r', h1, h2⟩ := callLoop_noInfo h loc _ (notMem_keys hv)
      rw [h1] at hr; simp at hr
    | some v =>
      have := callLoop_both h loc _ wk i v hl hv
      rcases hm : mergeInfo h v i with ⟨h', e' | d⟩
      · rw [hm] at this
        simp only at this
        rw [this] at hr
        simp only [Prod.mk.injEq] at hr
        have hh : h' = h := by
          unfold mergeInfo at hm
          repeat' split at hm
          all_goals simp only [Prod.mk.injEq, reduceCtorEq, and_false] at hm
          all_goals exact hm.1.symm
        refine ⟨by rw [← hr.1, hh], v, i, hv, hl, ?_⟩
        rintro ⟨a, b, d, d', rfl, rfl, ha, hb⟩
        simp [mergeInfo, ha, hb] at hm
      · rw [hm] at this
        simp only at this
        obtain ⟨r', h1, -⟩ := this
        rw [h1] at hr; simp at hr

/-- `session_maker(autoflush=False, info={'a': 1, 'b': 1})`, configured with `bind='db'`, then
`Session(info={'b': 2}, x=3)`. -/
example :
    let w : World := ⟨[[("bind".toList, Arg.val (.str "db".toList))]].foldl configure
        (makerInit [("autoflush".toList, .val (.bool false)), ("info".toList, .ref 0)]),
      [[("a".toList, .int 1), ("b".toList, .int 1)], [("b".toList, .int 2)]]⟩
    let r := makerCall w [("info".toList, .ref 1), ("x".toList, .val (.int 3))]
    r.2.toOption.map (fun x => ["bind", "autoflush", "x", "autocommit", "info"].map (fun k => AList.get? x k.toList)) =
      some [some (.val (.str "db".toList)), some (.val (.bool false)), some (.val (.int 3)), some (.val (.bool false)),
        some (.ref 2)] ∧
    (r.1.heap.drop 2).map (fun d => (AList.get? d "a".toList, AList.get? d "b".toList)) =
      [(some (.int 1), some (.int 2))] := by decide +kernel

/-! ### C103 -/

/-- Without `info` in the call every session is given the dictionary object of the factory itself: what one
session writes in its `info` is seen by the other sessions, and by the factory. -/
theorem C103_sharedInfo_violated (given : AList Str Arg) (configs : List (AList Str Arg)) (h : Heap)
    (wg : AList.WF given) (wc : ∀ c ∈ configs, AList.WF c) (a : Nat)
    (ha : configured given configs "info".toList = some (.ref a)) :
    ∀ loc, AList.get? loc "info".toList = none → ∃ w' r,
      makerCall ⟨configs.foldl configure (makerInit given), h⟩ loc = (w', .ok r) ∧
      AList.get? r "info".toList = some (.ref a) := by
  intro loc hl
  obtain ⟨r, h1, h2⟩ := (C74_info given configs h loc wg wc).1 hl
  exact ⟨_, r, h1, by rw [h2, ha]⟩

/-- With `info` in the call (and in the configuration) the session is given a dictionary no other session has,
nor anybody else. -/
theorem C103_sharedInfo_partial (given : AList Str Arg) (configs : List (AList Str Arg)) (h : Heap)
    (loc : AList Str Arg) (wg : AList.WF given) (wc : ∀ c ∈ configs, AList.WF c)
    (a b : Nat) (hv : configured given configs "info".toList = some (.ref a))
    (hl : AList.get? loc "info".toList = some (.ref b)) (ha : a < h.length) (hb : b < h.length)
    (we : ∀ e, h[b]? = some e → AList.WF e) :
    ∃ w' r c, makerCall ⟨configs.foldl configure (makerInit given), h⟩ loc = (w', .ok r) ∧
      AList.get? r "info".toList = some (.ref c) ∧ h.length ≤ c ∧ c < w'.heap.length := by
  obtain ⟨d, hd⟩ : ∃ d, h[a]? = some d := ⟨h[a], by simp [ha]⟩
  obtain ⟨e, he⟩ : ∃ d, h[b]? = some d := ⟨h[b], by simp [hb]⟩
  obtain ⟨w', r, m, h1, h2, h3, -⟩ := (C74_info given configs h loc wg wc).2.2 a b d e hv hl hd he (we e he)
  exact ⟨w', r, h.length, h1, h2, Nat.le_refl _, by
      refine Nat.lt_of_not_le (fun hc => ?_)
      rw [List.getElem?_eq_none hc] at h3
      simp at h3⟩

/-- `maker = session_maker(info={'n': 0})`: two sessions get the same object (address 0); with `info={}` in the
call, a new one (address 2). -/
example :
    let w : World := ⟨makerInit [("info".toList, .ref 0)], [[("n".toList, .int 0)], []]⟩
    (makerCall w []).2.toOption.map (AList.get? · "info".toList) = some (some (.ref 0)) ∧
    (makerCall (makerCall w []).1 []).2.toOption.map (AList.get? · "info".toList) = some (some (.ref 0)) ∧
    (makerCall w [("info".toList, .ref 1)]).2.toOption.map (AList.get? · "info".toList) = some (some (.ref 2)) := by
  decide +kernel

/-! ### C75 -/

variable {σ : Type} [DecidableEq σ]

/-- In any history, two successful calls return the same session exactly when they are made in the same scope
with no `remove` of that scope between them. -/
theorem C75_sameSession (ctor : AList Str Arg → Option Exc) (w : World) (pre mid : List (Op σ)) (sc sc' : σ)
    (kw kw' : AList Str Arg) (i j : Nat)
    (h1 : (call ctor (run ctor ⟨w, [], []⟩ pre) sc kw).2 = .ok i)
    (h2 : (call ctor (run ctor ⟨w, [], []⟩ (pre ++ .call sc kw :: mid)) sc' kw').2 = .ok j) :
    i = j ↔ sc = sc' ∧ ∀ o ∈ mid, o ≠ .remove sc := by
  have hinv : Inv (⟨w, [], []⟩ : State σ) :=
    ⟨by simp [AList.WF, AList.keys], by intro x i h; simp [AList.get?] at h, by intro x y i h; simp [AList.get?] at h⟩
  have hi0 := inv_run ctor hinv pre
  generalize hs : run ctor ⟨w, [], []⟩ pre = s at h1 hi0
  have hrun : run ctor ⟨w, [], []⟩ (pre ++ .call sc kw :: mid) = run ctor (call ctor s sc kw).1 mid := by
    rw [← hs]; simp [run, List.foldl_append, step]
  rw [hrun] at h2
  have hi1 := inv_call ctor hi0 sc kw
  have hreg : AList.get? (call ctor s sc kw).1.registry sc = some i := by
    rcases (call_spec ctor s sc kw).2 i h1 with ⟨h, e⟩ | ⟨_, _, h, _⟩
    · rw [e]; exact h
    · rw [h, AList.get?_set_self]
  generalize (call ctor s sc kw).1 = t at h2 hi1 hreg
  have hlt := hi1.lt _ _ hreg
  obtain ⟨f1, f2, f3, f4⟩ := follow ctor t sc i hlt mid
  have hi2 := inv_run ctor hi1 mid
  generalize run ctor t mid = u at h2 f1 f2 f3 f4 hi2
  have key : (∀ o ∈ mid, o ≠ .remove sc) ↔ ∀ o ∈ mid, ¬ o.isRemove sc := by
    refine forall_congr' (fun o => forall_congr' (fun _ => not_congr ?_))
    cases o <;> simp [Op.isRemove]
  rw [key]
  constructor
  · rintro rfl
    by_cases hrem : ∃ o ∈ mid, o.isRemove sc
    · have hno := f4 (fun x hx hxi => hx (hi1.inj _ _ _ hxi hreg)) hrem
      rcases (call_spec ctor u sc' kw').2 i h2 with ⟨h, _⟩ | ⟨_, h, _⟩
      · exact absurd h (hno sc')
      · omega
    · have hno : ∀ o ∈ mid, ¬ o.isRemove sc := fun o ho hr => hrem ⟨o, ho, hr⟩
      refine ⟨?_, hno⟩
      have hu := f2 hreg hno
      rcases (call_spec ctor u sc' kw').2 i h2 with ⟨h, _⟩ | ⟨_, h, _⟩
      · exact hi2.inj _ _ _ hu h
      · omega
  · rintro ⟨rfl, hno⟩
    have hu := f2 hreg hno
    rcases (call_spec ctor u sc kw').2 j h2 with ⟨h, _⟩ | ⟨h, _⟩
    · rw [hu] at h; simpa using h
    · rw [hu] at h; simp at h

/-- After a `remove` the next call of that scope creates a new session, whether or not there was one, with the
arguments of that call; a call without arguments while a session is present returns it and changes nothing. -/
theorem C75_afterRemove (ctor : AList Str Arg → Option Exc) (s : State σ) (sc : σ) (kw : AList Str Arg) :
    call ctor (remove s sc) sc kw =
      (match create ctor (remove s sc) kw with
       | (s, .error e) => (s, .error e)
       | (s, .ok i) => ({ s with registry := AList.set s.registry sc i }, .ok i)) ∧
    (∀ i, AList.get? s.registry sc = some i → call ctor s sc [] = (s, .ok i)) := by
  have hn : AList.get? (remove s sc).registry sc = none := by simp [remove, AList.get?_erase]
  constructor
  · unfold call
    by_cases hk : kw = []
    · subst hk; simp only [ne_eq, not_true, if_false, hn] <;> rfl
    · have : AList.contains (remove s sc).registry sc = false := by simp [AList.contains, hn]
      simp only [ne_eq, hk, not_false_iff, if_true, this, Bool.false_eq_true, if_false] <;> rfl
  · intro i h
    simp [call, h]

/-- A call with arguments while a session is present fails and changes nothing (the exception is NameError:
the module of the documented InvalidRequestError is not imported). A call that fails for another reason
leaves registry and sessions as they were. -/
theorem C75_argumentsRefused (ctor : AList Str Arg → Option Exc) (s : State σ) (sc : σ) (kw : AList Str Arg) :
    (∀ i, AList.get? s.registry sc = some i → kw ≠ [] → call ctor s sc kw = (s, .error .nameError)) ∧
    (∀ e, (call ctor s sc kw).2 = .error e →
      (call ctor s sc kw).1.registry = s.registry ∧ (call ctor s sc kw).1.created = s.created) := by
  refine ⟨fun i h hk => ?_, (call_spec ctor s sc kw).1⟩
  have : AList.contains s.registry sc = true := by simp [AList.contains, h]
  simp [call, hk, this]

/-- Two scopes, with a remove in the first: sessions 0, 1, 0, then 2. -/
example :
    let w : World := ⟨makerInit [], []⟩
    let ctor : AList Str Arg → Option Exc := fun _ => none
    let s : State Nat := ⟨w, [], []⟩
    let x := [("x".toList, Arg.val (.int 1))]
    ((call ctor s 7 []).2.toOption, (call ctor (run ctor s [.call 7 []]) 8 x).2.toOption,
      (call ctor (run ctor s [.call 7 [], .call 8 x]) 7 []).2.toOption,
      (call ctor (run ctor s [.call 7 [], .call 8 x, .call 7 [], .remove 7]) 7 x).2.toOption,
      (call ctor (run ctor s [.call 7 [], .call 8 x]) 7 x).2.toOption) =
    (some 0, some 1, some 0, some 2, none) := by decide +kernel

/-! ### C104 -/

/-- `configure` while a session is present in the scope raises AttributeError, and the configuration is
not changed: later sessions do not get it. -/
theorem C104_configure_violated (s : State σ) (sc : σ) (i : Nat) (h : AList.get? s.registry sc = some i)
    (kw : AList Str Arg) : scopedConfigure s sc kw = (s, some .attributeError) := by
  have : AList.contains s.registry sc = true := by simp [AList.contains, h]
  simp [scopedConfigure, this]

/-- In a scope that has no session `configure` takes effect for the sessions created afterwards, in all scopes:
each option given is the one they receive unless the call gives another; existing sessions keep theirs. -/
theorem C104_configure_partial (ctor : AList Str Arg → Option Exc) (s : State σ) (sc sc' : σ)
    (kw kw' : AList Str Arg) (h : AList.get? s.registry sc = none) (h' : AList.get? s.registry sc' = none)
    (wk : AList.WF s.world.kw) (wk' : AList.WF kw)
    (i : Nat) (hi : (call ctor (scopedConfigure s sc kw).1 sc' kw').2 = .ok i) :
    (scopedConfigure s sc kw).2 = none ∧ (scopedConfigure s sc kw).1.created = s.created ∧
    ∃ args, (call ctor (scopedConfigure s sc kw).1 sc' kw').1.created = s.created ++ [args] ∧ i = s.created.length ∧
      ∀ k, k ≠ "info".toList → AList.get? args k =
        ((AList.get? kw' k).or (AList.get? kw k)).or (AList.get? s.world.kw k) := by
  have hc : AList.contains s.registry sc = false := by simp [AList.contains, h]
  have hc' : AList.contains s.registry sc' = false := by simp [AList.contains, h']
  have hs : scopedConfigure s sc kw = ({ s with world := { s.world with kw := configure s.world.kw kw } }, none) := by
    simp [scopedConfigure, hc]
  rw [hs] at hi ⊢
  refine ⟨rfl, rfl, ?_⟩
  simp only
  have hcall : call ctor { s with world := { s.world with kw := configure s.world.kw kw } } sc' kw' =
      (match create ctor { s with world := { s.world with kw := configure s.world.kw kw } } kw' with
       | (s, .error e) => (s, .error e)
       | (s, .ok i) => ({ s with registry := AList.set s.registry sc' i }, .ok i)) := by
    unfold call
    by_cases hk : kw' = []
    · subst hk; simp only [ne_eq, not_true, if_false, h'] <;> rfl
    · simp only [ne_eq, hk, not_false_iff, if_true, hc', Bool.false_eq_true, if_false] <;> rfl
  simp only at hi
  rw [hcall] at hi ⊢
  have wkk : AList.WF (configure s.world.kw kw) := AList.wf_update wk kw
  have key : ∀ h' r, callLoop s.world.heap kw' (configure s.world.kw kw) = (h', .ok r) → ∀ k, k ≠ kInfo →
      AList.get? r k = ((AList.get? kw' k).or (AList.get? kw k)).or (AList.get? s.world.kw k) := by
    intro h' r hr k hk
    have hupd : AList.get? (configure s.world.kw kw) k = (AList.get? kw k).or (AList.get? s.world.kw k) := by
      rw [configure, AList.get?_update _ wk']
    rw [Option.or_assoc, ← hupd]
    cases hl : AList.get? kw' kInfo with
    | none =>
      obtain ⟨r', h1, h2⟩ := callLoop_noLocal s.world.heap kw' _ wkk hl
      rw [h1] at hr; simp only [Prod.mk.injEq, Except.ok.injEq] at hr
      rw [← hr.2]; exact h2 k
    | some i =>
      cases hv : AList.get? (configure s.world.kw kw) kInfo with
      | none =>
        obtain ⟨r', h1, h2⟩ := callLoop_noInfo s.world.heap kw' _ (notMem_keys hv)
        rw [h1] at hr; simp only [Prod.mk.injEq, Except.ok.injEq] at hr
        rw [← hr.2]; exact h2 k
      | some v =>
        have := callLoop_both s.world.heap kw' _ wkk i v hl hv
        rcases hm : mergeInfo s.world.heap v i with ⟨h'', e | d⟩
        · rw [hm] at this; simp only at this; rw [this] at hr; simp at hr
        · rw [hm] at this; simp only at this
          obtain ⟨r', h1, -, h3⟩ := this
          rw [h1] at hr; simp only [Prod.mk.injEq, Except.ok.injEq] at hr
          rw [← hr.2]; exact h3 k hk
  unfold create makerCall at hi ⊢
  simp only at hi ⊢
  rcases hcl : callLoop s.world.heap kw' (configure s.world.kw kw) with ⟨h'', e | r⟩
  · rw [hcl] at hi; simp at hi
  · rw [hcl] at hi
    simp only at hi ⊢
    cases hct : ctor r with
    | some e => rw [hct] at hi; simp at hi
    | none =>
      rw [hct] at hi
      simp only [Except.ok.injEq] at hi
      exact ⟨r, rfl, hi.symm, key h'' r hcl⟩

/-- `Session.configure(x=1)` before the first session of scope 7 is taken into account; after it, it fails. -/
example :
    let s : State Nat := ⟨⟨makerInit [], []⟩, [], []⟩
    let ctor : AList Str Arg → Option Exc := fun _ => none
    let x := [("x".toList, Arg.val (.int 1))]
    ((run ctor s [.configure 7 x, .call 7 []]).created.map (AList.get? · "x".toList),
     (run ctor s [.call 7 [], .configure 7 x, .remove 7, .call 7 []]).created.map (AList.get? · "x".toList),
     (scopedConfigure (run ctor s [.call 7 []]) 7 x).2) =
    ([some (.val (.int 1))], [none, none], some .attributeError) := by decide +kernel

end Verif.Session
