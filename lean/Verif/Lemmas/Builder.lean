import Verif.Spec.Builder
namespace Verif.Builder

/-! ### More depth does not change an outcome -/

def Ext (f g : Req → St → Option (Res Cls × St)) : Prop := ∀ r s x, f r s = some x → g r s = some x

theorem reqs_ext {f g} (h : Ext f g) : ∀ rs s x, reqs f rs s = some x → reqs g rs s = some x := by
  intro rs
  induction rs with
  | nil => intro s x hx; simpa [reqs] using hx
  | cons r rs ih =>
    intro s x hx
    simp only [reqs] at hx ⊢
    cases hf : f r s with
    | none => simp [hf] at hx
    | some y =>
      obtain ⟨out, s1⟩ := y
      rw [h _ _ _ hf]
      rw [hf] at hx
      cases out with
      | error e => simpa using hx
      | ok c =>
        simp only at hx ⊢
        cases hr : reqs f rs s1 with
        | none => simp [hr] at hx
        | some z => rw [ih _ _ hr]; rw [hr] at hx; simpa using hx

theorem makeWith_ext {cfg : Cfg} {f g} (h : Ext f g) {i sch pre rs s k x}
    (hx : makeWith cfg f i sch pre rs s k = some x) : makeWith cfg g i sch pre rs s k = some x := by
  unfold makeWith at hx ⊢
  cases hr : reqs f rs s with
  | none => simp [hr] at hx
  | some z => rw [reqs_ext h _ _ _ hr]; rw [hr] at hx; simpa using hx

theorem construct_ext {cfg : Cfg} {f g} (h : Ext f g) {i sch s x}
    (hx : construct cfg f i sch s = some x) : construct cfg g i sch s = some x := by
  unfold construct at hx ⊢
  cases hr : refOf sch with
  | none => rw [hr] at hx; exact makeWith_ext h hx
  | some r =>
    rw [hr] at hx
    simp only at hx ⊢
    cases hf : f (.load (Uri.scope r i)) s with
    | none => simp [hf] at hx
    | some y =>
      rw [h _ _ _ hf]; rw [hf] at hx
      obtain ⟨out, s1⟩ := y
      cases out with
      | error e => simpa using hx
      | ok c =>
        simp only at hx ⊢
        split
        · rename_i hs
          rw [if_pos hs] at hx
          exact makeWith_ext h hx
        · rename_i hs
          rw [if_neg hs] at hx
          exact hx

theorem start_ext {cfg : Cfg} {f g} (h : Ext f g) {i sch s x}
    (hx : start cfg f i sch s = some x) : start cfg g i sch s = some x := by
  unfold start at hx ⊢
  cases hg : given cfg i sch with
  | error e => rw [hg] at hx; simpa using hx
  | ok sc =>
    rw [hg] at hx
    cases sc with
    | bool b => simpa using hx
    | node => exact construct_ext h hx

theorem run_succ (cfg : Cfg) : ∀ n, Ext (run cfg n) (run cfg (n + 1)) := by
  intro n
  induction n with
  | zero => intro r s x hx; simp [run] at hx
  | succ n ih =>
    intro r s x hx
    cases r with
    | build i sch =>
      rw [run] at hx ⊢
      revert hx
      cases AList.get? s.registry i with
      | some c => exact id
      | none =>
        cases AList.get? s.onC i with
        | some sc => exact id
        | none => exact start_ext ih
    | load i =>
      rw [run] at hx ⊢
      revert hx
      cases AList.get? s.registry i with
      | some c => exact id
      | none =>
        cases AList.get? s.onC i with
        | some sc => exact id
        | none =>
          intro hx
          simp only at hx ⊢
          cases hr : run cfg n (.build i none) s with
          | none => simp [hr, store] at hx
          | some y => rw [ih _ _ _ hr]; rw [hr] at hx; exact hx

theorem run_le (cfg : Cfg) {n m : Nat} (h : n ≤ m) : Ext (run cfg n) (run cfg m) := by
  induction h with
  | refl => intro r s x hx; exact hx
  | step _ ih => intro r s x hx; exact run_succ cfg _ _ _ _ (ih _ _ _ hx)

theorem gives_unique {cfg : Cfg} {r : Req} {s : St} {o1 o2 : Res Cls} {s1 s2 : St} (h1 : Gives cfg r s o1 s1)
    (h2 : Gives cfg r s o2 s2) : o1 = o2 ∧ s1 = s2 := by
  obtain ⟨n, h1⟩ := h1
  obtain ⟨m, h2⟩ := h2
  have a := run_le cfg (Nat.le_max_left n m) _ _ _ h1
  have b := run_le cfg (Nat.le_max_right n m) _ _ _ h2
  rw [a] at b
  injection b with b
  injection b with b1 b2
  exact ⟨b1, b2⟩

/-! ### What a request changes -/

/-- What any request, whatever its outcome, does to the state, `l` being its events. -/
structure Grows (l : List Event) (s s' : St) : Prop where
  log : s'.log = l ++ s.log
  next : s.next ≤ s'.next
  reg : ∀ i c, AList.get? s.registry i = some c →
    AList.get? s'.registry i = some c ∨ (Clash i l ∧ (AList.get? s'.registry i).isSome)
  onC : ∀ i sch, AList.get? s.onC i = some sch → AList.get? s'.onC i = some sch
  once : ∀ i, l.count (.built i) ≤ 1
  built : ∀ i, Event.built i ∈ l → (AList.get? s'.registry i).isSome ∧ AList.get? s.registry i = none ∧
    AList.get? s.onC i = none
  prox : ∀ i sch, AList.get? s.onC i = some sch → Event.proxied i ∈ l → sch.typed = true

theorem Clash.left {i l m} (h : Clash i l) : Clash i (l ++ m) := by
  obtain ⟨a, h1, h2, h3⟩ := h
  exact ⟨a, h1, h2, List.mem_append_left _ h3⟩

theorem Clash.right {i l m} (h : Clash i l) : Clash i (m ++ l) := by
  obtain ⟨a, h1, h2, h3⟩ := h
  exact ⟨a, h1, h2, List.mem_append_right _ h3⟩

theorem Grows.refl (s : St) : Grows [] s s :=
  ⟨rfl, Nat.le_refl _, fun _ _ h => Or.inl h, fun _ _ h => h, by simp, by simp, by simp⟩

theorem Grows.regSome {l s s'} (h : Grows l s s') {i} (hi : (AList.get? s.registry i).isSome) :
    (AList.get? s'.registry i).isSome := by
  obtain ⟨c, hc⟩ := Option.isSome_iff_exists.1 hi
  cases h.reg i c hc with
  | inl h => simp [h]
  | inr h => exact h.2

theorem Grows.trans {l m s s1 s2} (h : Grows l s s1) (g : Grows m s1 s2) : Grows (m ++ l) s s2 where
  log := by rw [g.log, h.log, List.append_assoc]
  next := Nat.le_trans h.next g.next
  reg := by
    intro i c hc
    cases h.reg i c hc with
    | inl h1 =>
      cases g.reg i c h1 with
      | inl h2 => exact Or.inl h2
      | inr h2 => exact Or.inr ⟨h2.1.left, h2.2⟩
    | inr h1 => exact Or.inr ⟨h1.1.right, g.regSome h1.2⟩
  onC := fun i sch hi => g.onC i sch (h.onC i sch hi)
  once := by
    intro i
    rw [List.count_append]
    by_cases hb : Event.built i ∈ l
    · have : Event.built i ∉ m := by
        intro hm
        have h1 := (h.built i hb).1
        rw [(g.built i hm).2.1] at h1
        cases h1
      rw [List.count_eq_zero.2 this]
      have := h.once i
      omega
    · rw [List.count_eq_zero.2 hb]
      have := g.once i
      omega
  built := by
    intro i hi
    rcases List.mem_append.1 hi with hm | hl
    · obtain ⟨a, b, c⟩ := g.built i hm
      refine ⟨a, ?_, ?_⟩
      · cases hr : AList.get? s.registry i with
        | none => rfl
        | some x =>
          have := h.regSome (i := i) (by simp [hr])
          rw [b] at this
          cases this
      · cases ho : AList.get? s.onC i with
        | none => rfl
        | some x =>
          have := h.onC i x ho
          rw [c] at this
          cases this
    · obtain ⟨a, b, c⟩ := h.built i hl
      exact ⟨g.regSome a, b, c⟩
  prox := by
    intro i sch hi hm
    rcases List.mem_append.1 hm with hm | hl
    · exact g.prox i sch (h.onC i sch hi) hm
    · exact h.prox i sch hi hl

theorem erase_set {d : AList Id Schema} {i : Id} {sch : Schema} (h : AList.get? d i = none) :
    AList.erase (AList.set d i sch) i = d := by
  induction d with
  | nil => simp [AList.set, AList.erase]
  | cons p d ih =>
    obtain ⟨k, v⟩ := p
    rw [AList.get?] at h
    split at h
    · cases h
    · rename_i hk
      have hk' : k ≠ i := hk
      have e := ih h
      rw [AList.set, if_neg hk]
      unfold AList.erase at e ⊢
      rw [List.filter_cons]
      simp [hk']
      simpa using e

/-- After marking `i`. -/
theorem Grows.unmark {l s s' i sch} (hi : AList.get? s.onC i = none)
    (h : Grows l { s with onC := AList.set s.onC i sch } s') : Grows l s s' where
  log := h.log
  next := h.next
  reg := h.reg
  onC := by
    intro j sc hj
    apply h.onC j sc
    rw [AList.get?_set, if_neg]
    · exact hj
    · rintro rfl; rw [hi] at hj; cases hj
  once := h.once
  built := by
    intro j hj
    obtain ⟨a, b, c⟩ := h.built j hj
    refine ⟨a, b, ?_⟩
    simp only [AList.get?_set] at c
    split at c
    · cases c
    · exact c
  prox := by
    intro j sc hj
    apply h.prox j sc
    rw [AList.get?_set, if_neg]
    · exact hj
    · rintro rfl; rw [hi] at hj; cases hj

/-- `f` behaves: it grows the state, and puts back what it marked when it succeeds. -/
def Good (f : Req → St → Option (Res Cls × St)) : Prop :=
  ∀ r s out s', f r s = some (out, s') → (∃ l, Grows l s s') ∧ ((∃ c, out = .ok c) → s'.onC = s.onC)

theorem good_reqs {f} (h : Good f) : ∀ rs s out s', reqs f rs s = some (out, s') →
    (∃ l, Grows l s s') ∧ ((∃ c, out = .ok c) → s'.onC = s.onC) := by
  intro rs
  induction rs with
  | nil =>
    intro s out s' hx
    simp only [reqs, Option.some.injEq, Prod.mk.injEq] at hx
    obtain ⟨_, rfl⟩ := hx
    exact ⟨⟨[], Grows.refl s⟩, fun _ => rfl⟩
  | cons r rs ih =>
    intro s out s' hx
    simp only [reqs] at hx
    cases hf : f r s with
    | none => simp [hf] at hx
    | some y =>
      obtain ⟨o1, s1⟩ := y
      obtain ⟨⟨l, hl⟩, ho⟩ := h _ _ _ _ hf
      rw [hf] at hx
      cases o1 with
      | error e =>
        simp only [Option.some.injEq, Prod.mk.injEq] at hx
        obtain ⟨rfl, rfl⟩ := hx
        exact ⟨⟨l, hl⟩, by rintro ⟨c, hc⟩; cases hc⟩
      | ok c =>
        simp only at hx
        cases hr : reqs f rs s1 with
        | none => simp [hr] at hx
        | some z =>
          obtain ⟨o2, s2⟩ := z
          obtain ⟨⟨m, hm⟩, ho2⟩ := ih _ _ _ hr
          rw [hr] at hx
          cases o2 with
          | error e =>
            simp only [Option.some.injEq, Prod.mk.injEq] at hx
            obtain ⟨rfl, rfl⟩ := hx
            exact ⟨⟨_, hl.trans hm⟩, by rintro ⟨c, hc⟩; cases hc⟩
          | ok cs =>
            simp only [Option.some.injEq, Prod.mk.injEq] at hx
            obtain ⟨rfl, rfl⟩ := hx
            exact ⟨⟨_, hl.trans hm⟩, fun _ => by rw [ho2 ⟨_, rfl⟩, ho ⟨_, rfl⟩]⟩

theorem make_spec (cfg : Cfg) (i sch cs s) : (∃ e, make cfg i sch cs s = (.error e, s)) ∨
    make cfg i sch cs s = (.ok (.made i s.next), { s with next := s.next + 1 }) := by
  unfold make
  cases cfg.rest i sch cs with
  | some e => exact Or.inl ⟨e, rfl⟩
  | none => exact Or.inr rfl

/-- Growth of a state where `i` is neither registered nor, once the mark removed, under construction. -/
theorem Grows.finish {l s s' i sch c} (hr : AList.get? s.registry i = none) (hi : AList.get? s.onC i = none)
    (h : Grows l { s with onC := AList.set s.onC i sch } s') :
    Grows (.built i :: l) s
      { s' with onC := AList.erase s'.onC i, registry := AList.set s'.registry i c, log := .built i :: s'.log } where
  log := by simp [h.log]
  next := h.next
  reg := by
    intro j d hj
    have hne : i ≠ j := by rintro rfl; rw [hr] at hj; cases hj
    simp only [AList.get?_set_ne _ _ hne]
    cases h.reg j d hj with
    | inl h1 => exact Or.inl h1
    | inr h1 => exact Or.inr ⟨h1.1.right (m := [Event.built i]), h1.2⟩
  onC := by
    intro j sc hj
    have hne : i ≠ j := by rintro rfl; rw [hi] at hj; cases hj
    simp only [AList.get?_erase, if_neg (Ne.symm hne)]
    exact h.unmark hi |>.onC j sc hj
  once := by
    intro j
    rw [List.count_cons]
    by_cases hji : j = i
    · subst hji
      have : Event.built j ∉ l := by
        intro hm
        have := (h.built j hm).2.2
        simp [AList.get?_set_self] at this
      rw [List.count_eq_zero.2 this]
      simp
    · have : (Event.built i == Event.built j) = false := by
        simp; exact fun e => hji e.symm
      rw [this]
      simpa using h.once j
  built := by
    intro j hj
    rcases List.mem_cons.1 hj with e | hm
    · injection e with e; subst e
      exact ⟨by simp [AList.get?_set_self], hr, hi⟩
    · obtain ⟨a, b, c'⟩ := (h.unmark hi).built j hm
      refine ⟨?_, b, c'⟩
      simp only [AList.get?_set]
      split
      · rfl
      · exact a
  prox := by
    intro j sc hj hm
    exact (h.unmark hi).prox j sc hj (by simpa using hm)

theorem grows_make {s : St} : Grows [] s { s with next := s.next + 1 } :=
  ⟨rfl, Nat.le_succ _, fun _ _ h => Or.inl h, fun _ _ h => h, by simp, by simp, by simp⟩

theorem Grows.extended {i c l} {s s' : St} (hi : AList.get? s.registry i = none) (h : Grows l s s') :
    Grows (.extended i :: l) s (registerExtended i c s') where
  log := by simp [registerExtended, h.log]
  next := h.next
  reg := by
    intro j d hj
    have hne : i ≠ j := by rintro rfl; rw [hi] at hj; cases hj
    unfold registerExtended
    simp only [AList.get?_set]
    split
    · rename_i he
      exact Or.inr ⟨⟨i, hne, he, by simp⟩, rfl⟩
    · cases h.reg j d hj with
      | inl h1 => exact Or.inl h1
      | inr h1 => exact Or.inr ⟨h1.1.right (m := [Event.extended i]), h1.2⟩
  onC := h.onC
  once := by intro j; rw [List.count_cons]; simpa using h.once j
  built := by
    intro j hj
    have hj : Event.built j ∈ l := by simpa using hj
    obtain ⟨a, b, c'⟩ := h.built j hj
    refine ⟨?_, b, c'⟩
    unfold registerExtended
    simp only [AList.get?_set]
    split
    · rfl
    · exact a
  prox := by
    intro j sc hj hm
    exact h.prox j sc hj (by simpa using hm)

theorem good_makeWith {cfg : Cfg} {f} (h : Good f) {i sch pre rs s0 s k out s' l} (hl : Grows l s0 s)
    (hx : makeWith cfg f i sch pre rs s k = some (out, s')) :
    (∃ e m, out = .error e ∧ Grows m s0 s') ∨
    (∃ n m s1, Grows m s0 s1 ∧ s1.onC = s.onC ∧ k (.made i n) s1 = some (out, s')) := by
  unfold makeWith at hx
  cases hr : reqs f rs s with
  | none => simp [hr] at hx
  | some z =>
    obtain ⟨o, s1⟩ := z
    obtain ⟨⟨m, hm⟩, ho⟩ := good_reqs h _ _ _ _ hr
    rw [hr] at hx
    cases o with
    | error e =>
      simp only [Option.some.injEq, Prod.mk.injEq] at hx
      obtain ⟨rfl, rfl⟩ := hx
      exact Or.inl ⟨e, _, rfl, hl.trans hm⟩
    | ok cs =>
      simp only at hx
      rcases make_spec cfg i sch (pre ++ cs) s1 with ⟨e, he⟩ | he
      · rw [he] at hx
        simp only [Option.some.injEq, Prod.mk.injEq] at hx
        obtain ⟨rfl, rfl⟩ := hx
        exact Or.inl ⟨e, _, rfl, hl.trans hm⟩
      · rw [he] at hx
        exact Or.inr ⟨_, _, _, (hl.trans hm).trans grows_make, ho ⟨_, rfl⟩, hx⟩

/-- How the construction of a free identifier ends. -/
theorem good_construct {cfg : Cfg} {f} (h : Good f) {i sch s out s'} (hr : AList.get? s.registry i = none)
    (hi : AList.get? s.onC i = none)
    (hx : construct cfg f i sch { s with onC := AList.set s.onC i sch } = some (out, s')) :
    (∃ e l, out = .error e ∧ Grows l { s with onC := AList.set s.onC i sch } s') ∨
    (∃ c l, out = .ok c ∧ Grows l s s' ∧ s'.onC = s.onC ∧ AList.get? s'.registry i = some c ∧
      Event.built i ∈ l ∧ (sch.typed = true → ∃ n, c = .made i n)) := by
  have typedSib : hasSiblings sch = false → sch.typed = false := by
    cases sch with
    | bool b => intro _; rfl
    | node type =>
      cases type with
      | none => intro _; rfl
      | some t => intro h; simp [hasSiblings] at h
  have fin : ∀ (c : Cls) (l : List Event) (s1 : St), Grows l { s with onC := AList.set s.onC i sch } s1 →
      s1.onC = AList.set s.onC i sch → (sch.typed = true → ∃ n, c = .made i n) → finish i c s1 = some (out, s') →
      ∃ c l, out = .ok c ∧ Grows l s s' ∧ s'.onC = s.onC ∧ AList.get? s'.registry i = some c ∧
        Event.built i ∈ l ∧ (sch.typed = true → ∃ n, c = .made i n) := by
    intro c l s1 hg ho ht hf
    unfold finish at hf
    simp only [Option.some.injEq, Prod.mk.injEq] at hf
    obtain ⟨rfl, rfl⟩ := hf
    refine ⟨c, _, rfl, hg.finish hr hi, ?_, AList.get?_set_self _ _ _, by simp, ht⟩
    simp only [ho]
    exact erase_set hi
  unfold construct at hx
  cases hro : refOf sch with
  | none =>
    rw [hro] at hx
    rcases good_makeWith h (Grows.refl _) hx with ⟨e, m, rfl, hg⟩ | ⟨n, m, s1, hg, ho, hk⟩
    · exact Or.inl ⟨e, m, rfl, hg⟩
    · exact Or.inr (fin _ _ _ hg ho (fun _ => ⟨n, rfl⟩) hk)
  | some r =>
    rw [hro] at hx
    simp only at hx
    cases hf : f (.load (Uri.scope r i)) { s with onC := AList.set s.onC i sch } with
    | none => simp [hf] at hx
    | some y =>
      obtain ⟨o1, s1⟩ := y
      obtain ⟨⟨l, hl⟩, ho⟩ := h _ _ _ _ hf
      rw [hf] at hx
      cases o1 with
      | error e =>
        simp only [Option.some.injEq, Prod.mk.injEq] at hx
        obtain ⟨rfl, rfl⟩ := hx
        exact Or.inl ⟨e, l, rfl, hl⟩
      | ok c =>
        simp only at hx
        split at hx
        · rcases good_makeWith h hl hx with ⟨e, m, rfl, hg⟩ | ⟨n, m, s2, hg, ho2, hk⟩
          · exact Or.inl ⟨e, m, rfl, hg⟩
          · refine Or.inr (fin _ _ _ (hg.extended (i := i) (c := .made i n) hr) ?_ (fun _ => ⟨n, rfl⟩) hk)
            show s2.onC = _
            rw [ho2, ho ⟨_, rfl⟩]
        · rename_i hs
          refine Or.inr (fin _ _ _ hl (ho ⟨_, rfl⟩) ?_ hx)
          intro ht
          rw [typedSib (by simpa using hs)] at ht
          cases ht

theorem grows_proxy {i sch s} (hi : AList.get? s.onC i = some sch) : ∃ l, Grows l s (proxyBuild i sch s).2 := by
  unfold proxyBuild
  split
  · refine ⟨[.proxied i], ⟨rfl, Nat.le_succ _, fun _ _ h => Or.inl h, fun _ _ h => h, ?_, ?_, ?_⟩⟩
    · intro j; simp
    · intro j hj; simp at hj
    · intro j sc hj hm
      simp only [List.mem_singleton, Event.proxied.injEq] at hm
      subst hm
      rw [hi] at hj
      injection hj with hj
      subst hj
      rfl
  · exact ⟨[], Grows.refl s⟩

theorem proxy_onC (i sch s) : (proxyBuild i sch s).2.onC = s.onC := by
  unfold proxyBuild
  split <;> rfl

/-- How the request for a free identifier ends. -/
theorem good_start {cfg : Cfg} {f} (h : Good f) {i sch s out s'} (hr : AList.get? s.registry i = none)
    (hi : AList.get? s.onC i = none) (hx : start cfg f i sch s = some (out, s')) :
    (∃ e, out = .error e ∧ s' = s ∧ given cfg i sch = .error e) ∨
    (∃ b, given cfg i sch = .ok (.bool b) ∧ out = .ok (.const b s.next) ∧ s' = { s with next := s.next + 1 }) ∨
    (∃ sc, given cfg i sch = .ok sc ∧ sc.isBool = false ∧
      ((∃ e l, out = .error e ∧ Grows l { s with onC := AList.set s.onC i sc } s') ∨
       (∃ c l, out = .ok c ∧ Grows l s s' ∧ s'.onC = s.onC ∧ AList.get? s'.registry i = some c ∧
        Event.built i ∈ l ∧ (sc.typed = true → ∃ n, c = .made i n)))) := by
  unfold start at hx
  cases hg : given cfg i sch with
  | error e =>
    rw [hg] at hx
    simp only [Option.some.injEq, Prod.mk.injEq] at hx
    obtain ⟨rfl, rfl⟩ := hx
    exact Or.inl ⟨e, rfl, rfl, rfl⟩
  | ok sc =>
    rw [hg] at hx
    cases sc with
    | bool b =>
      simp only [Option.some.injEq, Prod.mk.injEq] at hx
      obtain ⟨rfl, rfl⟩ := hx
      exact Or.inr (Or.inl ⟨b, rfl, rfl, rfl⟩)
    | node => exact Or.inr (Or.inr ⟨_, rfl, rfl, good_construct h hr hi hx⟩)

theorem good_start' {cfg : Cfg} {f} (h : Good f) {i sch s out s'} (hr : AList.get? s.registry i = none)
    (hi : AList.get? s.onC i = none) (hx : start cfg f i sch s = some (out, s')) :
    (∃ l, Grows l s s') ∧ ((∃ c, out = .ok c) → s'.onC = s.onC) := by
  rcases good_start h hr hi hx with ⟨e, rfl, rfl, _⟩ | ⟨b, _, rfl, rfl⟩ | ⟨sc, _, _, h1 | h1⟩
  · exact ⟨⟨[], Grows.refl _⟩, fun _ => rfl⟩
  · exact ⟨⟨[], grows_make⟩, fun _ => rfl⟩
  · obtain ⟨e, l, rfl, hl⟩ := h1
    exact ⟨⟨l, hl.unmark hi⟩, by rintro ⟨c, hc⟩; cases hc⟩
  · obtain ⟨c, l, rfl, hl, ho, _⟩ := h1
    exact ⟨⟨l, hl⟩, fun _ => ho⟩

theorem Grows.store {l s s' i c} (hr : AList.get? s.registry i = none) (h : Grows l s s') :
    Grows l s { s' with registry := AList.set s'.registry i c } where
  log := h.log
  next := h.next
  reg := by
    intro j d hj
    have hne : i ≠ j := by rintro rfl; rw [hr] at hj; cases hj
    simp only [AList.get?_set_ne _ _ hne]
    exact h.reg j d hj
  onC := h.onC
  once := h.once
  built := by
    intro j hj
    obtain ⟨a, b, c'⟩ := h.built j hj
    refine ⟨?_, b, c'⟩
    simp only [AList.get?_set]
    split
    · rfl
    · exact a
  prox := h.prox

theorem good_run (cfg : Cfg) : ∀ n, Good (run cfg n) := by
  intro n
  induction n with
  | zero => intro r s out s' hx; simp [run] at hx
  | succ n ih =>
    intro r s out s' hx
    have known : ∀ c, some (Except.ok c, s) = some (out, s') →
        (∃ l, Grows l s s') ∧ ((∃ c, out = .ok c) → s'.onC = s.onC) := by
      intro c hc
      simp only [Option.some.injEq, Prod.mk.injEq] at hc
      obtain ⟨rfl, rfl⟩ := hc
      exact ⟨⟨[], Grows.refl _⟩, fun _ => rfl⟩
    have prox : ∀ i sch, AList.get? s.onC i = some sch → some (proxyBuild i sch s) = some (out, s') →
        (∃ l, Grows l s s') ∧ ((∃ c, out = .ok c) → s'.onC = s.onC) := by
      intro i sch hi hc
      injection hc with hc
      have e : (proxyBuild i sch s).2 = s' := by rw [hc]
      rw [← e]
      exact ⟨grows_proxy hi, fun _ => proxy_onC _ _ _⟩
    cases r with
    | build i sch =>
      rw [run] at hx
      cases hr : AList.get? s.registry i with
      | some c => rw [hr] at hx; exact known c hx
      | none =>
        rw [hr] at hx
        cases hi : AList.get? s.onC i with
        | some sc => rw [hi] at hx; exact prox _ _ hi hx
        | none => rw [hi] at hx; exact good_start' ih hr hi hx
    | load i =>
      rw [run] at hx
      cases hr : AList.get? s.registry i with
      | some c => rw [hr] at hx; exact known c hx
      | none =>
        rw [hr] at hx
        cases hi : AList.get? s.onC i with
        | some sc => rw [hi] at hx; exact prox _ _ hi hx
        | none =>
          rw [hi] at hx
          simp only at hx
          cases hb : run cfg n (.build i none) s with
          | none => rw [hb] at hx; simp [Builder.store] at hx
          | some y =>
            obtain ⟨o, s1⟩ := y
            obtain ⟨⟨l, hl⟩, ho⟩ := ih _ _ _ _ hb
            rw [hb] at hx
            cases o with
            | error e =>
              simp only [Builder.store, Option.some.injEq, Prod.mk.injEq] at hx
              obtain ⟨rfl, rfl⟩ := hx
              exact ⟨⟨l, hl⟩, by rintro ⟨c, hc⟩; cases hc⟩
            | ok c =>
              simp only [Builder.store, Option.some.injEq, Prod.mk.injEq] at hx
              obtain ⟨rfl, rfl⟩ := hx
              exact ⟨⟨l, hl.store hr⟩, fun _ => ho ⟨_, rfl⟩⟩

/-! ### Termination -/

/-- Identifiers of the documents that are neither registered nor under construction. -/
def free (cfg : Cfg) (s : St) : Nat :=
  (AList.keys cfg.store).countP (fun i => (AList.get? s.registry i).isNone && (AList.get? s.onC i).isNone)

theorem free_grows (cfg : Cfg) {l s s'} (h : Grows l s s') : free cfg s' ≤ free cfg s := by
  apply List.countP_mono_left
  intro i _ hi
  simp only [Bool.and_eq_true, Option.isNone_iff_eq_none] at hi ⊢
  constructor
  · cases hr : AList.get? s.registry i with
    | none => rfl
    | some c =>
      have := h.regSome (i := i) (by simp [hr])
      rw [hi.1] at this
      cases this
  · cases ho : AList.get? s.onC i with
    | none => rfl
    | some c =>
      have := h.onC i c ho
      rw [hi.2] at this
      cases this

theorem countP_lt {p q : Id → Bool} {a : Id} : ∀ l : List Id, a ∈ l → (∀ x, p x = true → q x = true) → q a = true →
    p a = false → l.countP p < l.countP q := by
  intro l
  induction l with
  | nil => intro h; cases h
  | cons b l ih =>
    intro hm hpq hq hp
    by_cases hab : a = b
    · subst hab
      rw [List.countP_cons, List.countP_cons, hp, hq]
      have := List.countP_mono_left (l := l) (fun x _ => hpq x)
      simp
      omega
    · have hl : a ∈ l := by
        rcases List.mem_cons.1 hm with h | h
        · exact absurd h hab
        · exact h
      have := ih hl hpq hq hp
      rw [List.countP_cons, List.countP_cons]
      by_cases hb : p b = true
      · rw [hb, hpq b hb]; simp; omega
      · simp only [Bool.not_eq_true] at hb
        rw [hb]
        by_cases hqb : q b = true
        · rw [hqb]; simp; omega
        · simp only [Bool.not_eq_true] at hqb
          rw [hqb]; simp; omega

theorem free_mark_le (cfg : Cfg) (s : St) (i : Id) (sch : Schema) :
    free cfg { s with onC := AList.set s.onC i sch } ≤ free cfg s := by
  apply List.countP_mono_left
  intro j _ hj
  simp only [Bool.and_eq_true, Option.isNone_iff_eq_none, AList.get?_set] at hj ⊢
  refine ⟨hj.1, ?_⟩
  have := hj.2
  split at this
  · cases this
  · exact this

theorem free_mark_lt (cfg : Cfg) {s : St} {i : Id} {sch : Schema} (hm : i ∈ AList.keys cfg.store)
    (hr : AList.get? s.registry i = none) (hi : AList.get? s.onC i = none) :
    free cfg { s with onC := AList.set s.onC i sch } < free cfg s := by
  apply countP_lt (a := i) _ hm
  · intro j hj
    simp only [Bool.and_eq_true, Option.isNone_iff_eq_none, AList.get?_set] at hj ⊢
    refine ⟨hj.1, ?_⟩
    have := hj.2
    split at this
    · cases this
    · exact this
  · simp [hr, hi]
  · simp [AList.get?_set_self]

def Ends (cfg : Cfg) (r : Req) (s : St) : Prop := ∃ n x, run cfg n r s = some x

theorem reqs_ends {cfg : Cfg} {k : Nat} : ∀ rs, (∀ r ∈ rs, ∀ s, free cfg s ≤ k → Ends cfg r s) → ∀ s,
    free cfg s ≤ k → ∃ n x, reqs (run cfg n) rs s = some x := by
  intro rs
  induction rs with
  | nil => intro _ s _; exact ⟨0, _, rfl⟩
  | cons r rs ih =>
    intro h s hs
    obtain ⟨n, ⟨o, s1⟩, hn⟩ := h r (by simp) s hs
    cases o with
    | error e => exact ⟨n, _, by simp only [reqs, hn]; rfl⟩
    | ok c =>
      obtain ⟨⟨l, hl⟩, _⟩ := good_run cfg n _ _ _ _ hn
      obtain ⟨m, ⟨o2, s2⟩, hm⟩ := ih (fun r hr => h r (by simp [hr])) s1 (Nat.le_trans (free_grows cfg hl) hs)
      have hn' := run_le cfg (Nat.le_max_left n m) _ _ _ hn
      have hm' := reqs_ext (run_le cfg (Nat.le_max_right n m)) _ _ _ hm
      refine ⟨max n m, ?_⟩
      simp only [reqs, hn', hm']
      cases o2 with
      | error e => exact ⟨_, rfl⟩
      | ok cs => exact ⟨_, rfl⟩

theorem makeWith_ends {cfg : Cfg} {k : Nat} {i sch pre rs s} {kont : Cls → St → Option (Res Cls × St)}
    (hk : ∀ c s, (kont c s).isSome) (h : ∀ r ∈ rs, ∀ s, free cfg s ≤ k → Ends cfg r s) (hs : free cfg s ≤ k) :
    ∃ n x, makeWith cfg (run cfg n) i sch pre rs s kont = some x := by
  obtain ⟨n, ⟨o, s1⟩, hn⟩ := reqs_ends rs h s hs
  refine ⟨n, ?_⟩
  unfold makeWith
  rw [hn]
  cases o with
  | error e => exact ⟨_, rfl⟩
  | ok cs =>
    simp only
    rcases make_spec cfg i sch (pre ++ cs) s1 with ⟨e, he⟩ | he
    · rw [he]; exact ⟨_, rfl⟩
    · rw [he]; exact Option.isSome_iff_exists.1 (hk _ _)

theorem construct_ends {cfg : Cfg} {k : Nat} {i sch s} (hload : ∀ j s, free cfg s ≤ k → Ends cfg (.load j) s)
    (h : ∀ r ∈ protocolReqs i sch, ∀ s, free cfg s ≤ k → Ends cfg r s) (hs : free cfg s ≤ k) :
    ∃ n x, construct cfg (run cfg n) i sch s = some x := by
  have hext : ∀ r ∈ extendReqs i sch, ∀ s, free cfg s ≤ k → Ends cfg r s := by
    intro r hr
    have : ∃ j, r = .load j := by
      cases sch with
      | bool b => simp [extendReqs] at hr
      | node =>
        simp only [extendReqs, typeReqs, List.mem_append, List.mem_map] at hr
        rcases hr with ⟨e, _, rfl⟩ | ⟨e, _, rfl⟩ <;> exact ⟨_, rfl⟩
    obtain ⟨j, rfl⟩ := this
    exact hload j
  unfold construct
  cases hro : refOf sch with
  | none => exact makeWith_ends (fun _ _ => rfl) h hs
  | some r =>
    obtain ⟨n, ⟨o, s1⟩, hn⟩ := hload (Uri.scope r i) s hs
    cases o with
    | error e => exact ⟨n, by simp only [hn]; exact ⟨_, rfl⟩⟩
    | ok c =>
      obtain ⟨⟨l, hl⟩, _⟩ := good_run cfg n _ _ _ _ hn
      by_cases hsib : hasSiblings sch = true
      · obtain ⟨m, x, hm⟩ := makeWith_ends (i := i) (sch := sch) (pre := [c])
          (kont := fun c' s2 => finish i c' (registerExtended i c' s2)) (fun _ _ => rfl) hext
          (Nat.le_trans (free_grows cfg hl) hs)
        refine ⟨max n m, x, ?_⟩
        simp only [run_le cfg (Nat.le_max_left n m) _ _ _ hn, if_pos hsib]
        exact makeWith_ext (run_le cfg (Nat.le_max_right n m)) hm
      · exact ⟨n, by simp only [hn, if_neg hsib]; exact ⟨_, rfl⟩⟩

/-- A request for a known identifier ends at once. -/
theorem ends_build {cfg : Cfg} {i sch s}
    (h : AList.get? s.registry i = none → AList.get? s.onC i = none → ∃ n x, start cfg (run cfg n) i sch s = some x) :
    Ends cfg (.build i sch) s := by
  cases hr : AList.get? s.registry i with
  | some c => exact ⟨1, _, by rw [run, hr]⟩
  | none =>
    cases ho : AList.get? s.onC i with
    | some sc => exact ⟨1, _, by rw [run, hr]; simp only [ho]; rfl⟩
    | none =>
      obtain ⟨n, x, hn⟩ := h hr ho
      exact ⟨n + 1, x, by rw [run, hr]; simp only [ho]; exact hn⟩

theorem ends_load {cfg : Cfg} {i s} (h : Ends cfg (.build i none) s) : Ends cfg (.load i) s := by
  cases hr : AList.get? s.registry i with
  | some c => exact ⟨1, _, by rw [run, hr]⟩
  | none =>
    cases ho : AList.get? s.onC i with
    | some sc => exact ⟨1, _, by rw [run, hr]; simp only [ho]; rfl⟩
    | none =>
      obtain ⟨n, ⟨o, s1⟩, hn⟩ := h
      refine ⟨n + 1, ?_⟩
      rw [run, hr]
      simp only [ho, hn]
      cases o <;> exact ⟨_, rfl⟩

/-- The schemas inside a schema are smaller. -/
theorem protocolReqs_smaller {i sch r} (hr : r ∈ protocolReqs i sch) :
    (∃ j, r = .load j) ∨ (∃ j b, r = .build j (some (.bool b))) ∨
    (∃ j sc, r = .build j (some sc) ∧ sizeOf sc < sizeOf sch) := by
  cases sch with
  | bool b => simp [protocolReqs] at hr
  | node type ref ext defs props patterns additional items itemsList foreign rels other =>
    simp only [protocolReqs] at hr
    split at hr
    · simp only [objectReqs, List.mem_append, List.mem_map, List.mem_singleton] at hr
      rcases hr with ((((⟨e, _, rfl⟩ | ⟨e, _, rfl⟩) | ⟨p, hp, rfl⟩) | ⟨p, hp, rfl⟩) | rfl) | ⟨e, _, rfl⟩
      · exact Or.inl ⟨_, rfl⟩
      · exact Or.inl ⟨_, rfl⟩
      · refine Or.inr (Or.inr ⟨_, _, rfl, ?_⟩)
        have h1 := List.sizeOf_lt_of_mem hp
        obtain ⟨a, b⟩ := p
        simp only [Schema.node.sizeOf_spec, Prod.mk.sizeOf_spec] at h1 ⊢
        omega
      · refine Or.inr (Or.inr ⟨_, _, rfl, ?_⟩)
        have h1 := List.sizeOf_lt_of_mem hp
        obtain ⟨a, b⟩ := p
        simp only [Schema.node.sizeOf_spec, Prod.mk.sizeOf_spec] at h1 ⊢
        omega
      · cases additional with
        | none => exact Or.inr (Or.inl ⟨_, true, rfl⟩)
        | some sc =>
          refine Or.inr (Or.inr ⟨_, sc, rfl, ?_⟩)
          simp only [Schema.node.sizeOf_spec, Option.some.sizeOf_spec]
          omega
      · exact Or.inl ⟨_, rfl⟩
    · split at hr
      · have hit : ∀ (l : List Schema) k, r ∈ itemReqs i k l → ∃ j sc, r = .build j (some sc) ∧ sc ∈ l := by
          intro l
          induction l with
          | nil => intro k h; simp [itemReqs] at h
          | cons a l ih =>
            intro k h
            rw [itemReqs] at h
            rcases List.mem_cons.1 h with h | h
            · exact ⟨_, a, h, by simp⟩
            · obtain ⟨j, sc, h1, h2⟩ := ih _ h
              exact ⟨j, sc, h1, by simp [h2]⟩
        unfold arrayReqs at hr
        split at hr
        · split at hr
          · simp at hr
          · rename_i sc
            simp only [List.mem_singleton] at hr
            refine Or.inr (Or.inr ⟨_, sc, hr, ?_⟩)
            simp only [Schema.node.sizeOf_spec, Option.some.sizeOf_spec]
            omega
        · obtain ⟨j, sc, h1, h2⟩ := hit _ _ hr
          refine Or.inr (Or.inr ⟨j, sc, h1, ?_⟩)
          have := List.sizeOf_lt_of_mem h2
          simp only [Schema.node.sizeOf_spec]
          omega
      · simp only [typeReqs, List.mem_append, List.mem_map] at hr
        rcases hr with ⟨e, _, rfl⟩ | ⟨e, _, rfl⟩ <;> exact Or.inl ⟨_, rfl⟩

theorem start_bool {cfg : Cfg} {f i b s} : start cfg f i (some (.bool b)) s =
    some (.ok (.const b s.next), { s with next := s.next + 1 }) := rfl

theorem inline_ends {cfg : Cfg} {k : Nat} (hload : ∀ j s, free cfg s ≤ k → Ends cfg (.load j) s) :
    ∀ m sch, sizeOf sch ≤ m → ∀ i s, free cfg s ≤ k → Ends cfg (.build i (some sch)) s := by
  intro m
  induction m with
  | zero =>
    intro sch h
    cases sch <;> simp at h
  | succ m ih =>
    intro sch hsz i s hs
    refine ends_build fun hr ho => ?_
    cases hsc : sch with
    | bool b => exact ⟨0, _, start_bool⟩
    | node =>
      rw [← hsc]
      have hst : ∀ n, start cfg (run cfg n) i (some sch) s =
          construct cfg (run cfg n) i sch { s with onC := AList.set s.onC i sch } := by
        intro n; rw [hsc]; rfl
      have : ∃ n x, construct cfg (run cfg n) i sch { s with onC := AList.set s.onC i sch } = some x := by
        apply construct_ends hload
        · intro r hr s' hs'
          rcases protocolReqs_smaller hr with ⟨j, rfl⟩ | ⟨j, b, rfl⟩ | ⟨j, sc, rfl, hlt⟩
          · exact hload j s' hs'
          · exact ends_build fun _ _ => ⟨0, _, start_bool⟩
          · exact ih sc (by omega) j s' hs'
        · exact Nat.le_trans (free_mark_le cfg s i sch) hs
      obtain ⟨n, x, hn⟩ := this
      exact ⟨n, x, (hst n).trans hn⟩

theorem run_ends (cfg : Cfg) : ∀ k s, free cfg s < k → ∀ r, Ends cfg r s := by
  intro k
  induction k with
  | zero => intro s h; omega
  | succ k ih =>
    have hnone : ∀ i s, free cfg s ≤ k → Ends cfg (.build i none) s := by
      intro i s hs
      refine ends_build fun hr ho => ?_
      unfold start given
      cases hg : AList.get? cfg.store i with
      | none => exact ⟨0, _, rfl⟩
      | some sch =>
        have hm : i ∈ AList.keys cfg.store := AList.get?_isSome.1 (by simp [hg])
        cases hsc : sch with
        | bool b => exact ⟨0, _, rfl⟩
        | node =>
          rw [← hsc]
          have hlt := free_mark_lt cfg (sch := sch) hm hr ho
          have := construct_ends (cfg := cfg) (k := free cfg { s with onC := AList.set s.onC i sch }) (i := i)
            (sch := sch) (s := { s with onC := AList.set s.onC i sch })
            (fun j s' hs' => ih s' (by omega) _) (fun r _ s' hs' => ih s' (by omega) _) (Nat.le_refl _)
          obtain ⟨n, x, hn⟩ := this
          refine ⟨n, x, ?_⟩
          rw [hsc] at hn ⊢
          exact hn
    have hload : ∀ j s, free cfg s ≤ k → Ends cfg (.load j) s := fun j s hs => ends_load (hnone j s hs)
    intro s hs r
    cases r with
    | load i => exact hload i s (by omega)
    | build i sch =>
      cases sch with
      | none => exact hnone i s (by omega)
      | some sch => exact inline_ends hload (sizeOf sch) sch (Nat.le_refl _) i s (by omega)

/-! ### What the proxies stand for -/

/-- Every proxy made stands for an identifier under construction, or for its class. -/
def PInv (s : St) : Prop := ∀ i, Event.proxied i ∈ s.log →
  (∃ sch, AList.get? s.onC i = some sch ∧ sch.typed = true) ∨ (∃ n, AList.get? s.registry i = some (.made i n)) ∨
  Clash i s.log

def GoodP (f : Req → St → Option (Res Cls × St)) : Prop :=
  ∀ r s out s', f r s = some (out, s') → PInv s → PInv s'

theorem pinv_reqs {f} (h : GoodP f) : ∀ rs s out s', reqs f rs s = some (out, s') → PInv s → PInv s' := by
  intro rs
  induction rs with
  | nil =>
    intro s out s' hx hp
    simp only [reqs, Option.some.injEq, Prod.mk.injEq] at hx
    obtain ⟨_, rfl⟩ := hx
    exact hp
  | cons r rs ih =>
    intro s out s' hx hp
    simp only [reqs] at hx
    cases hf : f r s with
    | none => simp [hf] at hx
    | some y =>
      obtain ⟨o1, s1⟩ := y
      have h1 := h _ _ _ _ hf hp
      rw [hf] at hx
      cases o1 with
      | error e =>
        simp only [Option.some.injEq, Prod.mk.injEq] at hx
        obtain ⟨rfl, rfl⟩ := hx
        exact h1
      | ok c =>
        simp only at hx
        cases hr : reqs f rs s1 with
        | none => simp [hr] at hx
        | some z =>
          obtain ⟨o2, s2⟩ := z
          have h2 := ih _ _ _ hr h1
          rw [hr] at hx
          cases o2 with
          | error e =>
            simp only [Option.some.injEq, Prod.mk.injEq] at hx
            obtain ⟨rfl, rfl⟩ := hx
            exact h2
          | ok cs =>
            simp only [Option.some.injEq, Prod.mk.injEq] at hx
            obtain ⟨rfl, rfl⟩ := hx
            exact h2

theorem pinv_makeWith {cfg : Cfg} {f} (h : GoodP f) {i sch pre rs s k out s'}
    (hk : ∀ n s out s', k (.made i n) s = some (out, s') → PInv s → PInv s') (hp : PInv s)
    (hx : makeWith cfg f i sch pre rs s k = some (out, s')) : PInv s' := by
  unfold makeWith at hx
  cases hr : reqs f rs s with
  | none => simp [hr] at hx
  | some z =>
    obtain ⟨o, s1⟩ := z
    have h1 := pinv_reqs h _ _ _ _ hr hp
    rw [hr] at hx
    cases o with
    | error e =>
      simp only [Option.some.injEq, Prod.mk.injEq] at hx
      obtain ⟨rfl, rfl⟩ := hx
      exact h1
    | ok cs =>
      simp only at hx
      rcases make_spec cfg i sch (pre ++ cs) s1 with ⟨e, he⟩ | he
      · rw [he] at hx
        simp only [Option.some.injEq, Prod.mk.injEq] at hx
        obtain ⟨rfl, rfl⟩ := hx
        exact h1
      · rw [he] at hx
        exact hk _ _ _ _ hx h1

theorem pinv_finish_made {i n s out s'} (h : finish i (.made i n) s = some (out, s')) (hp : PInv s) : PInv s' := by
  simp only [finish, Option.some.injEq, Prod.mk.injEq] at h
  obtain ⟨_, rfl⟩ := h
  intro j hj
  have hj : Event.proxied j ∈ s.log := by simpa using hj
  by_cases hji : j = i
  · subst hji
    exact Or.inr (Or.inl ⟨n, AList.get?_set_self _ _ _⟩)
  · rcases hp j hj with h | h | h
    · left
      obtain ⟨sch, h1, h2⟩ := h
      exact ⟨sch, by simp only [AList.get?_erase, if_neg hji]; exact h1, h2⟩
    · right; left
      simpa only [AList.get?_set_ne _ _ (Ne.symm hji)] using h
    · exact Or.inr (Or.inr (h.right (m := [Event.built i])))

theorem pinv_extended {i n s} (hp : PInv s) : PInv (registerExtended i (.made i n) s) := by
  intro j hj
  have hj : Event.proxied j ∈ s.log := by simpa [registerExtended] using hj
  by_cases hu : underscore i = j
  · by_cases hji : i = j
    · subst hji
      right; left
      refine ⟨n, ?_⟩
      simp only [registerExtended, hu]
      exact AList.get?_set_self _ _ _
    · right; right
      exact ⟨i, hji, hu, by simp [registerExtended]⟩
  · rcases hp j hj with h | h | h
    · exact Or.inl h
    · right; left
      simp only [registerExtended, AList.get?_set_ne _ _ hu]
      exact h
    · exact Or.inr (Or.inr (h.right (m := [Event.extended i])))

theorem pinv_mark {i sch s} (hi : AList.get? s.onC i = none) (hp : PInv s) :
    PInv { s with onC := AList.set s.onC i sch } := by
  intro j hj
  rcases hp j hj with ⟨sc, h1, h2⟩ | h | h
  · left
    refine ⟨sc, ?_, h2⟩
    simp only [AList.get?_set]
    split
    · rename_i he; subst he; rw [hi] at h1; cases h1
    · exact h1
  · exact Or.inr (Or.inl h)
  · exact Or.inr (Or.inr h)

theorem pinv_construct {cfg : Cfg} {f} (hg : Good f) (h : GoodP f) {i sch s out s'}
    (hr : AList.get? s.registry i = none) (hi : AList.get? s.onC i = none) (hp : PInv s)
    (hx : construct cfg f i sch { s with onC := AList.set s.onC i sch } = some (out, s')) : PInv s' := by
  have hm := pinv_mark (sch := sch) hi hp
  unfold construct at hx
  cases hro : refOf sch with
  | none =>
    rw [hro] at hx
    exact pinv_makeWith h (fun n s out s' hf => pinv_finish_made hf) hm hx
  | some r =>
    rw [hro] at hx
    simp only at hx
    cases hf : f (.load (Uri.scope r i)) { s with onC := AList.set s.onC i sch } with
    | none => simp [hf] at hx
    | some y =>
      obtain ⟨o1, s1⟩ := y
      obtain ⟨⟨l, hl⟩, ho⟩ := hg _ _ _ _ hf
      have h1 := h _ _ _ _ hf hm
      rw [hf] at hx
      cases o1 with
      | error e =>
        simp only [Option.some.injEq, Prod.mk.injEq] at hx
        obtain ⟨rfl, rfl⟩ := hx
        exact h1
      | ok c =>
        simp only at hx
        split at hx
        · exact pinv_makeWith h (fun n s2 out s' hf hp =>
            pinv_finish_made (s := registerExtended i (.made i n) s2) hf (pinv_extended hp)) h1 hx
        · rename_i hs
          have hty : sch.typed = false := by
            cases sch with
            | bool b => rfl
            | node type =>
              cases type with
              | none => rfl
              | some t => simp [hasSiblings] at hs
          simp only [finish, Option.some.injEq, Prod.mk.injEq] at hx
          obtain ⟨_, rfl⟩ := hx
          intro j hj
          replace hj : Event.proxied j ∈ s1.log := by simpa using hj
          by_cases hji : j = i
          · subst hji
            right; right
            rw [hl.log] at hj
            rcases List.mem_append.1 hj with hj | hj
            · have := hl.prox j sch (AList.get?_set_self _ _ _) hj
              rw [hty] at this
              cases this
            · rcases hp j hj with ⟨sc, h2, _⟩ | ⟨n, h2⟩ | h2
              · rw [hi] at h2; cases h2
              · rw [hr] at h2; cases h2
              · have := (h2.right (m := Event.built j :: l))
                simpa [hl.log] using this
          · rcases h1 j hj with h | h | h
            · left
              obtain ⟨sch, h1, h2⟩ := h
              exact ⟨sch, by simp only [AList.get?_erase, if_neg hji]; exact h1, h2⟩
            · right; left
              simpa only [AList.get?_set_ne _ _ (Ne.symm hji)] using h
            · exact Or.inr (Or.inr (h.right (m := [Event.built i])))

theorem pinv_proxy {i sch s} (hi : AList.get? s.onC i = some sch) (hp : PInv s) : PInv (proxyBuild i sch s).2 := by
  unfold proxyBuild
  split
  · intro j hj
    rcases List.mem_cons.1 hj with e | hj
    · injection e with e
      subst e
      exact Or.inl ⟨_, hi, rfl⟩
    · rcases hp j hj with h | h | h
      · exact Or.inl h
      · exact Or.inr (Or.inl h)
      · exact Or.inr (Or.inr (h.right (m := [Event.proxied i])))
  · exact hp

theorem goodp_run (cfg : Cfg) : ∀ n, GoodP (run cfg n) := by
  intro n
  induction n with
  | zero => intro r s out s' hx; simp [run] at hx
  | succ n ih =>
    have hstart : ∀ i sch s out s', AList.get? s.registry i = none → AList.get? s.onC i = none → PInv s →
        start cfg (run cfg n) i sch s = some (out, s') → PInv s' := by
      intro i sch s out s' hr hi hp hx
      unfold start at hx
      cases hg : given cfg i sch with
      | error e =>
        rw [hg] at hx
        simp only [Option.some.injEq, Prod.mk.injEq] at hx
        obtain ⟨rfl, rfl⟩ := hx
        exact hp
      | ok sc =>
        rw [hg] at hx
        cases sc with
        | bool b =>
          simp only [Option.some.injEq, Prod.mk.injEq] at hx
          obtain ⟨rfl, rfl⟩ := hx
          exact hp
        | node => exact pinv_construct (good_run cfg n) ih hr hi hp hx
    intro r s out s' hx hp
    cases r with
    | build i sch =>
      rw [run] at hx
      cases hr : AList.get? s.registry i with
      | some c =>
        rw [hr] at hx
        simp only [Option.some.injEq, Prod.mk.injEq] at hx
        obtain ⟨rfl, rfl⟩ := hx
        exact hp
      | none =>
        rw [hr] at hx
        cases hi : AList.get? s.onC i with
        | some sc =>
          rw [hi] at hx
          injection hx with hx
          have := pinv_proxy hi hp
          rw [hx] at this
          exact this
        | none => rw [hi] at hx; exact hstart _ _ _ _ _ hr hi hp hx
    | load i =>
      rw [run] at hx
      cases hr : AList.get? s.registry i with
      | some c =>
        rw [hr] at hx
        simp only [Option.some.injEq, Prod.mk.injEq] at hx
        obtain ⟨rfl, rfl⟩ := hx
        exact hp
      | none =>
        rw [hr] at hx
        cases hi : AList.get? s.onC i with
        | some sc =>
          rw [hi] at hx
          injection hx with hx
          have := pinv_proxy hi hp
          rw [hx] at this
          exact this
        | none =>
          rw [hi] at hx
          simp only at hx
          cases hb : run cfg n (.build i none) s with
          | none => rw [hb] at hx; simp [store] at hx
          | some y =>
            obtain ⟨o, s1⟩ := y
            have h1 := ih _ _ _ _ hb hp
            rw [hb] at hx
            cases o with
            | error e =>
              simp only [store, Option.some.injEq, Prod.mk.injEq] at hx
              obtain ⟨rfl, rfl⟩ := hx
              exact h1
            | ok c =>
              simp only [store, Option.some.injEq, Prod.mk.injEq] at hx
              obtain ⟨rfl, rfl⟩ := hx
              have hcase : AList.get? s1.registry i = some c ∨ s1 = { s with next := s.next + 1 } := by
                cases n with
                | zero => simp [run] at hb
                | succ n =>
                  rw [run, hr] at hb
                  simp only [hi] at hb
                  rcases good_start (good_run cfg n) hr hi hb with ⟨e, he, _⟩ | ⟨b, _, _, h⟩ | ⟨sc, _, _, h | h⟩
                  · cases he
                  · exact Or.inr h
                  · obtain ⟨e, l, he, _⟩ := h; cases he
                  · obtain ⟨c', l, he, _, _, h, _⟩ := h
                    injection he with he
                    subst he
                    exact Or.inl h
              intro j hj
              rcases h1 j hj with h | h | h
              · exact Or.inl h
              · right; left
                obtain ⟨m, hm⟩ := h
                refine ⟨m, ?_⟩
                simp only [AList.get?_set]
                split
                · rename_i he
                  subst he
                  rcases hcase with h | h
                  · rw [← h, hm]
                  · rw [h] at hm; simp [hr] at hm
                · exact hm
              · exact Or.inr (Or.inr h)

/-! ### Histories -/

theorem hist_grows {s h s'} (hh : Hist s h s') :
    (∃ l, Grows l s s') ∧ ((∀ x ∈ h, ∃ c, x.2.2 = .ok c) → s'.onC = s.onC) ∧ (PInv s → PInv s') := by
  induction hh with
  | nil s => exact ⟨⟨[], Grows.refl s⟩, fun _ => rfl, id⟩
  | cons hg _ ih =>
    obtain ⟨n, hn⟩ := hg
    obtain ⟨⟨l, hl⟩, ho⟩ := good_run _ n _ _ _ _ hn
    obtain ⟨⟨m, hm⟩, ho2, hp2⟩ := ih
    refine ⟨⟨_, hl.trans hm⟩, ?_, fun hp => hp2 (goodp_run _ n _ _ _ _ hn hp)⟩
    intro h
    rw [ho2 (fun x hx => h x (by simp [hx])), ho (h _ (List.mem_cons_self ..))]

theorem gives_grows {cfg r s out s'} (h : Gives cfg r s out s') : ∃ l, Grows l s s' := by
  obtain ⟨n, hn⟩ := h
  exact (good_run _ n _ _ _ _ hn).1

theorem gives_registered {cfg r s c} (h : AList.get? s.registry r.id = some c) : Gives cfg r s (.ok c) s := by
  refine ⟨1, ?_⟩
  cases r with
  | load i => rw [run, show AList.get? s.registry i = some c from h]
  | build i sch => rw [run, show AList.get? s.registry i = some c from h]

theorem gives_onC {cfg r s sch} (h : AList.get? s.registry r.id = none) (hi : AList.get? s.onC r.id = some sch) :
    Gives cfg r s (proxyBuild r.id sch s).1 (proxyBuild r.id sch s).2 := by
  refine ⟨1, ?_⟩
  cases r with
  | load i =>
    rw [run, show AList.get? s.registry i = none from h]
    simp only [show AList.get? s.onC i = some sch from hi]
    rfl
  | build i sc =>
    rw [run, show AList.get? s.registry i = none from h]
    simp only [show AList.get? s.onC i = some sch from hi]
    rfl

/-! ### Identifiers left under construction -/

/-- `i` is under construction and not registered, or clashed. -/
def Stuck (i : Id) (s : St) : Prop :=
  Clash i s.log ∨ ((AList.get? s.onC i).isSome ∧ AList.get? s.registry i = none)

def GoodN (f : Req → St → Option (Res Cls × St)) : Prop :=
  ∀ r s out s', f r s = some (out, s') → ∀ i, Stuck i s → Stuck i s'

theorem stuck_grows {l s s' i} (h : Grows l s s') (hs : Stuck i s) (hr : AList.get? s'.registry i = none ∨ Clash i s'.log) :
    Stuck i s' := by
  rcases hr with hr | hr
  · rcases hs with hs | hs
    · left; rw [h.log]; exact hs.right
    · right
      obtain ⟨sch, hsch⟩ := Option.isSome_iff_exists.1 hs.1
      exact ⟨by rw [h.onC i sch hsch]; rfl, hr⟩
  · exact Or.inl hr

theorem stuck_log {s i} {s' : St} (hs : Stuck i s) (h : ∀ e, e ∈ s.log → e ∈ s'.log)
    (h2 : (AList.get? s.onC i).isSome → AList.get? s.registry i = none →
      Clash i s'.log ∨ ((AList.get? s'.onC i).isSome ∧ AList.get? s'.registry i = none)) : Stuck i s' := by
  rcases hs with ⟨a, h1, h3, h4⟩ | hs
  · exact Or.inl ⟨a, h1, h3, h _ h4⟩
  · exact h2 hs.1 hs.2

theorem stuck_reqs {f} (h : GoodN f) : ∀ rs s out s', reqs f rs s = some (out, s') → ∀ i, Stuck i s → Stuck i s' := by
  intro rs
  induction rs with
  | nil =>
    intro s out s' hx i hp
    simp only [reqs, Option.some.injEq, Prod.mk.injEq] at hx
    obtain ⟨_, rfl⟩ := hx
    exact hp
  | cons r rs ih =>
    intro s out s' hx i hp
    simp only [reqs] at hx
    cases hf : f r s with
    | none => simp [hf] at hx
    | some y =>
      obtain ⟨o1, s1⟩ := y
      have h1 := h _ _ _ _ hf i hp
      rw [hf] at hx
      cases o1 with
      | error e =>
        simp only [Option.some.injEq, Prod.mk.injEq] at hx
        obtain ⟨rfl, rfl⟩ := hx
        exact h1
      | ok c =>
        simp only at hx
        cases hr : reqs f rs s1 with
        | none => simp [hr] at hx
        | some z =>
          obtain ⟨o2, s2⟩ := z
          have h2 := ih _ _ _ hr i h1
          rw [hr] at hx
          cases o2 with
          | error e =>
            simp only [Option.some.injEq, Prod.mk.injEq] at hx
            obtain ⟨rfl, rfl⟩ := hx
            exact h2
          | ok cs =>
            simp only [Option.some.injEq, Prod.mk.injEq] at hx
            obtain ⟨rfl, rfl⟩ := hx
            exact h2

theorem stuck_makeWith {cfg : Cfg} {f} (h : GoodN f) {i j sch pre rs s k out s'}
    (hx : makeWith cfg f i sch pre rs s k = some (out, s')) (hp : Stuck j s) :
    ((∃ e, out = .error e) ∧ Stuck j s') ∨ (∃ c s1, Stuck j s1 ∧ k c s1 = some (out, s')) := by
  unfold makeWith at hx
  cases hr : reqs f rs s with
  | none => simp [hr] at hx
  | some z =>
    obtain ⟨o, s1⟩ := z
    have h1 := stuck_reqs h _ _ _ _ hr j hp
    rw [hr] at hx
    cases o with
    | error e =>
      simp only [Option.some.injEq, Prod.mk.injEq] at hx
      obtain ⟨rfl, rfl⟩ := hx
      exact Or.inl ⟨⟨_, rfl⟩, h1⟩
    | ok cs =>
      simp only at hx
      rcases make_spec cfg i sch (pre ++ cs) s1 with ⟨e, he⟩ | he
      · rw [he] at hx
        simp only [Option.some.injEq, Prod.mk.injEq] at hx
        obtain ⟨rfl, rfl⟩ := hx
        exact Or.inl ⟨⟨_, rfl⟩, h1⟩
      · rw [he] at hx
        exact Or.inr ⟨_, { s1 with next := s1.next + 1 }, h1, hx⟩

theorem stuck_mark {i j sch s} (hp : Stuck j s) : Stuck j { s with onC := AList.set s.onC i sch } := by
  refine stuck_log hp (fun _ h => h) fun h1 h2 => Or.inr ⟨?_, h2⟩
  simp only [AList.get?_set]
  split
  · rfl
  · exact h1

theorem stuck_finish {i j c s out s'} (hji : j ≠ i) (hp : Stuck j s) (h : finish i c s = some (out, s')) :
    Stuck j s' := by
  simp only [finish, Option.some.injEq, Prod.mk.injEq] at h
  obtain ⟨_, rfl⟩ := h
  refine stuck_log hp (fun _ h => by simp [h]) fun h1 h2 => Or.inr ⟨?_, ?_⟩
  · simp only [AList.get?_erase, if_neg hji]; exact h1
  · simp only [AList.get?_set_ne _ _ (Ne.symm hji)]; exact h2

theorem stuck_extended {i j c s} (hji : j ≠ i) (hp : Stuck j s) : Stuck j (registerExtended i c s) := by
  refine stuck_log hp (fun _ h => by simp [registerExtended, h]) fun h1 h2 => ?_
  by_cases hu : underscore i = j
  · exact Or.inl ⟨i, Ne.symm hji, hu, by simp [registerExtended]⟩
  · exact Or.inr ⟨h1, by simp only [registerExtended, AList.get?_set_ne _ _ hu]; exact h2⟩

/-- A failure keeps the identifiers stuck, including the one being constructed. -/
theorem stuck_construct {cfg : Cfg} {f} (h : GoodN f) {i j sch s out s'}
    (hx : construct cfg f i sch s = some (out, s')) (hp : Stuck j s) (hji : j ≠ i ∨ ∃ e, out = .error e) :
    Stuck j s' := by
  have hfin : ∀ c s1, Stuck j s1 → finish i c s1 = some (out, s') → Stuck j s' := by
    intro c s1 h1 h2
    rcases hji with hji | ⟨e, rfl⟩
    · exact stuck_finish hji h1 h2
    · simp [finish] at h2
  unfold construct at hx
  cases hro : refOf sch with
  | none =>
    rw [hro] at hx
    rcases stuck_makeWith h hx hp with h1 | ⟨c, s1, h1, h2⟩
    · exact h1.2
    · exact hfin _ _ h1 h2
  | some r =>
    rw [hro] at hx
    simp only at hx
    cases hf : f (.load (Uri.scope r i)) s with
    | none => simp [hf] at hx
    | some y =>
      obtain ⟨o1, s1⟩ := y
      have h1 := h _ _ _ _ hf j hp
      rw [hf] at hx
      cases o1 with
      | error e =>
        simp only [Option.some.injEq, Prod.mk.injEq] at hx
        obtain ⟨rfl, rfl⟩ := hx
        exact h1
      | ok c =>
        simp only at hx
        split at hx
        · rcases stuck_makeWith h hx h1 with h1 | ⟨c, s1, h1, h2⟩
          · exact h1.2
          · rcases hji with hji | ⟨e, rfl⟩
            · exact stuck_finish hji (stuck_extended hji h1) h2
            · simp [finish] at h2
        · exact hfin _ _ h1 hx

theorem stuck_proxy {i j sch s} (hp : Stuck j s) : Stuck j (proxyBuild i sch s).2 := by
  unfold proxyBuild
  split
  · exact stuck_log hp (fun _ h => by simp [h]) fun h1 h2 => Or.inr ⟨h1, h2⟩
  · exact hp

theorem goodn_run (cfg : Cfg) : ∀ n, GoodN (run cfg n) := by
  intro n
  induction n with
  | zero => intro r s out s' hx; simp [run] at hx
  | succ n ih =>
    intro r s out s' hx j hp
    cases r with
    | build i sch =>
      rw [run] at hx
      cases hr : AList.get? s.registry i with
      | some c =>
        rw [hr] at hx
        simp only [Option.some.injEq, Prod.mk.injEq] at hx
        obtain ⟨rfl, rfl⟩ := hx
        exact hp
      | none =>
        rw [hr] at hx
        cases hi : AList.get? s.onC i with
        | some sc =>
          rw [hi] at hx
          injection hx with hx
          have := stuck_proxy (i := i) (sch := sc) hp
          rw [hx] at this
          exact this
        | none =>
          rw [hi] at hx
          simp only at hx
          unfold start at hx
          cases hg : given cfg i sch with
          | error e =>
            rw [hg] at hx
            simp only [Option.some.injEq, Prod.mk.injEq] at hx
            obtain ⟨rfl, rfl⟩ := hx
            exact hp
          | ok sc =>
            rw [hg] at hx
            cases sc with
            | bool b =>
              simp only [Option.some.injEq, Prod.mk.injEq] at hx
              obtain ⟨rfl, rfl⟩ := hx
              exact hp
            | node =>
              by_cases hji : j = i
              · subst hji
                rcases hp with hp | hp
                · obtain ⟨⟨l, hl⟩, _⟩ := good_start' (good_run cfg n) hr hi (by unfold start; rw [hg]; exact hx)
                  left; rw [hl.log]; exact hp.right
                · rw [hi] at hp; cases hp.1
              · exact stuck_construct ih hx (stuck_mark hp) (Or.inl hji)
    | load i =>
      rw [run] at hx
      cases hr : AList.get? s.registry i with
      | some c =>
        rw [hr] at hx
        simp only [Option.some.injEq, Prod.mk.injEq] at hx
        obtain ⟨rfl, rfl⟩ := hx
        exact hp
      | none =>
        rw [hr] at hx
        cases hi : AList.get? s.onC i with
        | some sc =>
          rw [hi] at hx
          injection hx with hx
          have := stuck_proxy (i := i) (sch := sc) hp
          rw [hx] at this
          exact this
        | none =>
          rw [hi] at hx
          simp only at hx
          cases hb : run cfg n (.build i none) s with
          | none => rw [hb] at hx; simp [store] at hx
          | some y =>
            obtain ⟨o, s1⟩ := y
            have h1 := ih _ _ _ _ hb j hp
            obtain ⟨⟨l, hl⟩, ho⟩ := good_run cfg n _ _ _ _ hb
            rw [hb] at hx
            cases o with
            | error e =>
              simp only [store, Option.some.injEq, Prod.mk.injEq] at hx
              obtain ⟨rfl, rfl⟩ := hx
              exact h1
            | ok c =>
              simp only [store, Option.some.injEq, Prod.mk.injEq] at hx
              obtain ⟨rfl, rfl⟩ := hx
              refine stuck_log h1 (fun _ h => h) fun a b => ?_
              have hne : i ≠ j := by
                rintro rfl
                rw [ho ⟨_, rfl⟩, hi] at a
                cases a
              exact Or.inr ⟨a, by simp only [AList.get?_set_ne _ _ hne]; exact b⟩

theorem hist_stuck {s h s' i} (hh : Hist s h s') (hs : Stuck i s) : Stuck i s' := by
  induction hh with
  | nil s => exact hs
  | cons hg _ ih =>
    obtain ⟨n, hn⟩ := hg
    exact ih (goodn_run _ n _ _ _ _ hn i hs)

/-! ### Other spellings -/

theorem underscore_not_upper {s : Str} {c : Char} (h : c ∈ underscore s) : c.isUpper = false ∧ c ≠ '-' := by
  unfold underscore at h
  rw [List.mem_map] at h
  obtain ⟨d, _, rfl⟩ := h
  split
  · exact ⟨rfl, by decide⟩
  · rename_i hd
    unfold Char.toLower
    split
    · rename_i h
      have h1 : 65 ≤ d.val.toNat := h.1
      have h2 : d.val.toNat ≤ 90 := h.2
      have hv : (d.val + ('a'.val - 'A'.val)).toNat = d.val.toNat + 32 := by
        rw [UInt32.toNat_add]
        have : ('a'.val - 'A'.val).toNat = 32 := rfl
        rw [this]
        omega
      constructor
      · unfold Char.isUpper
        simp only [Bool.and_eq_false_iff, decide_eq_false_iff_not]
        rintro ⟨_, hle⟩
        have : (d.val + ('a'.val - 'A'.val)).toNat ≤ 90 := hle
        omega
      · intro he
        have := congrArg (fun c => c.val.toNat) he
        simp only [hv] at this
        have h3 : ('-' : Char).val.toNat = 45 := rfl
        omega
    · rename_i hu
      refine ⟨?_, hd⟩
      unfold Char.isUpper
      simpa using hu

end Verif.Builder
