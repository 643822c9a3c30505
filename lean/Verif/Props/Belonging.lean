import Verif.Spec.Belonging
/-
C362.
-/
namespace Verif.Belonging
open Belonging.Spec

/-- There is the default context, and the context of every object has a session. -/
structure Good (w : World) : Prop where
  default : 0 < w.ctxs.length
  has : ∀ o c : Nat, w.objs[o]? = some c → ∃ s, w.ctxs[c]? = some (some s)

theorem good_start : Good start := ⟨Nat.one_pos, by simp [start]⟩

theorem good_outer {w : World} (h : Good w) {p : Option Nat} {c : Nat} (hc : outerCtx w p = some c) :
    c < w.ctxs.length := by
  cases p with
  | none => cases hc; exact h.default
  | some p =>
    obtain ⟨s, hs⟩ := h.has p c hc
    exact (List.getElem?_eq_some_iff.mp hs).1

/-- What a session that is given counts for. -/
def counted (truth : Nat → Bool) : Option Nat → Option Nat
  | some s => if truth s then some s else none
  | none => none

/-- Making an object. -/
theorem make_object (truth : Nat → Bool) {w : World} {p : Option Nat} {c : Nat}
    (hc : outerCtx w p = some c) (session : Option Nat) :
    step truth w (.make false p session)
      = .ok ⟨w.ctxs ++ [some (counted truth session <|> getattr w c)], w.objs ++ [w.ctxs.length]⟩ := by
  simp only [step, hc, createContext, setContext, counted]
  cases session with
  | none => simp [read]
  | some s =>
    dsimp only
    cases truth s <;> simp [read]

/-- Making an array. -/
theorem make_array (truth : Nat → Bool) {w : World} (h : Good w) {p : Option Nat} {c : Nat}
    (hc : outerCtx w p = some c) (session : Option Nat) :
    step truth w (.make true p session)
      = .ok ⟨w.ctxs.set c (some (counted truth session <|> getattr w c)), w.objs ++ [c]⟩ := by
  have hl := good_outer h hc
  simp only [step, hc, createContext, setContext, counted]
  cases session with
  | none => simp [read, hl]
  | some s =>
    dsimp only
    cases truth s <;> simp [read, hl]

/-- Inserting. -/
theorem insert_there (truth : Nat → Bool) {w : World} (h : Good w) {a o c : Nat} (ha : w.objs[a]? = some c)
    (ho : o < w.objs.length) : step truth w (.insert a o) = .ok ⟨w.ctxs, w.objs.set o c⟩ := by
  obtain ⟨s, hs⟩ := h.has a c ha
  simp only [step, ha, ho, if_true, setContext, read, hs]
  congr 2
  apply List.ext_getElem?
  intro i
  rw [List.getElem?_set]
  split
  next e =>
    subst e
    rw [if_pos (List.getElem?_eq_some_iff.mp hs).1, hs]
  · rfl

/-- An operation always succeeds. -/
theorem good_step (truth : Nat → Bool) {w : World} (h : Good w) (op : Op) :
    ∃ w', step truth w op = .ok w' ∧ Good w' := by
  cases op with
  | make arr p session =>
    cases hc : outerCtx w p with
    | none => exact ⟨w, by simp [step, hc], h⟩
    | some c =>
      cases arr with
      | false =>
        refine ⟨_, make_object truth hc session, by simp, fun o d ho => ?_⟩
        dsimp only at ho ⊢
        rw [List.getElem?_append] at ho
        split at ho
        · obtain ⟨s, hs⟩ := h.has o d ho
          exact ⟨s, by rw [List.getElem?_append_left (List.getElem?_eq_some_iff.mp hs).1, hs]⟩
        · have : d = w.ctxs.length := by
            obtain ⟨hi, he⟩ := List.getElem?_eq_some_iff.mp ho
            simpa using he.symm
          subst this
          exact ⟨_, by simp; rfl⟩
      | true =>
        refine ⟨_, make_array truth h hc session, by simpa using h.default, fun o d ho => ?_⟩
        dsimp only at ho ⊢
        rw [List.getElem?_set]
        split
        next e => exact ⟨_, by rw [if_pos (good_outer h hc)]⟩
        next hne =>
          rw [List.getElem?_append] at ho
          split at ho
          · exact h.has o d ho
          · obtain ⟨hi, he⟩ := List.getElem?_eq_some_iff.mp ho
            exact absurd (by simpa using he) hne
  | insert a o =>
    cases ha : w.objs[a]? with
    | none => exact ⟨w, by simp [step, ha], h⟩
    | some c =>
      by_cases ho : o < w.objs.length
      · refine ⟨_, insert_there truth h ha ho, h.default, fun i d hi => ?_⟩
        dsimp only at hi ⊢
        rw [List.getElem?_set] at hi
        split at hi
        · cases hi; exact h.has a _ ha
        · exact h.has i d hi
      · exact ⟨w, by simp [step, ha, ho], h⟩

theorem good_run (truth : Nat → Bool) (ops : List Op) : ∀ {w : World}, Good w →
    ∃ w', run truth w ops = .ok w' ∧ Good w' := by
  induction ops with
  | nil => intro w h; exact ⟨w, rfl, h⟩
  | cons op ops ih =>
    intro w h
    obtain ⟨w1, h1, g1⟩ := good_step truth h op
    obtain ⟨w2, h2, g2⟩ := ih g1
    exact ⟨w2, by simp [run, h1, h2], g2⟩

theorem run_append (truth : Nat → Bool) (a b : List Op) : ∀ {w w1 : World}, run truth w a = .ok w1 →
    run truth w (a ++ b) = run truth w1 b := by
  induction a with
  | nil => intro w w1 h; cases h; rfl
  | cons op a ih =>
    intro w w1 h
    simp only [run, List.cons_append] at h ⊢
    split at h
    · cases h
    · exact ih h

/-- The world has these sessions, and the default context has none. -/
structure Agrees (w : World) (ss : List (Option Nat)) : Prop where
  good : Good w
  none : getattr w 0 = none
  length : w.objs.length = ss.length
  same : ∀ o c : Nat, w.objs[o]? = some c → ss[o]? = some (getattr w c)

theorem agrees_step (truth : Nat → Bool) {w : World} {ss : List (Option Nat)} (h : Agrees w ss) (op : Op)
    (hp : Plain truth op) : ∃ w', Belonging.step truth w op = .ok w' ∧ Agrees w' (Spec.step ss op) := by
  obtain ⟨w', hw, hg⟩ := good_step truth h.good op
  refine ⟨w', hw, ?_⟩
  cases op with
  | make arr p session =>
    have hcount : counted truth session = session := by
      cases session with
      | none => rfl
      | some s => simp [counted, hp.2]
    cases hc : outerCtx w p with
    | none =>
      have : w' = w := by simpa [Belonging.step, hc, eq_comm] using hw
      subst this
      cases p with
      | none => cases hc
      | some p =>
        have : ss[p]? = Option.none := by
          rw [List.getElem?_eq_none_iff, ← h.length]
          exact List.getElem?_eq_none_iff.mp hc
        simpa only [Spec.step, this] using h
    | some c =>
      have hnew : Spec.step ss (.make arr p session) = ss ++ [session <|> getattr w c] := by
        cases p with
        | none => cases hc; simp [Spec.step, h.none]
        | some p => simp [Spec.step, h.same p c hc]
      rw [hnew]
      have hl := good_outer h.good hc
      cases arr with
      | false =>
        rw [make_object truth hc session, hcount] at hw
        cases hw
        have old : ∀ d, d < w.ctxs.length → ∀ x y, getattr ⟨w.ctxs ++ [x], y⟩ d = getattr w d := by
          intro d hd x y
          simp only [getattr]
          rw [List.getElem?_append_left hd]
        refine ⟨hg, by rw [old _ h.good.default, h.none], by simp [h.length], fun o d ho => ?_⟩
        dsimp only at ho ⊢
        rw [List.getElem?_append] at ho
        split at ho
        next hlt =>
          obtain ⟨s, hs⟩ := h.good.has o d ho
          rw [old _ (List.getElem?_eq_some_iff.mp hs).1, List.getElem?_append_left (h.length ▸ hlt), h.same o d ho]
        next hge =>
          obtain ⟨hi, he⟩ := List.getElem?_eq_some_iff.mp ho
          have hd : w.ctxs.length = d := by simpa using he
          have ho' : o = ss.length := by simp at hi; have := h.length; omega
          subst hd ho'
          simp [getattr]
      | true =>
        have hnone : session = Option.none := by
          cases session with
          | none => rfl
          | some s => exact absurd hp.1 (by simp)
        subst hnone
        rw [make_array truth h.good hc Option.none] at hw
        cases hw
        have old : ∀ d y, getattr ⟨w.ctxs.set c (some (counted truth Option.none <|> getattr w c)), y⟩ d = getattr w d := by
          intro d y
          by_cases e : c = d
          · subst e; simp [getattr, counted, hl]
          · simp [getattr, e]
        refine ⟨hg, by rw [old, h.none], by simp [h.length], fun o d ho => ?_⟩
        rw [old]
        dsimp only at ho ⊢
        rw [List.getElem?_append] at ho
        split at ho
        next hlt => rw [List.getElem?_append_left (h.length ▸ hlt), h.same o d ho]
        next hge =>
          obtain ⟨hi, he⟩ := List.getElem?_eq_some_iff.mp ho
          have hd : c = d := by simpa using he
          have ho' : o = ss.length := by simp at hi; have := h.length; omega
          subst hd ho'
          simp
  | insert a o =>
    cases ha : w.objs[a]? with
    | none =>
      have : w' = w := by simpa [Belonging.step, ha, eq_comm] using hw
      subst this
      have : ss[a]? = Option.none := by
        rw [List.getElem?_eq_none_iff, ← h.length]
        exact List.getElem?_eq_none_iff.mp ha
      simpa only [Spec.step, this] using h
    | some c =>
      have hs := h.same a c ha
      simp only [Spec.step, hs]
      by_cases ho : o < w.objs.length
      · rw [insert_there truth h.good ha ho] at hw
        cases hw
        refine ⟨hg, h.none, by simp [h.length], fun i d hi => ?_⟩
        show _ = some (getattr w d)
        dsimp only at hi
        rw [List.getElem?_set] at hi ⊢
        split at hi
        next e =>
          subst e
          cases hi
          rw [if_pos rfl, if_pos (h.length ▸ ho)]
        next hne => rw [if_neg hne, h.same i d hi]
      · have : w' = w := by simpa [Belonging.step, ha, ho, eq_comm] using hw
        subst this
        rw [List.set_eq_of_length_le (by have := h.length; omega)]
        exact h

theorem sessionOf_eq {w : World} (h : Good w) {o c : Nat} (ho : w.objs[o]? = some c) :
    sessionOf w o = .ok (getattr w c) := by
  obtain ⟨s, hs⟩ := h.has o c ho
  simp [sessionOf, ho, read, getattr, hs]

/-- When no array is given a session and no session without entries is given, everything belongs to the session it should
belong to, after any operations. -/
theorem C362_objects_partial (truth : Nat → Bool) (ops : List Op) (hp : ∀ op ∈ ops, Plain truth op) :
    ∃ w, run truth start ops = .ok w ∧ w.objs.length = (sessions ops).length
      ∧ ∀ o s, (sessions ops)[o]? = some s → sessionOf w o = .ok s := by
  have key : ∀ (ops : List Op) (w : World) (ss : List (Option Nat)), Agrees w ss → (∀ op ∈ ops, Plain truth op) →
      ∃ w', run truth w ops = .ok w' ∧ Agrees w' (ops.foldl Spec.step ss) := by
    intro ops
    induction ops with
    | nil => intro w ss h _; exact ⟨w, rfl, h⟩
    | cons op ops ih =>
      intro w ss h hp
      obtain ⟨w1, h1, a1⟩ := agrees_step truth h op (hp op (by simp))
      obtain ⟨w2, h2, a2⟩ := ih w1 _ a1 (fun x hx => hp x (List.mem_cons_of_mem _ hx))
      exact ⟨w2, by simp [run, h1, h2], a2⟩
  obtain ⟨w, hw, ha⟩ := key ops start [] ⟨good_start, rfl, rfl, by simp [start]⟩ hp
  refine ⟨w, hw, ha.length, fun o s hs => ?_⟩
  have ho : o < w.objs.length := by
    rw [ha.length]; exact (List.getElem?_eq_some_iff.mp hs).1
  have hc := List.getElem?_eq_getElem ho
  rw [sessionOf_eq ha.good hc]
  have := ha.same o _ hc
  unfold sessions at hs
  rw [hs] at this
  cases this
  rfl

/-- Whatever has been done, there is always an answer, and nothing fails. -/
theorem C362_answers (truth : Nat → Bool) (ops : List Op) :
    ∃ w, run truth start ops = .ok w ∧ ∀ o, o < w.objs.length → ∃ s, sessionOf w o = .ok s := by
  obtain ⟨w, hw, hg⟩ := good_run truth ops good_start
  exact ⟨w, hw, fun o ho => ⟨_, sessionOf_eq hg (List.getElem?_eq_getElem ho)⟩⟩

/-- Whatever has been done, once an array is made on its own with a session, all that is made on its own without one
belongs to that session too. -/
theorem C362_leak_violated (truth : Nat → Bool) (ops : List Op) (s : Nat) (hs : truth s = true) (arr : Bool) :
    ∃ w, run truth start (ops ++ [.make true none (some s), .make arr none none]) = .ok w
      ∧ sessionOf w (w.objs.length - 1) = .ok (some s) := by
  obtain ⟨w, hw, hg⟩ := good_run truth ops good_start
  have h1 := make_array truth hg (p := none) rfl (some s)
  obtain ⟨w1, h1', hg1⟩ := good_step truth hg (.make true none (some s))
  have e1 := h1.symm.trans h1'
  simp only [Except.ok.injEq] at e1
  have hs0 : getattr w1 0 = some s := by
    rw [← e1]
    simp [getattr, counted, hs, hg.default]
  rw [run_append truth ops _ hw]
  cases arr with
  | false =>
    refine ⟨_, by simp only [run, h1', make_object truth (w := w1) (p := none) rfl none]; rfl, ?_⟩
    simp [sessionOf, read, counted, hs0]
  | true =>
    refine ⟨_, by simp only [run, h1', make_array truth hg1 (p := none) rfl none]; rfl, ?_⟩
    simp [sessionOf, read, counted, hs0, hg1.default]

/-- An array that is made in an object with a session gives it to the object. -/
theorem C362_outer_violated (truth : Nat → Bool) (ops : List Op) (w : World) (hw : run truth start ops = .ok w)
    (o s : Nat) (ho : o < w.objs.length) (hs : truth s = true) :
    ∃ w', run truth start (ops ++ [.make true (some o) (some s)]) = .ok w' ∧ sessionOf w' o = .ok (some s) := by
  obtain ⟨w0, hw0, hg⟩ := good_run truth ops good_start
  rw [hw] at hw0
  cases hw0
  have hc : w.objs[o]? = some w.objs[o] := List.getElem?_eq_getElem ho
  have hl := good_outer hg (p := some o) hc
  rw [run_append truth ops _ hw]
  refine ⟨_, by simp only [run, make_array truth hg (p := some o) hc (some s)]; rfl, ?_⟩
  simp [sessionOf, List.getElem?_append_left ho, hc, read, counted, hs, hl]

/-- The operation does not insert the object anywhere. -/
def Leaves (o : Nat) : Op → Prop
  | .insert _ o' => o' ≠ o
  | _ => True

theorem stays_step (truth : Nat → Bool) {w w' : World} {o c : Nat} (op : Op) (h : w.objs[o]? = some c)
    (hl : Leaves o op) (hw : step truth w op = .ok w') : w'.objs[o]? = some c := by
  have hlt := (List.getElem?_eq_some_iff.mp h).1
  have set_ : ∀ {v v' : World} {i d : Nat} {s : Option Nat}, setContext truth v i d s = .ok v' → v'.objs = v.objs.set i d := by
    intro v v' i d s hs
    unfold setContext at hs
    repeat' split at hs
    all_goals first | cases hs; rfl | cases hs
  cases op with
  | make arr p session =>
    simp only [step] at hw
    split at hw
    · cases hw; exact h
    · rw [set_ hw, List.getElem?_set, if_neg (by omega)]
      have : ∀ d, (createContext w arr d).1.objs = w.objs := by
        intro d
        unfold createContext; split <;> rfl
      rw [this, List.getElem?_append_left hlt, h]
  | insert a o' =>
    simp only [step] at hw
    split at hw
    · cases hw; exact h
    · split at hw
      · rw [set_ hw, List.getElem?_set, if_neg hl, h]
      · cases hw; exact h

theorem stays_run (truth : Nat → Bool) {o c : Nat} (ops : List Op) : ∀ {w w' : World}, w.objs[o]? = some c →
    (∀ op ∈ ops, Leaves o op) → run truth w ops = .ok w' → w'.objs[o]? = some c := by
  induction ops with
  | nil => intro w w' h _ hw; cases hw; exact h
  | cons op ops ih =>
    intro w w' h hl hw
    simp only [run] at hw
    split at hw
    · cases hw
    next hs => exact ih (stays_step truth op h (hl op (by simp)) hs) (fun x hx => hl x (List.mem_cons_of_mem _ hx)) hw

/-- An array belongs to the session of the collection it was made in for ever, whatever sessions are given to the one or
to the other or to arrays in them, unless one of them is inserted elsewhere. -/
theorem C362_shared_partial (truth : Nat → Bool) (ops after : List Op) (w : World) (hw : run truth start ops = .ok w)
    (o : Nat) (session : Option Nat) (ho : o < w.objs.length) (h1 : ∀ op ∈ after, Leaves o op)
    (h2 : ∀ op ∈ after, Leaves w.objs.length op) :
    ∃ w', run truth start (ops ++ .make true (some o) session :: after) = .ok w'
      ∧ sessionOf w' w.objs.length = sessionOf w' o ∧ ∃ s, sessionOf w' o = .ok s := by
  obtain ⟨w0, hw0, hg⟩ := good_run truth ops good_start
  rw [hw] at hw0
  cases hw0
  have hc : w.objs[o]? = some w.objs[o] := List.getElem?_eq_getElem ho
  have hm := make_array truth hg (p := some o) hc session
  obtain ⟨w1, hm1, hg1⟩ := good_step truth hg (.make true (some o) session)
  have e := hm.symm.trans hm1
  simp only [Except.ok.injEq] at e
  obtain ⟨w2, hw2, hg2⟩ := good_run truth after hg1
  have a1 : w1.objs[o]? = some w.objs[o] := by rw [← e]; simp [List.getElem?_append_left ho]
  have a2 : w1.objs[w.objs.length]? = some w.objs[o] := by rw [← e]; simp
  have b1 := stays_run truth after a1 h1 hw2
  have b2 := stays_run truth after a2 h2 hw2
  refine ⟨w2, ?_, ?_, _, sessionOf_eq hg2 b1⟩
  · rw [run_append truth ops _ hw]
    simp only [run, hm1, hw2]
  · rw [sessionOf_eq hg2 b1, sessionOf_eq hg2 b2]

example : (∀ op ∈ [Op.make true (some 1) (some 3), .insert 1 2], Leaves 0 op ∧ Leaves 1 op)
    ∧ (match run (fun _ => true) start [.make false none (some 2), .make true (some 0) none, .make true (some 1) (some 3)] with
      | .ok w => (List.range 3).map (fun o => (sessionOf w o).toOption)
      | .error _ => []) = [some (some 3), some (some 3), some (some 3)] := by
  refine ⟨?_, by decide +kernel⟩
  simp [Leaves]

/-- A session without entries is as good as none. -/
theorem C362_empty_violated (truth : Nat → Bool) (ops : List Op) (arr : Bool) (outer : Option Nat) (s : Nat)
    (hs : truth s = false) :
    run truth start (ops ++ [.make arr outer (some s)]) = run truth start (ops ++ [.make arr outer none]) := by
  obtain ⟨w, hw, -⟩ := good_run truth ops good_start
  rw [run_append truth ops _ hw, run_append truth ops _ hw]
  simp [run, Belonging.step, setContext, hs]

/-- An object with session 1, an array and an object in it, an object on its own, which is inserted into the array, and
an object in the first with session 2. -/
def made : List Op := [.make false none (some 1), .make true (some 0) none, .make false (some 0) none,
  .make false none none, .insert 1 3, .make false (some 0) (some 2), .make false (some 4) none]

example : sessions made = [some 1, some 1, some 1, some 1, some 2, some 2]
    ∧ (∀ op ∈ made, Plain (fun _ => true) op)
    ∧ (match run (fun _ => true) start made with
      | .ok w => (List.range 6).map (fun o => (sessionOf w o).toOption)
      | .error _ => []) = [some (some 1), some (some 1), some (some 1), some (some 1), some (some 2), some (some 2)]
    ∧ (match run (fun _ => true) start [.make false none (some 1), .make true (some 0) (some 2), .make true none (some 3),
        .make false none none] with
      | .ok w => (List.range 4).map (fun o => (sessionOf w o).toOption)
      | .error _ => []) = [some (some 2), some (some 2), some (some 3), some (some 3)] := by
  refine ⟨by decide +kernel, ?_, by decide +kernel, by decide +kernel⟩
  intro op hop
  simp only [made, List.mem_cons, List.not_mem_nil, or_false] at hop
  rcases hop with rfl | rfl | rfl | rfl | rfl | rfl | rfl <;> simp [Plain]

end Verif.Belonging
