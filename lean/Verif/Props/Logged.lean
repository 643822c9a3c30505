import Verif.Props.Show
import Verif.Spec.Logged
/-
C332 the message of a logged call.
-/
namespace Verif.Show
open Spec

theorem commas_row : ∀ l : List Str, commas l = row l
  | [] => rfl
  | [_] => rfl
  | t :: u :: ts => by
    have := commas_row (u :: ts)
    rw [commas] at this
    rw [commas, joinWith, this, row]
    rfl
    simp

mutual
theorem repr_reads : ∀ (a : Arg) (t : Str), a.repr = .ok t ↔ Reads a t
  | .plain r, t => by
    rw [Arg.repr]
    constructor
    · rintro rfl; exact .plain t
    · intro h; cases h; rfl
  | .tuple l, t => by
    rw [Arg.repr]
    constructor
    · intro h
      cases hl : Arg.reprs l with
      | error e => rw [hl] at h; cases h
      | ok ts =>
        rw [hl] at h
        have hr := (reprs_reads l ts).1 hl
        simp only [Except.ok.injEq] at h
        subst h
        rw [commas_row]
        by_cases h1 : ts.length = 1
        · cases hr with
          | nil => cases h1
          | @cons a t l ts ha hr => cases hr with
            | nil => simpa [row] using Reads.one ha
            | cons _ _ => simp at h1
        · have : l.length ≠ 1 := by rwa [readAll_length hr]
          simpa [h1] using Reads.tuple this hr
    · intro h
      cases h with
      | @one a t ha =>
        have := (reprs_reads [a] [t]).2 (.cons ha .nil)
        simp [this, commas, joinWith]
      | @tuple _ ts h1 hr =>
        have := (reprs_reads l ts).2 hr
        rw [readAll_length hr] at h1
        simp [this, commas_row, h1]
theorem reprs_reads : ∀ (l : List Arg) (ts : List Str), Arg.reprs l = .ok ts ↔ ReadAll l ts
  | [], ts => by
    rw [Arg.reprs]
    constructor
    · intro h; cases h; exact .nil
    · intro h; cases h; rfl
  | a :: l, ts => by
    rw [Arg.reprs]
    constructor
    · intro h
      cases ha : a.repr with
      | error e => rw [ha] at h; cases h
      | ok t => cases hl : Arg.reprs l with
        | error e => rw [ha, hl] at h; cases h
        | ok us =>
          rw [ha, hl] at h
          cases h
          exact .cons ((repr_reads a t).1 ha) ((reprs_reads l us).1 hl)
    · intro h
      cases h with
      | @cons _ t _ us ha hl => rw [(repr_reads a t).2 ha, (reprs_reads l us).2 hl]
theorem readAll_length : ∀ {l : List Arg} {ts : List Str}, ReadAll l ts → l.length = ts.length
  | [], ts, h => by cases h; rfl
  | a :: l, ts, h => by
    cases h with
    | cons _ hl => simp [readAll_length hl]
end

theorem keyword_keyed : ∀ (l : List (Str × Arg)) (ts : List Str), allOk keyword l = .ok ts ↔ Keyed l ts
  | [], ts => by
    rw [allOk]
    constructor
    · intro h; cases h; exact .nil
    · intro h; cases h; rfl
  | (k, a) :: l, ts => by
    have ih := keyword_keyed l
    rw [allOk, keyword]
    constructor
    · intro h
      cases ha : a.repr with
      | error e => simp [ha] at h
      | ok t => cases hl : allOk keyword l with
        | error e => simp [ha, hl] at h
        | ok us =>
          simp only [ha, hl, Except.ok.injEq] at h
          subst h
          simpa using Keyed.cons (k := k) ((repr_reads a t).1 ha) ((ih us).1 hl)
    · intro h
      cases h with
      | @cons _ _ t _ us ha hl => simp [(repr_reads a t).2 ha, (ih us).2 hl]

theorem percent_reads : ∀ (l : List Arg) (_ : ∀ a ∈ l, ∃ r, a = .plain r) (ts : List Str),
    allOk percentR l = .ok ts ↔ ReadAll l ts
  | [], _, ts => by
    rw [allOk]
    constructor
    · intro h; cases h; exact .nil
    · intro h; cases h; rfl
  | a :: l, h, ts => by
    obtain ⟨r, rfl⟩ := h a (by simp)
    have ih := percent_reads l (fun x hx => h x (by simp [hx]))
    rw [allOk, percentR]
    constructor
    · intro h
      cases r with
      | error e => cases h
      | ok t => cases hl : allOk percentR l with
        | error e => simp [hl] at h
        | ok us =>
          simp only [hl, Except.ok.injEq] at h
          subst h
          exact .cons (.plain t) ((ih us).1 hl)
    · intro h
      cases h with
      | @cons _ t _ us ha hl => cases ha; simp [(ih us).2 hl]

theorem callMsg_written (name : Str) (args : List Arg) (kwargs : List (Str × Arg)) (h : ∀ a ∈ args, ∃ r, a = .plain r) (m : Str) :
    callMsg name args kwargs = .ok m ↔ Written name args kwargs m := by
  rw [callMsg]
  constructor
  · intro hm
    cases ha : allOk percentR args with
    | error e => simp [ha] at hm
    | ok ts => cases hk : allOk keyword kwargs with
      | error e => simp [ha, hk] at hm
      | ok ks =>
        simp only [ha, hk, Except.ok.injEq] at hm
        subst hm
        simpa [commas_row] using Written.mk (name := name) ((percent_reads args h ts).1 ha) ((keyword_keyed kwargs ks).1 hk)
  · intro hw
    cases hw with
    | @mk ts ks ha hk => simp [(percent_reads args h ts).2 ha, (keyword_keyed kwargs ks).2 hk, commas_row]

/-- **C332**, what holds: without tuples among the arguments given by position, the log begins with the call as it is written;
if it cannot be written, nothing is logged. -/
theorem C332_message_partial {σ α} (method : σ → Res α × σ) (c : Call) (s : σ) (o : Owner) (r : Str)
    (ho : c.owner = some o) (hl : o.logger = true) (hr : o.repr = .ok r) (h : ∀ a ∈ c.args, ∃ r, a = .plain r) :
    (∀ m, (logExceptions method c s).2.2.head? = some (.debug m) ↔ Written (r ++ ".".toList ++ c.name) c.args c.kwargs m) ∧
    ∀ m e, .error m e ∈ (logExceptions method c s).2.2 → Written (r ++ ".".toList ++ c.name) c.args c.kwargs m := by
  have hm : ∀ m, ownerMsg o c = .ok m ↔ Written (r ++ ".".toList ++ c.name) c.args c.kwargs m := by
    intro m
    rw [← callMsg_written _ _ _ h, ownerMsg, hr]
    simp
  cases ho' : ownerMsg o c with
  | error e =>
    have : (logExceptions method c s).2.2 = [] := by
      simp only [logExceptions, subject, ho, debugEntry, handle, hl, ho', if_true]
    rw [this]
    refine ⟨fun m => ⟨by simp, fun hw => ?_⟩, by simp⟩
    rw [← hm, ho'] at hw
    cases hw
  | ok m' =>
    have hw := (hm m').1 ho'
    have hu : ∀ m, Written (r ++ ".".toList ++ c.name) c.args c.kwargs m ↔ m' = m := by
      intro m; rw [← hm, ho']; simp
    have hlog : (logExceptions method c s).2.2 = match (method s).1 with
        | .ok _ => [.debug m']
        | .error e => [.debug m', .error m' e] := by
      simp only [logExceptions, subject, ho, debugEntry, handle, hl, ho', if_true]
      cases method s with
      | mk r s1 => cases r <;> simp
    rw [hlog]
    cases (method s).1 with
    | ok a =>
      simp only [hu]
      simp
    | error e =>
      simp only [hu]
      simp

/-- The same for the initialisation of an object. -/
theorem C332_init_partial {σ α} (init : σ → Res α × σ) (name : Str) (args : List Arg) (kwargs : List (Str × Arg)) (s : σ)
    (h : ∀ a ∈ args, ∃ r, a = .plain r) (m : Str) :
    (logInit init true name args kwargs s).2.2.head? = some (.info m) ↔ Written name args kwargs m := by
  rw [← callMsg_written name args kwargs h, logInit, if_pos rfl]
  cases callMsg name args kwargs with
  | error e => simp
  | ok m' => cases init s with
    | mk r s1 => cases r <;> simp

theorem allOk_swap {α β} (f : α → Res β) (a b : α) (h : f a = f b) : ∀ (pre post : List α),
    allOk f (pre ++ a :: post) = allOk f (pre ++ b :: post)
  | [], post => by simp [allOk, h]
  | x :: pre, post => by simp [allOk, allOk_swap f a b h pre post]

/-- **C332** fails: a tuple of one item is logged as its item, so that these calls cannot be told apart. -/
theorem C332_tuple_violated {σ α} (method : σ → Res α × σ) (c : Call) (s : σ) (r : Res Str) (pre post : List Arg) :
    (logExceptions method { c with args := pre ++ .tuple [.plain r] :: post } s).2.2 =
      (logExceptions method { c with args := pre ++ .plain r :: post } s).2.2 := by
  have hm : ∀ o : Owner, ownerMsg o { c with args := pre ++ .tuple [.plain r] :: post } =
      ownerMsg o { c with args := pre ++ .plain r :: post } := by
    intro o
    have : allOk percentR (pre ++ .tuple [.plain r] :: post) = allOk percentR (pre ++ .plain r :: post) :=
      allOk_swap percentR (.tuple [.plain r]) (.plain r) (by simp [percentR, Arg.repr]) pre post
    simp only [ownerMsg, callMsg, this]
  simp only [logExceptions, subject, debugEntry, handle, hm]

example : Written "o.f".toList [.plain (.ok "1".toList)] [("k".toList, .tuple [.plain (.ok "2".toList)])] "o.f(1, k=(2,))".toList :=
  .mk (.cons (.plain _) .nil) (.cons (.one (.plain _)) .nil)

example : (logExceptions (fun s => (.ok 7, s + 1)) { sampleCall with kwargs := [("k".toList, .tuple [.plain (.ok "2".toList)])] } 0 : Res Nat × Nat × _).2.2 =
    [.debug "o.f(1, k=(2,))".toList] ∧
    (logExceptions (fun s => (.ok 7, s + 1)) { sampleCall with args := [.tuple [.plain (.ok "1".toList)]] } 0 : Res Nat × Nat × _).2.2 =
    [.debug "o.f(1, k=())".toList] := ⟨rfl, rfl⟩

end Verif.Show
