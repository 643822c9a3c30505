import Verif.Spec.LogConfig
/-
C363.
-/
namespace Verif.LogConfig
open LogConfig.Spec

theorem section_iff (cfg : Cfg) (name : String) (d : AList Str Val) :
    section? cfg name.toList = some d ↔ Section cfg name d := by
  unfold section? Section
  split
  next h => simp [h, eq_comm]
  next x h => simp [h]
  next v hne h =>
    simp only [h, Option.some.injEq, reduceCtorEq, false_and, or_false, false_iff]
    rintro rfl
    exact hne _ rfl

theorem handler_iff (fs : AList Str Val) (v : Val) : handlerOk fs v = true ↔ HandlerSound fs v := by
  unfold HandlerSound
  cases v with
  | dict h =>
    simp only [handlerOk, Val.dict.injEq, exists_eq_left']
    show _ ↔ ∀ x, AList.get? h formatter = some x → _
    cases hg : AList.get? h formatter with
    | none => simp
    | some x =>
      simp only [Option.some.injEq, forall_eq']
      cases x with
      | str s =>
        cases s with
        | nil => simp [Val.truthy]
        | cons c s => simp [Val.truthy, AList.contains_iff]
      | _ => simp
  | _ => simp [handlerOk]

theorem logger_iff (hs : AList Str Val) (v : Val) : loggerOk hs v = true ↔ LoggerSound hs v := by
  unfold LoggerSound
  cases v with
  | dict l =>
    simp only [loggerOk, Val.dict.injEq, exists_eq_left']
    show _ ↔ ∀ x, AList.get? l handlers = some x → _
    cases hg : AList.get? l handlers with
    | none => simp
    | some x =>
      simp only [Option.some.injEq, forall_eq']
      cases x with
      | list ns =>
        have hn : ∀ n, named hs n = true ↔ ∃ s, n = .str s ∧ s ∈ AList.keys hs := by
          intro n
          cases n <;> simp [named, AList.contains_iff]
        cases ns with
        | nil => simp [Val.truthy]
        | cons n ns => simp [Val.truthy, hn]
      | _ => simp
  | _ => simp [loggerOk]

theorem root_iff (hs : AList Str Val) (cfg : Cfg) : rootOk hs cfg = true
    ↔ ∀ r, AList.get? cfg "root".toList = some r → r.truthy = true → LoggerSound hs r := by
  unfold rootOk
  show _ ↔ ∀ r, AList.get? cfg root = some r → _
  cases AList.get? cfg root with
  | none => simp
  | some r =>
    simp only [Option.some.injEq, forall_eq', Bool.or_eq_true, logger_iff]
    cases r.truthy <;> simp

theorem dictConfig_iff (cfg : Cfg) : dictConfig cfg = .ok () ↔ Sound cfg := by
  unfold dictConfig Sound
  show _ ↔ AList.get? cfg version = _ ∧ _
  by_cases hv : AList.get? cfg version = some (.int 1)
  · simp only [hv, ne_eq, not_true_eq_false, if_false, true_and]
    constructor
    · intro h
      split at h
      next fs hs ls h1 h2 h3 =>
        split at h
        next hc =>
          simp only [Bool.and_eq_true, List.all_eq_true, handler_iff, logger_iff, root_iff] at hc
          exact ⟨fs, hs, ls, (section_iff ..).mp h1, (section_iff ..).mp h2, (section_iff ..).mp h3, hc.1.1, hc.1.2, hc.2⟩
        · cases h
      · cases h
    · rintro ⟨fs, hs, ls, h1, h2, h3, a, b, c⟩
      rw [show section? cfg formatters = some fs from (section_iff ..).mpr h1,
        show section? cfg handlers = some hs from (section_iff ..).mpr h2,
        show section? cfg loggers = some ls from (section_iff ..).mpr h3]
      dsimp only
      rw [if_pos]
      simp only [Bool.and_eq_true, List.all_eq_true, handler_iff, logger_iff, root_iff]
      exact ⟨⟨a, b⟩, c⟩
  · simp [hv]

theorem dictConfig_refuses (cfg : Cfg) (h : ¬ Sound cfg) : dictConfig cfg = .error .valueError := by
  have := mt (dictConfig_iff cfg).mp h
  revert this
  unfold dictConfig
  repeat' split
  all_goals simp_all

/-- Loading a file with a mapping gives, for each name at the top, what the file has for it, or else the default; it
succeeds exactly when all names in the outcome lead somewhere, and is refused with ValueError otherwise. -/
theorem C363_loaded_partial (dflt f : AList Str Val) (wf : AList.WF f) :
    ∃ r, (∀ k, AList.get? r k = (AList.get? f k).or (AList.get? dflt k)) ∧
      (Sound r → load dflt (.dict f) = .ok r) ∧ (¬ Sound r → load dflt (.dict f) = .error .valueError) := by
  refine ⟨AList.update dflt f, fun k => AList.get?_update dflt wf k, fun h => ?_, fun h => ?_⟩
  · simp only [load, combined, (dictConfig_iff _).mpr h]
  · simp only [load, combined, dictConfig_refuses _ h]

/-- Sections are not combined: what a default section has and that of the file has not is gone. -/
theorem C363_lost_violated (dflt f d d' : AList Str Val) (wf : AList.WF f) (k n : Str)
    (hf : AList.get? f k = some (.dict d')) (_hd : AList.get? dflt k = some (.dict d)) (_hn : n ∈ AList.keys d)
    (hn' : n ∉ AList.keys d') (r : AList Str Val) (hr : load dflt (.dict f) = .ok r) :
    ∃ e, AList.get? r k = some (.dict e) ∧ n ∉ AList.keys e := by
  obtain ⟨r', h1, h2, h3⟩ := C363_loaded_partial dflt f wf
  by_cases hs : Sound r'
  · rw [h2 hs] at hr
    cases hr
    exact ⟨d', by rw [h1, hf]; rfl, hn'⟩
  · rw [h3 hs] at hr
    cases hr

theorem default_loggers : AList.get? default "loggers".toList
    = some (.dict [([], .dict [(handlers, .list [.str console]), ("level".toList, .str "INFO".toList)])]) := by
  decide +kernel

theorem default_handlers : AList.get? ([(handlers, .list [.str console]), ("level".toList, .str "INFO".toList)] : AList Str Val)
    "handlers".toList = some (.list [.str console]) := by decide +kernel

/-- A file that gives handlers of its own, none of them `console`, and no loggers, is refused: the default root logger
names a handler that is gone. -/
theorem C363_handlers_violated (f hs : AList Str Val) (wf : AList.WF f)
    (hh : AList.get? f "handlers".toList = some (.dict hs)) (hc : "console".toList ∉ AList.keys hs)
    (hl : AList.get? f "loggers".toList = none) : load default (.dict f) = .error .valueError := by
  obtain ⟨r, h1, -, h3⟩ := C363_loaded_partial default f wf
  refine h3 ?_
  rintro ⟨-, fs, hs', ls, -, s2, s3, -, b, -⟩
  have e2 : AList.get? r "handlers".toList = some (.dict hs) := by rw [h1, hh]; rfl
  have e3 : AList.get? r "loggers".toList = _ := (by rw [h1, hl]; rfl : _ = AList.get? default "loggers".toList).trans default_loggers
  have : hs' = hs := by
    rcases s2 with s2 | ⟨s2, -⟩
    · rw [e2] at s2; cases s2; rfl
    · rw [e2] at s2; cases s2
  subst this
  have : ls = [([], .dict [(handlers, .list [.str console]), ("level".toList, .str "INFO".toList)])] := by
    rcases s3 with s3 | ⟨s3, -⟩
    · rw [e3] at s3
      exact (Val.dict.inj (Option.some.inj s3)).symm
    · rw [e3] at s3
      cases s3
  subst this
  obtain ⟨l, hl, hx⟩ := b _ (List.mem_singleton_self _)
  cases hl
  rcases hx (.list [.str console]) default_handlers with ⟨ns, e, hn⟩ | ht
  · cases e
    obtain ⟨s, e, hm⟩ := hn _ (List.mem_singleton_self _)
    cases e
    exact hc hm
  · cases ht

/-- An empty file is refused with TypeError. -/
theorem C363_empty_violated (dflt : AList Str Val) : load dflt .none = .error .typeError := rfl

/-- A file that changes neither the version nor any section with names leaves the defaults in force. -/
theorem C363_others_partial (f : AList Str Val) (wf : AList.WF f)
    (h : ∀ k ∈ ["version", "formatters", "handlers", "loggers", "root"], AList.get? f k.toList = none) :
    ∃ r, load default (.dict f) = .ok r ∧ ∀ k, AList.get? r k = (AList.get? f k).or (AList.get? default k) := by
  obtain ⟨r, h1, h2, -⟩ := C363_loaded_partial default f wf
  refine ⟨r, h2 ?_, h1⟩
  have e : ∀ k ∈ ["version", "formatters", "handlers", "loggers", "root"],
      AList.get? r k.toList = AList.get? default k.toList := by
    intro k hk
    rw [h1, h k hk]; rfl
  have hd : Sound default := (dictConfig_iff default).mp (by decide +kernel)
  unfold Sound Section at hd ⊢
  rw [e "version" (by simp), e "formatters" (by simp), e "handlers" (by simp), e "loggers" (by simp), e "root" (by simp)]
  exact hd

/-- A file with a handler of its own. -/
def file : AList Str Val := [(handlers, .dict [("file".toList, .dict [(formatter, .str "verbose".toList)])])]

/-- The same with a logger. -/
def file2 : AList Str Val := file ++ [(loggers, .dict [("a".toList, .dict [(handlers, .list [.str "file".toList])])])]

example : AList.WF file ∧ AList.get? file "handlers".toList = some (.dict [("file".toList, .dict [(formatter, .str "verbose".toList)])])
    ∧ load default (.dict file) = .error .valueError
    ∧ load default (.dict file2) = .ok (AList.update default file2)
    ∧ load default (.dict [("disable_existing_loggers".toList, .bool true)])
      = .ok (AList.set default "disable_existing_loggers".toList (.bool true))
    ∧ load default (.dict [(root, .dict [(handlers, .list [.str "x".toList])])]) = .error .valueError
    ∧ load default (.dict [(version, .int 2)]) = .error .valueError := by
  refine ⟨by unfold AList.WF; decide +kernel, ?_⟩
  decide +kernel

end Verif.LogConfig
