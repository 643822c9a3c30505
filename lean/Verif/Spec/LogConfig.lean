import Verif.Model.LogConfig
/-
A configuration whose names lead somewhere, and what should become of the defaults.
-/
namespace Verif.LogConfig.Spec

/-- `d` is the section `name` of the configuration: a mapping, empty if it is not there. -/
def Section (cfg : AList Str Val) (name : String) (d : AList Str Val) : Prop :=
  AList.get? cfg name.toList = some (.dict d) ∨ AList.get? cfg name.toList = none ∧ d = []

/-- The handlers a logger names are among `hs`. -/
def LoggerSound (hs : AList Str Val) (v : Val) : Prop :=
  ∃ l, v = .dict l ∧ ∀ x, AList.get? l "handlers".toList = some x →
    (∃ ns, x = .list ns ∧ ∀ n ∈ ns, ∃ s, n = .str s ∧ s ∈ AList.keys hs) ∨ x.truthy = false

/-- The formatter a handler names is among `fs`. -/
def HandlerSound (fs : AList Str Val) (v : Val) : Prop :=
  ∃ h, v = .dict h ∧ ∀ x, AList.get? h "formatter".toList = some x →
    (∃ s, x = .str s ∧ s ∈ AList.keys fs) ∨ x.truthy = false

/-- Version 1, and every name leads somewhere. -/
def Sound (cfg : AList Str Val) : Prop :=
  AList.get? cfg "version".toList = some (.int 1) ∧ ∃ fs hs ls, Section cfg "formatters" fs ∧ Section cfg "handlers" hs
    ∧ Section cfg "loggers" ls ∧ (∀ p ∈ hs, HandlerSound fs p.2) ∧ (∀ p ∈ ls, LoggerSound hs p.2)
    ∧ ∀ r, AList.get? cfg "root".toList = some r → r.truthy = true → LoggerSound hs r

end Verif.LogConfig.Spec
