import Verif.Lemmas.Blocks
/-
C24: working_directory; C25: casted_as.
-/
namespace Verif.Blocks

/-! ### C24 -/

/-- Whatever the body does and however it ends, the directory of entry is the current one again, as long
as it still exists; what escapes is what the body raised; apart from the current directory the state is
the one the body left. -/
theorem C24_working_directory (mro : Nat → List Nat) (p : Nat) (body : Prog) (s s1 : State)
    (exc : Option Exc) (hp : p ∈ s.dirs) (hb : exec mro body { s with cwd := p } = (s1, exc))
    (hex : s.cwd ∈ s1.dirs) :
    exec mro (.withDir p body) s = ({ s1 with cwd := s.cwd }, exc) := by
  simp [exec, chdir, hp, hb, hex]

/-- A directory that cannot be entered: nothing changes and the body is not run. -/
theorem C24_refused (mro : Nat → List Nat) (p : Nat) (body : Prog) (s : State) (hp : p ∉ s.dirs) :
    exec mro (.withDir p body) s = (s, some .exception) := by
  simp [exec, chdir, hp]

/-- If the body removed the directory, the block ends with an error where the body ended, and an exception of the body is
lost. -/
theorem C24_gone (mro : Nat → List Nat) (p : Nat) (body : Prog) (s s1 : State) (exc : Option Exc) (hp : p ∈ s.dirs)
    (hb : exec mro body { s with cwd := p } = (s1, exc)) (hex : s.cwd ∉ s1.dirs) :
    exec mro (.withDir p body) s = (s1, some .exception) := by simp [exec, chdir, hp, hb, hex]

/-- For example when the body is just this. -/
theorem C24_removed (mro : Nat → List Nat) (p : Nat) (s : State) (hp : p ∈ s.dirs) :
    ∃ t, exec mro (.withDir p (.rmdir s.cwd)) s = (t, some .exception) ∧ t.cwd = p ∧
      ∀ d, d ∈ t.dirs ↔ d ∈ s.dirs ∧ d ≠ s.cwd :=
  ⟨⟨p, s.dirs.filter (· ≠ s.cwd), s.cls⟩, by simp [exec, chdir, hp], rfl, fun d => by simp⟩

example : exec (fun _ => []) (.withDir 1 (.rmdir 0)) ⟨0, [0, 1], 0⟩ = (⟨1, [1], 0⟩, some .exception) := by decide +kernel

/-- Nested to any depth, with exceptions raised, caught or escaping anywhere: a program that changes
directory only through such blocks ends where it started. -/
theorem C24_nested (mro : Nat → List Nat) (p : Prog) (ht : Tidy p) (s : State) (h : s.cwd ∈ s.dirs) :
    (exec mro p s).1.cwd = s.cwd := (tidy_dirs mro p ht s h).1

example : let s : State := ⟨0, [0, 1, 2], 0⟩;
    exec (fun _ => []) (.withDir 1 (.seq (.withDir 2 (.seq (.chdir 1) (.raise .valueError))) .pass)) s =
      (s, some .valueError) ∧
    Tidy (.attempt (.withDir 1 (.withDir 2 (.raise .keyError))) .pass) := by
  constructor
  · decide +kernel
  · simp [Tidy]

/-! ### C25 -/

/-- The full statement: after the block the instance has its class back, however the block ends. -/
def CastStatement : Prop :=
  ∀ (mro : Nat → List Nat) (c : Nat) (body : Prog) (s : State),
    (exec mro (.withCast c body) s).1.cls = s.cls

/-- It fails when the body raises: the instance keeps the other class. -/
theorem C25_casted_as_violated : ¬ CastStatement := by
  intro h
  have := h (fun _ => [1, 0]) 0 (.raise .valueError) ⟨0, [0], 1⟩
  revert this; decide +kernel

/-- What holds: a body that ends normally leaves the instance with its class back, whatever it did; the
body runs with the other class; a class that is not an ancestor is refused and nothing changes. -/
theorem C25_casted_as_partial (mro : Nat → List Nat) (c : Nat) (body : Prog) (s : State) :
    (c ∉ mro s.cls → exec mro (.withCast c body) s = (s, some .attributeError)) ∧
    (c ∈ mro s.cls → ∀ s1, exec mro body { s with cls := c } = (s1, none) →
      exec mro (.withCast c body) s = ({ s1 with cls := s.cls }, none)) ∧
    (c ∈ mro s.cls → ∀ s1 e, exec mro body { s with cls := c } = (s1, some e) →
      exec mro (.withCast c body) s = (s1, some e)) := by
  refine ⟨fun h => by simp [exec, h], fun h s1 hb => by simp [exec, h, hb],
    fun h s1 e hb => by simp [exec, h, hb]⟩

example : exec (fun _ => [1, 0]) (.withCast 0 (.withCast 1 .pass)) ⟨0, [0], 1⟩ = (⟨0, [0], 1⟩, none) := by
  decide +kernel

end Verif.Blocks
