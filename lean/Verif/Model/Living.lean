import Verif.Py
/-
Model of the sessions that are alive, known by their numbers: /repo/ngoschema/session.py 22-36, 42-48, 258-260, over the
counter of utils.py 632-646 (Model/Counter.lean).

Sessions are made by threads; what a thread does between two steps on shared data is left out. A step of the counter is
atomic (it holds its lock), and so is one operation on the weak dictionary (a single operation on a dict). A session
disappears from it when nothing refers to it any more: at any time.
-/
namespace Verif.Living

/-- The next number of the counter, the number each thread that is making a session holds, and the weak dictionary
`_sessions` of sessions `σ`. -/
structure St (σ : Type) where
  next : Nat
  held : Nat → Option Nat
  alive : AList Nat σ

/-- session.py 22-24. -/
def start {σ : Type} : St σ := ⟨1, fun _ => none, []⟩

/-- The steps: thread `t` takes a number (47), puts its session under it (48); the session with a number is collected. -/
inductive Step (σ : Type) where
  | take (t : Nat)
  | put (t : Nat) (o : σ)
  | collect (n : Nat)

/-- One step. A thread takes a number for each session it makes. -/
def step {σ : Type} (s : St σ) : Step σ → St σ
  | .take t => { s with next := s.next + 1, held := fun t' => if t' = t then some s.next else s.held t' }
  | .put t o => match s.held t with
    | none => s
    | some n => { s with held := fun t' => if t' = t then none else s.held t', alive := AList.set s.alive n o }
  | .collect n => { s with alive := AList.erase s.alive n }

/-- Any interleaving. -/
def run {σ : Type} (s : St σ) (l : List (Step σ)) : St σ := l.foldl step s

/-- session.py 27-36 `_state_session`: the session with the number that a state has. -/
def stateSession {σ : Type} (s : St σ) (id : Option Nat) : Option σ :=
  match id with
  | none => none
  | some 0 => none
  | some n => AList.get? s.alive n

/-- session.py 258-260 `close_all_sessions`: the sessions that are closed. -/
def closeAll {σ : Type} (s : St σ) : List σ := s.alive.map Prod.snd

end Verif.Living
