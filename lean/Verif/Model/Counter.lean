import Verif.Py
/-
Model of `threadsafe_counter`, utils.py 632-647, under every interleaving of threads.
-/
namespace Verif.Counter

/-- Where a thread is inside `_next()` (utils.py 639-645). `next(counter)` is split into a read and a
write, a finer grain than the interpreter's, so that nothing but the lock provides atomicity. -/
inductive PC where
  /-- not inside a call -/
  | idle
  /-- at line 640, `lock.acquire()` -/
  | acquire
  /-- at line 642, `next(counter)`, reading the current value -/
  | read
  /-- at line 642, having read `v`, about to store `v + 1` -/
  | write (v : Int)
  /-- at line 644, `lock.release()`, with the value to return -/
  | release (v : Int)
  /-- after the `finally` block, about to return `v` to the caller -/
  | ret (v : Int)
  deriving Repr, DecidableEq

/-- The shared state (lines 635-636), the threads, and the values returned so far, oldest first. -/
structure State where
  lock : Option Nat
  counter : Int
  threads : List PC
  returned : List Int
  deriving Repr, DecidableEq

/-- Lines 635-636: a counter starting at `init`, `n` threads, nobody calling. -/
def start (n : Nat) (init : Int) : State := ⟨none, init, List.replicate n .idle, []⟩

/-- One step of thread `t`; `none` when it is blocked (or does not exist). Lines 639-645. -/
def step (s : State) (t : Nat) : Option State :=
  match s.threads[t]? with
  | none => none
  | some .idle => some { s with threads := s.threads.set t .acquire }
  | some .acquire =>
    match s.lock with
    | some _ => none
    | none => some { s with lock := some t, threads := s.threads.set t .read }
  | some .read => some { s with threads := s.threads.set t (.write s.counter) }
  | some (.write v) => some { s with counter := v + 1, threads := s.threads.set t (.release v) }
  | some (.release v) => some { s with lock := none, threads := s.threads.set t (.ret v) }
  | some (.ret v) => some { s with threads := s.threads.set t .idle, returned := s.returned ++ [v] }

/-- A schedule is a list of thread numbers; a blocked thread does nothing when it is chosen. -/
def run (s : State) (sched : List Nat) : State :=
  sched.foldl (fun s t => (step s t).getD s) s

end Verif.Counter
