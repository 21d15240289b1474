import Verif.Model.Mutables

/-! Model of `scrappybara/utils/multithreading.py` as a small-step machine driven by an arbitrary schedule. -/

namespace Model
open Py

/-- One worker thread. `out` is the attribute `output_items`, which is only assigned when the list comprehension of
`run` has finished. A raising `process` ends the thread (python prints the traceback) with `output_items` still `[]`.
multithreading.py:6-16 -/
structure ThreadSt (α β : Type) where
  todo : List α
  acc : List β := []
  out : List β := []
  finished : Bool := false

/-- One atomic step of `_Thread.run`, multithreading.py:15-16 -/
def ThreadSt.step {α β} (process : α → Except PyErr β) (t : ThreadSt α β) : ThreadSt α β :=
  if t.finished then t
  else match t.todo with
    | [] => { t with out := t.acc, finished := true }
    | x :: xs => match process x with
      | .ok y => { t with todo := xs, acc := t.acc ++ [y] }
      | .error _ => { t with finished := true }

/-- State of `run_multithreads`: the threads, how many were started, how many were joined, the output list. -/
structure PoolSt (α β : Type) where
  threads : List (ThreadSt α β)
  started : Nat := 0
  joined : Nat := 0
  output : List β := []

/-- Who moves next: the calling thread or worker `i`. -/
inductive Move
  | main
  | worker (i : Nat)

/-- One step of the pool. The caller first starts every thread (multithreading.py:23-25), then joins them in order and
extends the output (multithreading.py:26-28); a join blocks until the thread has finished. -/
def PoolSt.step {α β} (process : α → Except PyErr β) (s : PoolSt α β) : Move → PoolSt α β
  | .main =>
    if s.started < s.threads.length then { s with started := s.started + 1 }
    else match s.threads[s.joined]? with
      | none => s
      | some t => if t.finished then { s with joined := s.joined + 1, output := s.output ++ t.out } else s
  | .worker i =>
    if i < s.started then { s with threads := s.threads.modify i (ThreadSt.step process) } else s

/-- Running a schedule. -/
def PoolSt.run {α β} (process : α → Except PyErr β) (s : PoolSt α β) (sched : List Move) : PoolSt α β :=
  sched.foldl (PoolSt.step process) s

/-- Initial state for the given slices. -/
def PoolSt.init {α β} (slices : List (List α)) : PoolSt α β :=
  { threads := slices.map fun l => { todo := l } }

/-- The call has returned: every thread is joined. -/
def PoolSt.returned {α β} (s : PoolSt α β) : Prop := s.started = s.threads.length ∧ s.joined = s.threads.length

instance {α β} (s : PoolSt α β) : Decidable s.returned := by unfold PoolSt.returned; infer_instance

/-- `run_multithreads` under a schedule: an error, `none` if the call has not returned yet, or the output list.
multithreading.py:19-29 -/
def runMultithreads {α β} (R : Rounding) (items : List α) (process : α → Except PyErr β) (nbThreads : Int)
    (sched : List Move) : Except PyErr (Option (List β)) := do
  let slices ← divideList R items nbThreads
  let s := (PoolSt.init slices).run process sched
  return if s.returned then some s.output else none

end Model
