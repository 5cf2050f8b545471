/-!
# The threads that load samples

`ThreadPool` (external/threadpool/ThreadPool.h:12-110): threads take tasks from a queue under a mutex, and wait on a condition
variable while there is none.  All accesses to `tasks` and `stop` are made with the mutex held, so what a thread does with the mutex
is one step; the notifications are made without it (96, 107) and are steps of their own.  A waiting thread may also wake up without
notification.  Simplified: a task is a number, and what it does is not modelled (FilePool/Model.lean does this for loading).
-/

namespace Verif.Workers

/-- Where a thread of the pool is. -/
inductive Worker where
  /-- about to take the mutex and to look for a task (ThreadPool.h:52-54) -/
  | ready
  /-- waiting for a notification (53) -/
  | sleeping
  /-- running a task (61) -/
  | running (t : Nat)
  /-- returned (56) -/
  | ended
deriving DecidableEq, Repr

/-- How far the destructor is. -/
inductive Phase where
  | alive
  /-- `stop` is set (ThreadPool.h:104-105) -/
  | stopped
  /-- everyone is notified (107) -/
  | notified
deriving DecidableEq, Repr

structure State (threads : Nat) where
  tasks : List Nat := []
  workers : Fin threads → Worker := fun _ => .ready
  phase : Phase := .alive
  /-- tasks whose notification (ThreadPool.h:96) is still to come -/
  due : Nat := 0
  /-- the tasks given to the pool so far -/
  accepted : List Nat := []
  /-- the tasks begun so far -/
  begun : List Nat := []
  /-- the tasks completed so far -/
  done : List Nat := []

inductive Action (threads : Nat) where
  /-- `enqueue`, up to the release of the mutex (ThreadPool.h:82-95) -/
  | enqueue (t : Nat)
  /-- `notify_one` (96) wakes this thread -/
  | notify (w : Fin threads)
  /-- `notify_one` finds nobody waiting -/
  | notifyNone
  /-- the thread wakes up without reason -/
  | spurious (w : Fin threads)
  /-- the thread looks for a task (52-59) -/
  | enter (w : Fin threads)
  /-- the task ends (61) -/
  | finish (w : Fin threads)
  /-- the destructor sets `stop` (104-105) -/
  | stop
  /-- the destructor notifies everyone (107) -/
  | notifyAll
deriving DecidableEq, Repr

/-- Replace one value. -/
def put {ι α : Type} [DecidableEq ι] (f : ι → α) (i : ι) (x : α) : ι → α := fun j => if j = i then x else f j

/-- One step; `none` if it is not possible. -/
def step {threads : Nat} (s : State threads) : Action threads → Option (State threads)
  -- ThreadPool.h:91-94: after `stop` an exception is thrown
  | .enqueue t =>
    if s.phase = .alive then some { s with tasks := s.tasks ++ [t], due := s.due + 1, accepted := s.accepted ++ [t] } else none
  | .notify w =>
    if 0 < s.due ∧ s.workers w = .sleeping then some { s with due := s.due - 1, workers := put s.workers w .ready } else none
  | .notifyNone =>
    if 0 < s.due ∧ ∀ w, s.workers w ≠ .sleeping then some { s with due := s.due - 1 } else none
  | .spurious w => if s.workers w = .sleeping then some { s with workers := put s.workers w .ready } else none
  | .enter w =>
    if s.workers w = .ready then
      match s.tasks with
      -- 53-54 not fulfilled, or 55-56
      | [] => some { s with workers := put s.workers w (if s.phase = .alive then .sleeping else .ended) }
      -- 57-58
      | t :: ts => some { s with workers := put s.workers w (.running t), tasks := ts, begun := s.begun ++ [t] }
    else none
  | .finish w => match s.workers w with
    | .running t => some { s with workers := put s.workers w .ready, done := s.done ++ [t] }
    | _ => none
  | .stop => if s.phase = .alive then some { s with phase := .stopped } else none
  | .notifyAll =>
    if s.phase = .stopped then
      some { s with phase := .notified, workers := fun w => if s.workers w = .sleeping then .ready else s.workers w }
    else none

/-- Any number of steps. -/
def run {threads : Nat} (s : State threads) : List (Action threads) → Option (State threads)
  | [] => some s
  | a :: as => match step s a with
    | some s' => run s' as
    | none => none

/-- The states that can occur. -/
def Reachable {threads : Nat} (s : State threads) : Prop := ∃ as : List (Action threads), run {} as = some s

end Verif.Workers
