/-!
# Requests for samples on their way to the loading threads

A note that needs a sample asks the pool for it (`FilePool::getFilePromise`, FilePool.cpp:432-458):
the request goes into the queue `filesToLoad`, and the semaphore `dispatchBarrier` is posted.  One
thread (`FilePool::dispatchingJob`, FilePool.cpp:563-583) waits on the semaphore and takes the
requests out of the queue.

The queue is `atomic_queue::AtomicQueue2` (external/atomic_queue/include/atomic_queue/atomic_queue.h),
with its several atomic operations kept apart, so that the threads mix in every way.  Simplified:
memory is sequentially consistent; the counters `head_` and `tail_` do not wrap around at 2^32;
`remap_index`, which permutes the slots, is left out; the loads that only wait for a change are
not steps; the mutex `loadingJobsMutex` and signals that interrupt the waiting for the semaphore
(RTSemaphore.cpp:246-256, which waits again) only delay the thread.
-/

namespace Verif.Requests

/-- Replace one value. -/
def put {ι α : Type} [DecidableEq ι] (f : ι → α) (i : ι) (x : α) : ι → α := fun j => if j = i then x else f j

/-- A slot of the queue: `State` (atomic_queue.h:199) with the element. -/
inductive Slot where
  | empty
  | storing
  | stored (r : Nat)
  | loading (r : Nat)
deriving DecidableEq, Repr

/-- Where a requesting thread is; `h` is the value of `head_` it has, `r` its request. -/
inductive Caller where
  /-- not in `getFilePromise` -/
  | idle
  /-- `head_` is read (atomic_queue.h:255) -/
  | loaded (h r : Nat)
  /-- the queue was not full (263-264) -/
  | checked (h r : Nat)
  /-- `head_` is increased (265), waiting for the slot to be empty (237-247) -/
  | reserved (h r : Nat)
  /-- the slot is being written (240) -/
  | storing (h r : Nat)
  /-- `try_push` has succeeded, before the post (FilePool.cpp:453) -/
  | pushed
deriving DecidableEq, Repr

/-- Where the dispatching thread is. -/
inductive Worker where
  /-- in `dispatchBarrier.wait()` (FilePool.cpp:565) -/
  | waiting
  /-- the semaphore is decreased, before the test of `dispatchFlag` -/
  | woken
  /-- in `try_pop` (FilePool.cpp:569, atomic_queue.h:274) -/
  | looking
  /-- the queue was not empty (atomic_queue.h:282) -/
  | found
  /-- `tail_` is increased (284), waiting for the slot to be stored (212-222) -/
  | claimed (t : Nat)
  /-- the slot is being read (215) -/
  | loading (t : Nat)
  /-- the function has returned -/
  | ended
deriving DecidableEq, Repr

/-- The state, with `threads` threads that may make requests. -/
structure State (threads : Nat) where
  head : Nat := 0
  tail : Nat := 0
  slots : Nat → Slot := fun _ => .empty
  callers : Fin threads → Caller := fun _ => .idle
  worker : Worker := .waiting
  /-- the value of `dispatchBarrier` -/
  count : Nat := 0
  /-- `dispatchFlag` (FilePool.h:350) -/
  flag : Bool := true
  /-- the destructor has posted (FilePool.cpp:162) -/
  closed : Bool := false
  /-- the requests accepted so far, in the order of their acceptance -/
  accepted : List Nat := []
  /-- the requests that found the queue full -/
  refused : List Nat := []
  /-- the requests the dispatching thread has taken, in this order: each is given to the thread pool
  (FilePool.cpp:574-575) unless its region is gone (570-572) -/
  taken : List Nat := []

/-- The steps of the threads. -/
inductive Action (threads : Nat) where
  | call (p : Fin threads) (r : Nat)
  | check (p : Fin threads)
  | reserve (p : Fin threads)
  | start (p : Fin threads)
  | store (p : Fin threads)
  | post (p : Fin threads)
  | wait
  | test
  | look
  | claim
  | lift
  | take
  | lower
  | close
deriving DecidableEq, Repr

/-- One step, with a queue of `size` slots; `none` if the thread is elsewhere or has to wait. -/
def step {threads : Nat} (size : Nat) (s : State threads) : Action threads → Option (State threads)
  -- atomic_queue.h:255
  | .call p r => match s.callers p with
    | .idle => some { s with callers := put s.callers p (.loaded s.head r) }
    | _ => none
  -- atomic_queue.h:263-264
  | .check p => match s.callers p with
    | .loaded h r =>
      if (h : Int) - s.tail ≥ size then some { s with callers := put s.callers p .idle, refused := s.refused ++ [r] }
      else some { s with callers := put s.callers p (.checked h r) }
    | _ => none
  -- atomic_queue.h:265: if it fails, `head` is read again
  | .reserve p => match s.callers p with
    | .checked h r =>
      if s.head = h then
        some { s with head := h + 1, callers := put s.callers p (.reserved h r), accepted := s.accepted ++ [r] }
      else some { s with callers := put s.callers p (.loaded s.head r) }
    | _ => none
  -- atomic_queue.h:239
  | .start p => match s.callers p with
    | .reserved h r =>
      if s.slots (h % size) = .empty then
        some { s with slots := put s.slots (h % size) .storing, callers := put s.callers p (.storing h r) }
      else none
    | _ => none
  -- atomic_queue.h:240-242
  | .store p => match s.callers p with
    | .storing h r =>
      some { s with slots := put s.slots (h % size) (.stored r), callers := put s.callers p .pushed }
    | _ => none
  -- FilePool.cpp:453
  | .post p => match s.callers p with
    | .pushed => some { s with callers := put s.callers p .idle, count := s.count + 1 }
    | _ => none
  -- FilePool.cpp:565, RTSemaphore.cpp:246-256
  | .wait => match s.worker with
    | .waiting => if 0 < s.count then some { s with worker := .woken, count := s.count - 1 } else none
    | _ => none
  -- FilePool.cpp:565
  | .test => match s.worker with
    | .woken => some { s with worker := if s.flag then .looking else .ended }
    | _ => none
  -- atomic_queue.h:274, 282-283: nobody else takes from the queue
  | .look => match s.worker with
    | .looking => some { s with worker := if (s.head : Int) - s.tail ≤ 0 then .waiting else .found }
    | _ => none
  -- atomic_queue.h:284
  | .claim => match s.worker with
    | .found => some { s with worker := .claimed s.tail, tail := s.tail + 1 }
    | _ => none
  -- atomic_queue.h:214
  | .lift => match s.worker with
    | .claimed t => match s.slots (t % size) with
      | .stored r => some { s with worker := .loading t, slots := put s.slots (t % size) (.loading r) }
      | _ => none
    | _ => none
  -- atomic_queue.h:215-217, FilePool.cpp:569-582
  | .take => match s.worker with
    | .loading t => match s.slots (t % size) with
      | .loading r => some { s with worker := .waiting, slots := put s.slots (t % size) .empty, taken := s.taken ++ [r] }
      | _ => none
    | _ => none
  -- FilePool.cpp:161
  | .lower => some { s with flag := false }
  -- FilePool.cpp:162
  | .close => if s.flag = false ∧ s.closed = false then some { s with closed := true, count := s.count + 1 } else none

/-- Any number of steps. -/
def run {threads : Nat} (size : Nat) (s : State threads) : List (Action threads) → Option (State threads)
  | [] => some s
  | a :: as => match step size s a with
    | some s' => run size s' as
    | none => none

/-- The states that can occur. -/
def Reachable {threads : Nat} (size : Nat) (s : State threads) : Prop :=
  ∃ as : List (Action threads), run size {} as = some s

end Verif.Requests
