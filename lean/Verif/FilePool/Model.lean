/-!
# The life of a sample's memory under concurrent threads

Models the protocol of `src/sfizz/FilePool.h` / `FilePool.cpp` around one `FileData` entry:
any number of holders (voices), any number of background loading jobs, the collection trigger
and the collecting thread.  Each access to a shared atomic variable is one step; the default
(sequentially consistent) memory order of the code makes every execution an interleaving of such
steps.

Simplifications, all of which only add behaviours: a job may be started at any time; the test of
the idle time may go either way; the collection may be tried on the entry whether or not it is in
`lastUsedFiles`; the stream may end after any chunk.  Entries do not share any of the variables
modelled except the lock.  Replacing the preloaded data, and clearing the pool, are not steps of
this model (the API forbids them during audio; see `FilePool/Clear.lean` for clearing).
-/

namespace Verif.FilePool

/-- FilePool.h:70 — `FileData::Status`. -/
inductive Status where
  | invalid | preloaded | streaming | done | collecting
deriving DecidableEq, Repr

/-- What the owner of a `FileDataHolder` is doing.
* `free`: the holder is empty.
* `held`: it counts in `readerCount` (FilePool.h:142-148).
* `sawOk`, `sawEnough`, `gotSpan`: inside `getData` (FilePool.h:77-84), after the test of the
  status, after the test of `availableFrames`, and after reading the pointers of `fileData`.
* `view b n`: reads the first `n` frames of the allocation `b`.
* `viewHead`: reads the preloaded data. -/
inductive Holder where
  | free | held | sawOk | sawEnough
  | gotSpan (buffer : Option Nat)
  | view (buffer : Option Nat) (frames : Nat)
  | viewHead
deriving DecidableEq, Repr

/-- A background job, FilePool.cpp:480-540.
* `idle`: no job. `begun`: before `status.load()` (504).
* `sawPreloaded`: before the compare-exchange (529).
* `taken`: has the token, before `output.reset(); …resize` (107-110).
* `streaming`: in the loop (117-141).  `wrote n`: `n` frames written, not yet published (139-140).
* `streamed`: before the status is set to `Done` (535).
* `finished`: before the lock of line 537.  `locked`: holds it. -/
inductive Loader where
  | idle | begun | sawPreloaded | taken | streaming
  | wrote (frames : Nat)
  | streamed | finished | locked
deriving DecidableEq, Repr

/-- `triggerGarbageCollection` on this entry, FilePool.cpp:657-713.
* `locked`: after `try_to_lock` (659). `counted`: `readerCount` was 0 (677), idle long enough.
* `loaded s`: status read (684). `willSwap s`: before the compare-exchange (696).
* `swapped s`: status is `GarbageCollecting` (696). `cleared s`: recheck found 0 readers (699).
* `zeroed`: `availableFrames = 0` done (700). `moved`: the data is in the garbage (701).
* `refused s`: recheck found a reader, before 705. `leaving`: before the unlock. -/
inductive Gc where
  | idle | locked | counted
  | loaded (s : Status) | willSwap (s : Status) | swapped (s : Status)
  | cleared | zeroed | moved
  | refused (s : Status)
  | leaving
deriving DecidableEq, Repr

/-- Who holds `garbageAndLastUsedMutex`. -/
inductive Owner where
  | gc | collector
  | loader (j : Nat)
deriving DecidableEq, Repr

structure State where
  status : Status := .invalid
  available : Nat := 0
  readers : Int := 0
  /-- frames of `preloadedData` -/
  head : Nat
  /-- the allocation behind `fileData`, and how many of its frames are written -/
  buffer : Option Nat := none
  written : Nat := 0
  nextId : Nat := 0
  /-- allocations in `garbageToCollect`, and those returned to the system -/
  garbage : List Nat := []
  freed : List Nat := []
  mutex : Option Owner := none
  holders : List Holder
  loaders : List Loader
  gc : Gc := .idle
  /-- `garbageJob` holds the lock -/
  collecting : Bool := false

/-- The steps of the threads; `i` is a holder and `j` a job. -/
inductive Action where
  | publishEntry
  | acquire (i : Nat) | release (i : Nat)
  | readStatus (i : Nat) | readAvailable (i : Nat) | readSpan (i : Nat) | sizeView (i : Nat)
  | dropView (i : Nat)
  | beginJob (j : Nat) | loadStatus (j : Nat) | takeToken (j : Nat) | allocate (j : Nat)
  | writeChunk (j n : Nat) | publishChunk (j : Nat) | endStream (j : Nat) | setDone (j : Nat)
  | lockJob (j : Nat) | unlockJob (j : Nat)
  | gcTryLock | gcCheckReaders (idleEnough : Bool) | gcLoadStatus | gcDecide | gcSwap | gcRecheck
  | gcZero | gcMove | gcRestore | gcFinish | gcUnlock
  | collectLock | collectClear | collectUnlock
deriving DecidableEq, Repr

def setHolder (s : State) (i : Nat) (h : Holder) : State := { s with holders := s.holders.set i h }

def setLoader (s : State) (j : Nat) (l : Loader) : State := { s with loaders := s.loaders.set j l }

/-- One step of a holder. -/
def holderStep (s : State) : Action → Option State
  -- FilePool.h:142-148, called from `getFilePromise` (FilePool.cpp:432-458)
  | .acquire i =>
    if s.holders[i]? = some .free then
      some { setHolder s i .held with readers := s.readers + 1 }
    else none
  -- FilePool.h:149-157
  | .release i =>
    if s.holders[i]? = some .held then
      some { setHolder s i .free with readers := s.readers - 1 }
    else none
  -- FilePool.h:80, first operand
  | .readStatus i =>
    if s.holders[i]? = some .held then
      if s.status ≠ .collecting then some (setHolder s i .sawOk) else some (setHolder s i .viewHead)
    else none
  -- FilePool.h:80, second operand
  | .readAvailable i =>
    if s.holders[i]? = some .sawOk then
      if s.available > s.head then some (setHolder s i .sawEnough)
      else some (setHolder s i .viewHead)
    else none
  -- FilePool.h:81: the pointers, then the size
  | .readSpan i =>
    if s.holders[i]? = some .sawEnough then some (setHolder s i (.gotSpan s.buffer)) else none
  | .sizeView i =>
    match s.holders[i]? with
    | some (.gotSpan b) => some (setHolder s i (.view b s.available))
    | _ => none
  -- the span goes out of scope at the end of the block
  | .dropView i =>
    match s.holders[i]? with
    | some (.view _ _) => some (setHolder s i .held)
    | some .viewHead => some (setHolder s i .held)
    | _ => none
  | _ => none

/-- One step of a loading job. -/
def loaderStep (s : State) : Action → Option State
  | .beginJob j =>
    if s.loaders[j]? = some .idle then some (setLoader s j .begun) else none
  -- FilePool.cpp:504-526; waiting on `Invalid` and `GarbageCollecting` is staying in place, leaving
  -- after too long on `Invalid` is not distinguished
  | .loadStatus j =>
    if s.loaders[j]? = some .begun then
      match s.status with
      | .invalid => some s
      | .collecting => some s
      | .preloaded => some (setLoader s j .sawPreloaded)
      | _ => some (setLoader s j .idle)
    else none
  -- FilePool.cpp:529-530
  | .takeToken j =>
    if s.loaders[j]? = some .sawPreloaded then
      if s.status = .preloaded then some { setLoader s j .taken with status := .streaming }
      else some (setLoader s j .begun)
    else none
  -- FilePool.cpp:107-110: `reset` frees what the buffer held
  | .allocate j =>
    if s.loaders[j]? = some .taken then
      some { setLoader s j .streaming with
        freed := s.buffer.toList ++ s.freed
        buffer := some s.nextId
        nextId := s.nextId + 1
        written := 0 }
    else none
  -- FilePool.cpp:131-135
  | .writeChunk j n =>
    if s.loaders[j]? = some .streaming then
      some { setLoader s j (.wrote n) with written := s.written + n }
    else none
  -- FilePool.cpp:139-140
  | .publishChunk j =>
    match s.loaders[j]? with
    | some (.wrote n) => some { setLoader s j .streaming with available := s.available + n }
    | _ => none
  | .endStream j =>
    if s.loaders[j]? = some .streaming then some (setLoader s j .streamed) else none
  -- FilePool.cpp:535
  | .setDone j =>
    if s.loaders[j]? = some .streamed then some { setLoader s j .finished with status := .done }
    else none
  -- FilePool.cpp:537-540
  | .lockJob j =>
    if s.loaders[j]? = some .finished ∧ s.mutex = none then
      some { setLoader s j .locked with mutex := some (.loader j) }
    else none
  | .unlockJob j =>
    if s.loaders[j]? = some .locked then some { setLoader s j .idle with mutex := none } else none
  | _ => none

/-- One step of the collection. -/
def gcStep (s : State) : Action → Option State
  | .gcTryLock =>
    if s.gc = .idle ∧ s.mutex = none then some { s with gc := .locked, mutex := some .gc } else none
  -- FilePool.cpp:677-682
  | .gcCheckReaders idleEnough =>
    if s.gc = .locked then
      if s.readers ≠ 0 ∨ idleEnough = false then some { s with gc := .leaving }
      else some { s with gc := .counted }
    else none
  | .gcLoadStatus =>
    if s.gc = .counted then some { s with gc := .loaded s.status } else none
  -- FilePool.cpp:685-693
  | .gcDecide =>
    match s.gc with
    | .loaded .preloaded =>
      if s.available = 0 then some { s with gc := .leaving }
      else some { s with gc := .willSwap .preloaded }
    | .loaded .done => some { s with gc := .willSwap .done }
    | .loaded _ => some { s with gc := .leaving }
    | _ => none
  -- FilePool.cpp:696
  | .gcSwap =>
    match s.gc with
    | .willSwap st =>
      if s.status = st then some { s with gc := .swapped st, status := .collecting }
      else some { s with gc := .leaving }
    | _ => none
  -- FilePool.cpp:698-699
  | .gcRecheck =>
    match s.gc with
    | .swapped st => some { s with gc := if s.readers = 0 then .cleared else .refused st }
    | _ => none
  -- FilePool.cpp:700-702
  | .gcZero => if s.gc = .cleared then some { s with gc := .zeroed, available := 0 } else none
  | .gcMove =>
    if s.gc = .zeroed then
      some { s with gc := .moved, garbage := s.buffer.toList ++ s.garbage, buffer := none }
    else none
  | .gcFinish =>
    if s.gc = .moved then some { s with gc := .leaving, status := .preloaded } else none
  -- FilePool.cpp:705
  | .gcRestore =>
    match s.gc with
    | .refused st => some { s with gc := .leaving, status := st }
    | _ => none
  | .gcUnlock =>
    if s.gc = .leaving then some { s with gc := .idle, mutex := none } else none
  | _ => none

/-- One step of `garbageJob`, FilePool.cpp:585-591. -/
def collectorStep (s : State) : Action → Option State
  | .collectLock =>
    if s.collecting = false ∧ s.mutex = none then
      some { s with collecting := true, mutex := some .collector }
    else none
  | .collectClear =>
    if s.collecting then some { s with freed := s.garbage ++ s.freed, garbage := [] } else none
  | .collectUnlock =>
    if s.collecting then some { s with collecting := false, mutex := none } else none
  | _ => none

/-- Any thread may move; `none` when the action is not possible now. -/
def step (s : State) (a : Action) : Option State :=
  match a with
  -- FilePool.cpp:350-352, by the control thread, once
  | .publishEntry => if s.status = .invalid then some { s with status := .preloaded } else none
  | a =>
    (holderStep s a).orElse fun _ =>
      (loaderStep s a).orElse fun _ => (gcStep s a).orElse fun _ => collectorStep s a

/-- A new entry with `head` preloaded frames, watched by any number of holders and jobs. -/
def init (head holders loaders : Nat) : State :=
  { head, holders := List.replicate holders .free, loaders := List.replicate loaders .idle }

/-- The states that some schedule leads to. -/
inductive Reachable (head holders loaders : Nat) : State → Prop where
  | start : Reachable head holders loaders (init head holders loaders)
  | next {s s' : State} (a : Action) : Reachable head holders loaders s → step s a = some s' →
      Reachable head holders loaders s'

/-- Runs a schedule, ignoring impossible actions. -/
def run (s : State) : List Action → State
  | [] => s
  | a :: as => run ((step s a).getD s) as

end Verif.FilePool
