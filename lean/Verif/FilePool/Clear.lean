/-!
# Clearing the pool while files are being requested

`Synth::Impl::clear` (Synth.cpp:262-316) waits for background loading, destroys the regions and
then the entries of the file pool.  The wait (`FilePool::waitForBackgroundLoading`,
FilePool.cpp:593-601) covers the jobs already handed to the thread pool, but not the requests
still in the queue `filesToLoad`, which the dispatching thread (FilePool.cpp:563-583) may turn
into jobs afterwards.  A job protects itself against removed regions only by locking the region's
`FileId` at its start (FilePool.cpp:484-488); the entry it then uses through a raw pointer
(FilePool.cpp:504, 529, 533, 535) belongs to the pool, not to the region.

One region, its entry, and any number of requests for it are modelled.
-/

namespace Verif.FilePool.Clear

/-- A job: handed to the thread pool; running (it has locked the `FileId`); finished. -/
inductive Job where
  | enqueued | running | finished
deriving DecidableEq, Repr

/-- Progress of `Synth::Impl::clear`: not begun; wait over (268); regions destroyed (285); pool
cleared (286 through `Resources::clearNonState`). -/
inductive Control where
  | before | waited | regionsGone | poolGone
deriving DecidableEq, Repr

structure State where
  /-- requests in `filesToLoad` -/
  queue : Nat := 0
  jobs : List Job := []
  control : Control := .before
  /-- the region, which owns the `FileId`, exists -/
  region : Bool := true
  /-- the `FileData` entry exists -/
  entry : Bool := true
  /-- a job has used the entry after its destruction -/
  bad : Bool := false
deriving DecidableEq, Repr

/-- The `FileId` exists: the region has it, or a running job has locked it. -/
def idAlive (s : State) : Bool := s.region || s.jobs.contains .running

inductive Action where
  /-- `getFilePromise` pushes a request (FilePool.cpp:445-455), before clearing begins -/
  | request
  /-- one turn of `dispatchingJob` (FilePool.cpp:566-576) -/
  | dispatch
  /-- the start of `loadingJob` (FilePool.cpp:484-488) -/
  | start (j : Nat)
  /-- any use of `data.data` by the job -/
  | touch (j : Nat)
  | finish (j : Nat)
  /-- `waitForBackgroundLoading`: returns once every known job is finished, and forgets them -/
  | wait
  /-- the same, only once no request is queued either: what the code would need -/
  | waitDrained
  | dropRegions
  | clearPool
deriving DecidableEq, Repr

def step (s : State) : Action → State
  | .request => if s.control = .before then { s with queue := s.queue + 1 } else s
  | .dispatch =>
    if s.queue = 0 then s
    else if idAlive s then { s with queue := s.queue - 1, jobs := s.jobs ++ [.enqueued] }
    else { s with queue := s.queue - 1 }
  | .start j =>
    if s.jobs[j]? = some .enqueued then
      { s with jobs := s.jobs.set j (if idAlive s then .running else .finished) }
    else s
  | .touch j =>
    if s.jobs[j]? = some .running ∧ s.entry = false then { s with bad := true } else s
  | .finish j =>
    if s.jobs[j]? = some .running then { s with jobs := s.jobs.set j .finished } else s
  | .wait =>
    if s.control = .before ∧ ∀ x ∈ s.jobs, x = .finished then
      { s with control := .waited, jobs := [] }
    else s
  | .waitDrained =>
    if s.control = .before ∧ s.queue = 0 ∧ ∀ x ∈ s.jobs, x = .finished then
      { s with control := .waited, jobs := [] }
    else s
  | .dropRegions =>
    if s.control = .waited then { s with control := .regionsGone, region := false } else s
  | .clearPool =>
    if s.control = .regionsGone then { s with control := .poolGone, entry := false } else s

def run (s : State) (as : List Action) : State := as.foldl step s

/-- The code's clearing can destroy an entry while a job uses it: a request is still queued when
the wait returns, the dispatcher and the job get past their tests before the regions are
destroyed, and the job uses the entry after the pool is cleared. -/
theorem clear_violated : ∃ as : List Action, .waitDrained ∉ as ∧ (run {} as).bad = true :=
  ⟨[.request, .wait, .dispatch, .start 0, .dropRegions, .clearPool, .touch 0], by decide, by decide⟩

/-- The wait of freewheeling rendering (Synth.cpp:1117-1118) has the same gap: it returns although
a requested file has not even begun to load. -/
theorem wait_violated : ∃ as : List Action,
    (run {} as).control = .waited ∧ 0 < (run {} as).queue :=
  ⟨[.request, .wait], by decide, by decide⟩

structure Inv (s : State) : Prop where
  good : s.bad = false
  after : s.control ≠ .before → s.queue = 0 ∧ s.jobs = []
  alive : s.control ≠ .poolGone → s.entry = true

theorem inv_step {s : State} (h : Inv s) {a : Action} (ha : a ≠ .wait) : Inv (step s a) := by
  obtain ⟨h1, h2, h3⟩ := h
  cases a with
  | request =>
    simp only [step]
    split
    · rename_i hc
      exact ⟨h1, fun hn => absurd hc hn, h3⟩
    · exact ⟨h1, h2, h3⟩
  | dispatch =>
    simp only [step]
    split
    · exact ⟨h1, h2, h3⟩
    · rename_i hq
      split
      · exact ⟨h1, fun hn => absurd (h2 hn).1 hq, h3⟩
      · exact ⟨h1, fun hn => absurd (h2 hn).1 hq, h3⟩
  | start j =>
    simp only [step]
    split
    · rename_i hj
      refine ⟨h1, fun hn => ?_, h3⟩
      have := (h2 hn).2
      rw [this] at hj
      simp at hj
    · exact ⟨h1, h2, h3⟩
  | touch j =>
    simp only [step]
    split
    · rename_i hj
      exfalso
      have hgone : s.control = .poolGone := by
        cases hc : s.control <;> first | rfl | (have := h3 (by rw [hc]; simp); simp_all)
      have := (h2 (by rw [hgone]; simp)).2
      rw [this] at hj
      simp at hj
    · exact ⟨h1, h2, h3⟩
  | finish j =>
    simp only [step]
    split
    · rename_i hj
      refine ⟨h1, fun hn => ?_, h3⟩
      have := (h2 hn).2
      rw [this] at hj
      simp at hj
    · exact ⟨h1, h2, h3⟩
  | wait => exact absurd rfl ha
  | waitDrained =>
    simp only [step]
    split
    · rename_i hc
      exact ⟨h1, fun _ => ⟨hc.2.1, rfl⟩, fun _ => h3 (by rw [hc.1]; simp)⟩
    · exact ⟨h1, h2, h3⟩
  | dropRegions =>
    simp only [step]
    split
    · rename_i hc
      exact ⟨h1, fun _ => h2 (by rw [hc]; simp), fun _ => h3 (by rw [hc]; simp)⟩
    · exact ⟨h1, h2, h3⟩
  | clearPool =>
    simp only [step]
    split
    · rename_i hc
      exact ⟨h1, fun _ => h2 (by rw [hc]; simp), fun hn => absurd rfl hn⟩
    · exact ⟨h1, h2, h3⟩

/-- Missing for the full claim: the code's own wait (`clear_violated`).  If clearing begins when
no request is queued, no job ever uses a destroyed entry, for every interleaving and any number of
requests. -/
theorem clear_safe_partial (as : List Action) (h : Action.wait ∉ as) : (run {} as).bad = false := by
  suffices H : ∀ s, Inv s → Inv (run s as) from
    (H {} ⟨rfl, fun hn => absurd rfl hn, fun _ => rfl⟩).good
  intro s hs
  induction as generalizing s with
  | nil => exact hs
  | cons a as ih =>
    exact ih (fun hm => h (List.mem_cons_of_mem _ hm)) _
      (inv_step hs (fun ha => h (ha ▸ List.mem_cons_self)))

/-- A schedule in which a job runs to its end before the pool is cleared. -/
example : let as : List Action := [.request, .dispatch, .start 0, .touch 0, .waitDrained, .finish 0,
    .waitDrained, .dropRegions, .clearPool]
    Action.wait ∉ as ∧ (run {} as).control = .poolGone := by decide

end Verif.FilePool.Clear
