import Verif.FilePool.Invariant

/-!
# Sample memory in use is never freed (C24)
-/

namespace Verif.FilePool

/-! ## Safety -/

/-- **C24.** For every number of voices and loading jobs and every interleaving of their steps with
those of the collection and the collecting thread: the memory a voice is reading is the current
memory of the sample, has not been put in the garbage nor freed, and all the frames the voice may
read have been written. -/
theorem view_safe {head holders loaders : Nat} {s : State} (h : Reachable head holders loaders s)
    {b : Option Nat} {n : Nat} (hv : Holder.view b n ∈ s.holders) :
    ∃ id, b = some id ∧ s.buffer = some id ∧ id ∉ s.garbage ∧ id ∉ s.freed ∧ n ≤ s.written := by
  have hi := inv_reachable h
  obtain ⟨_, hav, hb, hn⟩ := hi.holderOk _ hv
  have hne := hi.full hav
  obtain ⟨id, hid⟩ := Option.ne_none_iff_exists'.1 hne
  obtain ⟨_, hg, hf⟩ := hi.current id hid
  exact ⟨id, hb.trans hid, hid, hg, hf, hn⟩

/-- **C24**, seen from the collection: at the moment it takes the data away, or frees garbage, no
voice is reading it. -/
theorem taken_unused {head holders loaders : Nat} {s s' : State}
    (h : Reachable head holders loaders s) {a : Action} (ha : a = .gcMove ∨ a = .collectClear)
    (hs : step s a = some s') {b n : Nat} (hgone : b ∈ s'.garbage ∨ b ∈ s'.freed) :
    Holder.view (some b) n ∉ s'.holders := by
  intro hv
  obtain ⟨id, h1, _, h3, h4, _⟩ := view_safe (Reachable.next a h hs) hv
  cases h1
  rcases hgone with hg | hf
  · exact h3 hg
  · exact h4 hf

/-- **C24**, writers: at most one job at a time writes the sample, and none while the collection
owns it. -/
theorem single_writer {head holders loaders : Nat} {s : State}
    (h : Reachable head holders loaders s) {i j : Nat} {a b : Loader} (hi : s.loaders[i]? = some a)
    (hj : s.loaders[j]? = some b) (ha : active a = true) (hb : active b = true) :
    i = j ∧ gcBusy s.gc = false := by
  have hinv := inv_reachable h
  have hst := status_of_active hinv hi ha
  constructor
  · by_contra hne
    have hoth := others_not active s.loaders i a .idle hi ha (one_active hinv hst)
    have hmem : (s.loaders.set i .idle)[j]? = some b := by
      rw [List.getElem?_set_ne hne]
      exact hj
    rcases hoth b (List.mem_of_getElem? hmem) with rfl | hf
    · cases hb
    · rw [hb] at hf
      cases hf
  · have := hinv.busy
    rw [hst] at this
    simpa using this

/-! ## The lock around the garbage list -/

structure Locked (s : State) : Prop where
  gc : s.gc ≠ .idle → s.mutex = some .gc
  collector : s.collecting = true → s.mutex = some .collector
  loader : ∀ j, s.loaders[j]? = some .locked → s.mutex = some (.loader j)

theorem locked_set {s : State} (h : Locked s) {j : Nat} {l : Loader} (hl : l ≠ .locked) :
    ∀ k, (s.loaders.set j l)[k]? = some .locked → s.mutex = some (.loader k) := by
  intro k hk
  by_cases hjk : j = k
  · subst hjk
    rw [List.getElem?_set] at hk
    simp only [if_true] at hk
    split at hk
    · simp at hk
      exact absurd hk hl
    · cases hk
  · rw [List.getElem?_set_ne hjk] at hk
    exact h.loader k hk

theorem locked_holderStep {s s' : State} (hl : Locked s) {a : Action}
    (h : holderStep s a = some s') : Locked s' := by
  have key : s'.gc = s.gc ∧ s'.collecting = s.collecting ∧ s'.loaders = s.loaders ∧
      s'.mutex = s.mutex := by
    cases a <;> simp only [holderStep] at h <;> (try split at h) <;> (try split at h) <;>
      (try cases h) <;> exact ⟨rfl, rfl, rfl, rfl⟩
  obtain ⟨h1, h2, h3, h4⟩ := key
  exact ⟨by rw [h1, h4]; exact hl.gc, by rw [h2, h4]; exact hl.collector,
    by rw [h3, h4]; exact hl.loader⟩

theorem locked_loaderStep {s s' : State} (hl : Locked s) {a : Action}
    (h : loaderStep s a = some s') : Locked s' := by
  cases a with
  | lockJob j =>
    simp only [loaderStep] at h
    split at h
    · rename_i hh
      cases h
      refine ⟨?_, ?_, ?_⟩
      · intro hg
        have := hl.gc hg
        rw [hh.2] at this
        cases this
      · intro hg
        have := hl.collector hg
        rw [hh.2] at this
        cases this
      · intro k hk
        by_cases hjk : j = k
        · rw [hjk]
        · simp only [setLoader] at hk
          rw [List.getElem?_set_ne hjk] at hk
          have := hl.loader k hk
          rw [hh.2] at this
          cases this
    · cases h
  | unlockJob j =>
    simp only [loaderStep] at h
    split at h
    · rename_i hh
      cases h
      have hm := hl.loader j hh
      refine ⟨?_, ?_, ?_⟩
      · intro hg
        have := hl.gc hg
        rw [hm] at this
        cases this
      · intro hg
        have := hl.collector hg
        rw [hm] at this
        cases this
      · intro k hk
        have h1 := locked_set hl (j := j) (l := .idle) (by simp) k hk
        rw [hm] at h1
        cases h1
        simp only [setLoader] at hk
        rw [List.getElem?_set_self (by
          by_contra hge
          rw [List.getElem?_eq_none (by omega)] at hh
          cases hh)] at hk
        cases hk
    · cases h
  | loadStatus j =>
    simp only [loaderStep] at h
    split at h
    · split at h <;> cases h
      · exact hl
      · exact hl
      · exact ⟨hl.gc, hl.collector, locked_set hl (by simp)⟩
      · exact ⟨hl.gc, hl.collector, locked_set hl (by simp)⟩
    · cases h
  | takeToken j =>
    simp only [loaderStep] at h
    split at h
    · split at h <;> cases h
      · exact ⟨hl.gc, hl.collector, locked_set hl (by simp)⟩
      · exact ⟨hl.gc, hl.collector, locked_set hl (by simp)⟩
    · cases h
  | publishChunk j =>
    simp only [loaderStep] at h
    split at h
    · cases h
      exact ⟨hl.gc, hl.collector, locked_set hl (by simp)⟩
    · cases h
  | beginJob j =>
    simp only [loaderStep] at h
    split at h
    · cases h
      exact ⟨hl.gc, hl.collector, locked_set hl (by simp)⟩
    · cases h
  | allocate j =>
    simp only [loaderStep] at h
    split at h
    · cases h
      exact ⟨hl.gc, hl.collector, locked_set hl (by simp)⟩
    · cases h
  | writeChunk j n =>
    simp only [loaderStep] at h
    split at h
    · cases h
      exact ⟨hl.gc, hl.collector, locked_set hl (by simp)⟩
    · cases h
  | endStream j =>
    simp only [loaderStep] at h
    split at h
    · cases h
      exact ⟨hl.gc, hl.collector, locked_set hl (by simp)⟩
    · cases h
  | setDone j =>
    simp only [loaderStep] at h
    split at h
    · cases h
      exact ⟨hl.gc, hl.collector, locked_set hl (by simp)⟩
    · cases h
  | _ => simp [loaderStep] at h

theorem locked_gcStep {s s' : State} (hl : Locked s) {a : Action}
    (h : gcStep s a = some s') : Locked s' := by
  have keep : s'.mutex = s.mutex → s.gc ≠ .idle → s'.collecting = s.collecting →
      s'.loaders = s.loaders → Locked s' := by
    intro h1 h2 h3 h4
    exact ⟨fun _ => by rw [h1]; exact hl.gc h2, by rw [h1, h3]; exact hl.collector,
      by rw [h1, h4]; exact hl.loader⟩
  cases a with
  | gcTryLock =>
    simp only [gcStep] at h
    split at h
    · rename_i hh
      cases h
      refine ⟨fun _ => rfl, ?_, ?_⟩
      · intro hg
        have := hl.collector hg
        rw [hh.2] at this
        cases this
      · intro k hk
        have := hl.loader k hk
        rw [hh.2] at this
        cases this
    · cases h
  | gcUnlock =>
    simp only [gcStep] at h
    split at h
    · rename_i hh
      cases h
      have hm := hl.gc (by rw [hh]; simp)
      refine ⟨fun hc => absurd rfl hc, ?_, ?_⟩
      · intro hg
        have := hl.collector hg
        rw [hm] at this
        cases this
      · intro k hk
        have := hl.loader k hk
        rw [hm] at this
        cases this
    · cases h
  | gcCheckReaders e =>
    simp only [gcStep] at h
    split at h
    · split at h <;> cases h <;> exact keep rfl (by simp_all) rfl rfl
    · cases h
  | gcLoadStatus =>
    simp only [gcStep] at h
    split at h
    · cases h; exact keep rfl (by simp_all) rfl rfl
    · cases h
  | gcDecide =>
    simp only [gcStep] at h
    split at h
    · split at h <;> cases h <;> exact keep rfl (by simp_all) rfl rfl
    · cases h; exact keep rfl (by simp_all) rfl rfl
    · cases h; exact keep rfl (by simp_all) rfl rfl
    · cases h
  | gcSwap =>
    simp only [gcStep] at h
    split at h
    · split at h <;> cases h <;> exact keep rfl (by simp_all) rfl rfl
    · cases h
  | gcRecheck =>
    simp only [gcStep] at h
    split at h
    · cases h; exact keep rfl (by simp_all) rfl rfl
    · cases h
  | gcZero =>
    simp only [gcStep] at h
    split at h
    · cases h; exact keep rfl (by simp_all) rfl rfl
    · cases h
  | gcMove =>
    simp only [gcStep] at h
    split at h
    · cases h; exact keep rfl (by simp_all) rfl rfl
    · cases h
  | gcFinish =>
    simp only [gcStep] at h
    split at h
    · cases h; exact keep rfl (by simp_all) rfl rfl
    · cases h
  | gcRestore =>
    simp only [gcStep] at h
    split at h
    · cases h; exact keep rfl (by simp_all) rfl rfl
    · cases h
  | _ => simp [gcStep] at h

theorem locked_collectorStep {s s' : State} (hl : Locked s) {a : Action}
    (h : collectorStep s a = some s') : Locked s' := by
  cases a with
  | collectLock =>
    simp only [collectorStep] at h
    split at h
    · rename_i hh
      cases h
      refine ⟨?_, fun _ => rfl, ?_⟩
      · intro hg
        have := hl.gc hg
        rw [hh.2] at this
        cases this
      · intro k hk
        have := hl.loader k hk
        rw [hh.2] at this
        cases this
    · cases h
  | collectClear =>
    simp only [collectorStep] at h
    split at h
    · cases h
      exact ⟨hl.gc, hl.collector, hl.loader⟩
    · cases h
  | collectUnlock =>
    simp only [collectorStep] at h
    split at h
    · rename_i hh
      cases h
      have hm := hl.collector hh
      refine ⟨?_, fun hc => by simp at hc, ?_⟩
      · intro hg
        have := hl.gc hg
        rw [hm] at this
        cases this
      · intro k hk
        have := hl.loader k hk
        rw [hm] at this
        cases this
    · cases h
  | _ => simp [collectorStep] at h

theorem locked_reachable {head holders loaders : Nat} {s : State}
    (h : Reachable head holders loaders s) : Locked s := by
  induction h with
  | start =>
    refine ⟨by simp [init], by simp [init], ?_⟩
    intro j hj
    simp only [init] at hj
    rw [List.getElem?_replicate] at hj
    split at hj <;> cases hj
  | @next s s' a hr hstep ih =>
    have hany : ∀ b : Action, ((holderStep s b).orElse fun _ =>
        (loaderStep s b).orElse fun _ => (gcStep s b).orElse fun _ => collectorStep s b) = some s' →
        Locked s' := by
      intro b hb
      cases h1 : holderStep s b with
      | some x =>
        rw [h1] at hb
        cases hb
        exact locked_holderStep ih h1
      | none =>
        rw [h1] at hb
        cases h2 : loaderStep s b with
        | some x =>
          rw [h2] at hb
          cases hb
          exact locked_loaderStep ih h2
        | none =>
          rw [h2] at hb
          cases h3 : gcStep s b with
          | some x =>
            rw [h3] at hb
            cases hb
            exact locked_gcStep ih h3
          | none =>
            rw [h3] at hb
            exact locked_collectorStep ih hb
    cases a with
    | publishEntry =>
      simp only [step] at hstep
      split at hstep
      · cases hstep
        exact ⟨ih.gc, ih.collector, ih.loader⟩
      · cases hstep
    | _ =>
      simp only [step] at hstep
      exact hany _ hstep

/-- **C24**, the lists: the collection, the collecting thread and the jobs that finish never hold
the lock of the garbage and last-used lists together. -/
theorem lists_exclusive {head holders loaders : Nat} {s : State}
    (h : Reachable head holders loaders s) :
    ¬ (s.gc ≠ .idle ∧ s.collecting = true) ∧
    (∀ j : Nat, s.loaders[j]? = some Loader.locked → s.gc = .idle ∧ s.collecting = false) ∧
    (∀ j k : Nat, s.loaders[j]? = some Loader.locked → s.loaders[k]? = some Loader.locked → j = k) := by
  have hl := locked_reachable h
  refine ⟨?_, ?_, ?_⟩
  · rintro ⟨h1, h2⟩
    have a := hl.gc h1
    rw [hl.collector h2] at a
    cases a
  · intro j hj
    have a := hl.loader j hj
    constructor
    · by_contra hne
      rw [hl.gc hne] at a
      cases a
    · by_contra hne
      rw [hl.collector (by simpa using hne)] at a
      cases a
  · intro j k hj hk
    have a := hl.loader j hj
    rw [hl.loader k hk] at a
    cases a
    rfl

/-! ## Unused memory can be returned -/

/-- A complete collection followed by the collecting thread. -/
def fullCollection : List Action :=
  [.gcTryLock, .gcCheckReaders true, .gcLoadStatus, .gcDecide, .gcSwap, .gcRecheck, .gcZero, .gcMove,
    .gcFinish, .gcUnlock, .collectLock, .collectClear, .collectUnlock]

/-- **C24**, the other direction: a loaded sample that no voice holds is freed by an undisturbed
collection, and the entry is then ready to be loaded again. -/
theorem unused_collected {head holders loaders : Nat} {s : State} {b : Nat}
    (h : Reachable head holders loaders s) (hbuf : s.buffer = some b) (hst : s.status = .done)
    (hfree : ∀ x ∈ s.holders, x = .free) (hlock : s.mutex = none) :
    let s' := run s fullCollection
    b ∈ s'.freed ∧ s'.buffer = none ∧ s'.status = .preloaded ∧ s'.available = 0 ∧
      s'.mutex = none := by
  have hi := inv_reachable h
  have hl := locked_reachable h
  have hgc : s.gc = .idle := by
    by_contra hne
    have := hl.gc hne
    rw [hlock] at this
    cases this
  have hcol : s.collecting = false := by
    by_contra hne
    have := hl.collector (by simpa using hne)
    rw [hlock] at this
    cases this
  have hr : s.readers = 0 := by
    rw [hi.readers]
    have : s.holders.countP holding = 0 := by
      rw [List.countP_eq_zero]
      intro x hx
      rw [hfree x hx]
      simp [holding]
    simp [this]
  simp only [run, fullCollection]
  simp [step, holderStep, loaderStep, gcStep, collectorStep, hgc, hlock, hr, hst, hbuf, hcol]

/-! ## An execution -/

/-- One voice and two jobs: the sample is loaded by the first job while the second finds it taken,
the voice reads it while a collection is refused, then leaves. -/
def sampleSchedule : List Action :=
  [.publishEntry, .acquire 0, .beginJob 0, .beginJob 1, .loadStatus 0, .loadStatus 1, .takeToken 0,
    .takeToken 1, .allocate 0, .writeChunk 0 5, .readStatus 0, .publishChunk 0, .loadStatus 1,
    .readAvailable 0, .readSpan 0, .writeChunk 0 3, .sizeView 0]

example : (run (init 2 1 2) sampleSchedule).holders = [.view (some 0) 5] ∧
    (run (init 2 1 2) sampleSchedule).loaders = [.wrote 3, .idle] := by decide

theorem run_reachable {head holders loaders : Nat} {s : State}
    (h : Reachable head holders loaders s) (as : List Action) :
    Reachable head holders loaders (run s as) := by
  induction as generalizing s with
  | nil => exact h
  | cons a as ih =>
    rw [run]
    cases hs : step s a with
    | none => exact ih h
    | some s' => exact ih (Reachable.next a h hs)

/-- The hypotheses of `view_safe` are met. -/
example : ∃ s, Reachable 2 1 2 s ∧ Holder.view (some 0) 5 ∈ s.holders :=
  ⟨_, run_reachable .start sampleSchedule, by decide⟩

/-- … and those of `unused_collected`. -/
def leavingSchedule : List Action :=
  sampleSchedule ++ [.publishChunk 0, .endStream 0, .setDone 0, .lockJob 0, .unlockJob 0,
    .dropView 0, .release 0]

example : (run (init 2 1 2) leavingSchedule).buffer = some 0 ∧
    (run (init 2 1 2) leavingSchedule).status = .done ∧
    (run (init 2 1 2) leavingSchedule).holders = [.free] ∧
    (run (init 2 1 2) leavingSchedule).mutex = none := by decide

end Verif.FilePool
