import Mathlib.Tactic

/-!
# C156: synthesizers share their loading threads

`globalThreadPool` (FilePool.cpp:50-71) gives the pool of loading threads to each new synthesizer; the pool lives as long as a
synthesizer has it (`std::shared_ptr`), and is found again through `globalThreadPoolWeakPtr`.  Each of any number of threads creates
and destroys synthesizers.  The weak pointer is not atomic: reading it while another thread assigns it is undefined behaviour, so the
assignment (69) is modelled with a beginning and an end.
-/

namespace Verif.Workers.Sharing

/-- Where a thread is. -/
inductive Caller where
  /-- it has no synthesizer -/
  | outside
  /-- it reads the weak pointer without the mutex (FilePool.cpp:57) -/
  | reading
  /-- it waits for the mutex (61) -/
  | locking
  /-- it reads the weak pointer with the mutex (62) -/
  | rereading
  /-- it has made pool number `k` (68) and assigns the weak pointer (69) -/
  | writing (k : Nat)
  /-- it has a synthesizer with pool number `k` -/
  | owner (k : Nat)
deriving DecidableEq, Repr

structure State (threads : Nat) where
  callers : Fin threads → Caller := fun _ => .outside
  /-- the pool `globalThreadPoolWeakPtr` refers to -/
  weak : Option Nat := none
  /-- who has `globalThreadPoolMutex` -/
  mutex : Option (Fin threads) := none
  /-- how many pools have been made -/
  made : Nat := 0

/-- Thread `i` has pool `k`. -/
def Uses {threads : Nat} (s : State threads) (i : Fin threads) (k : Nat) : Prop := s.callers i = .owner k ∨ s.callers i = .writing k

instance {threads : Nat} (s : State threads) (i : Fin threads) (k : Nat) : Decidable (Uses s i k) := by unfold Uses; infer_instance

/-- `globalThreadPoolWeakPtr.lock()`: the pool, if someone has it. -/
def lock {threads : Nat} (s : State threads) : Option Nat :=
  match s.weak with
  | some k => if ∃ i, Uses s i k then some k else none
  | none => none

inductive Action (threads : Nat) where
  | create (i : Fin threads)
  | read (i : Fin threads)
  | lock (i : Fin threads)
  | reread (i : Fin threads)
  | wrote (i : Fin threads)
  | destroy (i : Fin threads)
deriving DecidableEq, Repr

/-- Replace one value. -/
def set {threads : Nat} (f : Fin threads → Caller) (i : Fin threads) (x : Caller) : Fin threads → Caller := fun j => if j = i then x else f j

/-- One step; `none` if it is not possible. -/
def step {threads : Nat} (s : State threads) : Action threads → Option (State threads)
  | .create i => if s.callers i = .outside then some { s with callers := set s.callers i .reading } else none
  -- FilePool.cpp:57-59
  | .read i =>
    if s.callers i = .reading then
      match lock s with
      | some k => some { s with callers := set s.callers i (.owner k) }
      | none => some { s with callers := set s.callers i .locking }
    else none
  -- FilePool.cpp:61
  | .lock i =>
    if s.callers i = .locking ∧ s.mutex = none then some { s with callers := set s.callers i .rereading, mutex := some i } else none
  -- FilePool.cpp:62-68
  | .reread i =>
    if s.callers i = .rereading then
      match lock s with
      | some k => some { s with callers := set s.callers i (.owner k), mutex := none }
      | none => some { s with callers := set s.callers i (.writing s.made), made := s.made + 1 }
    else none
  -- FilePool.cpp:69-70
  | .wrote i => match s.callers i with
    | .writing k => some { s with callers := set s.callers i (.owner k), weak := some k, mutex := none }
    | _ => none
  -- the shared pointer is released with the pool of files
  | .destroy i => match s.callers i with
    | .owner _ => some { s with callers := set s.callers i .outside }
    | _ => none

/-- Any number of steps. -/
def run {threads : Nat} (s : State threads) : List (Action threads) → Option (State threads)
  | [] => some s
  | a :: as => match step s a with
    | some s' => run s' as
    | none => none

/-- The states that can occur. -/
def Reachable {threads : Nat} (s : State threads) : Prop := ∃ as : List (Action threads), run {} as = some s

/-- One thread reads the weak pointer while another assigns it. -/
def Race {threads : Nat} (s : State threads) : Prop :=
  ∃ i j k, i ≠ j ∧ (s.callers i = .reading ∨ s.callers i = .rereading) ∧ s.callers j = .writing k

variable {threads : Nat}

structure Inv (s : State threads) : Prop where
  known : ∀ i k, s.callers i = .owner k → s.weak = some k
  alone : ∀ i k, s.callers i = .writing k → s.mutex = some i ∧ ∀ j l, s.callers j ≠ .owner l
  held : ∀ i, s.callers i = .rereading → s.mutex = some i
  fresh : ∀ i k, s.callers i = .writing k → s.weak ≠ some k
  old : ∀ k, s.weak = some k → k < s.made
  older : ∀ i k, s.callers i = .writing k → k < s.made

theorem set_cases {f : Fin threads → Caller} {i j : Fin threads} {x y : Caller} (h : set f i x j = y) : (j = i ∧ x = y) ∨ (j ≠ i ∧ f j = y) := by
  simp only [set] at h
  split_ifs at h with hc
  · exact Or.inl ⟨hc, h⟩
  · exact Or.inr ⟨hc, h⟩

theorem lock_some {s : State threads} {k : Nat} (h : lock s = some k) : s.weak = some k ∧ ∃ i, Uses s i k := by
  simp only [lock] at h
  split at h
  · rename_i l e
    split_ifs at h with hc
    simp only [Option.some.injEq] at h
    subst h
    exact ⟨e, hc⟩
  · simp at h

theorem lock_none {s : State threads} (hi : Inv s) (h : lock s = none) : ∀ j l, s.callers j ≠ .owner l := by
  intro j l e
  have hk := hi.known j l e
  simp only [lock, hk] at h
  split_ifs at h with hc
  exact hc ⟨j, Or.inl e⟩

theorem lock_owner {s : State threads} (hi : Inv s) {k : Nat} (h : lock s = some k) : ∀ j l, s.callers j ≠ .writing l := by
  intro j l e
  obtain ⟨h1, i, h2 | h2⟩ := lock_some h
  · exact (hi.alone j l e).2 i k h2
  · exact hi.fresh i k h2 h1

theorem inv_step {s s' : State threads} (hi : Inv s) {a : Action threads} (h : step s a = some s') : Inv s' := by
  cases a with
  | create i =>
    simp only [step] at h
    split_ifs at h with hc
    obtain rfl := Option.some.inj h
    refine ⟨?_, ?_, ?_, ?_, hi.old, ?_⟩
    · intro j k e
      rcases set_cases e with ⟨_, e⟩ | ⟨_, e⟩
      · simp at e
      · exact hi.known j k e
    · intro j k e
      rcases set_cases e with ⟨_, e⟩ | ⟨_, e⟩
      · simp at e
      · refine ⟨(hi.alone j k e).1, fun m l em => ?_⟩
        rcases set_cases em with ⟨_, em⟩ | ⟨_, em⟩
        · simp at em
        · exact (hi.alone j k e).2 m l em
    · intro j e
      rcases set_cases e with ⟨_, e⟩ | ⟨_, e⟩
      · simp at e
      · exact hi.held j e
    · intro j k e
      rcases set_cases e with ⟨_, e⟩ | ⟨_, e⟩
      · simp at e
      · exact hi.fresh j k e
    · intro j k e
      rcases set_cases e with ⟨_, e⟩ | ⟨_, e⟩
      · simp at e
      · exact hi.older j k e
  | read i =>
    have hc : s.callers i = .reading := by
      by_contra hc
      simp [step, hc] at h
    simp only [step, if_pos hc] at h
    split at h
    · rename_i k hk
      obtain rfl := Option.some.inj h
      have nw := lock_owner hi hk
      have hw := (lock_some hk).1
      refine ⟨?_, ?_, ?_, ?_, hi.old, ?_⟩
      · intro j l e
        rcases set_cases e with ⟨_, e⟩ | ⟨_, e⟩
        · simp only [Caller.owner.injEq] at e
          exact e ▸ hw
        · exact hi.known j l e
      · intro j l e
        rcases set_cases e with ⟨_, e⟩ | ⟨_, e⟩
        · simp at e
        · exact absurd e (nw j l)
      · intro j e
        rcases set_cases e with ⟨_, e⟩ | ⟨_, e⟩
        · simp at e
        · exact hi.held j e
      · intro j l e
        rcases set_cases e with ⟨_, e⟩ | ⟨_, e⟩
        · simp at e
        · exact hi.fresh j l e
      · intro j l e
        rcases set_cases e with ⟨_, e⟩ | ⟨_, e⟩
        · simp at e
        · exact hi.older j l e
    · obtain rfl := Option.some.inj h
      refine ⟨?_, ?_, ?_, ?_, hi.old, ?_⟩
      · intro j k e
        rcases set_cases e with ⟨_, e⟩ | ⟨_, e⟩
        · simp at e
        · exact hi.known j k e
      · intro j k e
        rcases set_cases e with ⟨_, e⟩ | ⟨_, e⟩
        · simp at e
        · refine ⟨(hi.alone j k e).1, fun m l em => ?_⟩
          rcases set_cases em with ⟨_, em⟩ | ⟨_, em⟩
          · simp at em
          · exact (hi.alone j k e).2 m l em
      · intro j e
        rcases set_cases e with ⟨_, e⟩ | ⟨_, e⟩
        · simp at e
        · exact hi.held j e
      · intro j k e
        rcases set_cases e with ⟨_, e⟩ | ⟨_, e⟩
        · simp at e
        · exact hi.fresh j k e
      · intro j k e
        rcases set_cases e with ⟨_, e⟩ | ⟨_, e⟩
        · simp at e
        · exact hi.older j k e
  | lock i =>
    simp only [step] at h
    split_ifs at h with hc
    obtain rfl := Option.some.inj h
    refine ⟨?_, ?_, ?_, ?_, hi.old, ?_⟩
    · intro j k e
      rcases set_cases e with ⟨_, e⟩ | ⟨_, e⟩
      · simp at e
      · exact hi.known j k e
    · intro j k e
      rcases set_cases e with ⟨_, e⟩ | ⟨_, e⟩
      · simp at e
      · have := (hi.alone j k e).1
        rw [hc.2] at this
        simp at this
    · intro j e
      rcases set_cases e with ⟨rfl, e⟩ | ⟨_, e⟩
      · rfl
      · have := hi.held j e
        rw [hc.2] at this
        simp at this
    · intro j k e
      rcases set_cases e with ⟨_, e⟩ | ⟨_, e⟩
      · simp at e
      · exact hi.fresh j k e
    · intro j k e
      rcases set_cases e with ⟨_, e⟩ | ⟨_, e⟩
      · simp at e
      · exact hi.older j k e
  | reread i =>
    have hc : s.callers i = .rereading := by
      by_contra hc
      simp [step, hc] at h
    have hm := hi.held i hc
    simp only [step, if_pos hc] at h
    split at h
    · rename_i k hk
      obtain rfl := Option.some.inj h
      have nw := lock_owner hi hk
      have hw := (lock_some hk).1
      refine ⟨?_, ?_, ?_, ?_, hi.old, ?_⟩
      · intro j l e
        rcases set_cases e with ⟨_, e⟩ | ⟨_, e⟩
        · simp only [Caller.owner.injEq] at e
          exact e ▸ hw
        · exact hi.known j l e
      · intro j l e
        rcases set_cases e with ⟨_, e⟩ | ⟨_, e⟩
        · simp at e
        · exact absurd e (nw j l)
      · intro j e
        rcases set_cases e with ⟨_, e⟩ | ⟨hj, e⟩
        · simp at e
        · have := hi.held j e
          rw [hm] at this
          simp only [Option.some.injEq] at this
          exact absurd this.symm hj
      · intro j l e
        rcases set_cases e with ⟨_, e⟩ | ⟨_, e⟩
        · simp at e
        · exact hi.fresh j l e
      · intro j l e
        rcases set_cases e with ⟨_, e⟩ | ⟨_, e⟩
        · simp at e
        · exact hi.older j l e
    · rename_i hk
      obtain rfl := Option.some.inj h
      have no := lock_none hi hk
      refine ⟨?_, ?_, ?_, ?_, ?_, ?_⟩
      · intro j k e
        rcases set_cases e with ⟨_, e⟩ | ⟨_, e⟩
        · simp at e
        · exact hi.known j k e
      · intro j k e
        refine ⟨?_, fun m l em => ?_⟩
        · rcases set_cases e with ⟨rfl, e⟩ | ⟨_, e⟩
          · exact hm
          · exact (hi.alone j k e).1
        · rcases set_cases em with ⟨_, em⟩ | ⟨_, em⟩
          · simp at em
          · exact no m l em
      · intro j e
        rcases set_cases e with ⟨_, e⟩ | ⟨_, e⟩
        · simp at e
        · exact hi.held j e
      · intro j k e
        rcases set_cases e with ⟨_, e⟩ | ⟨_, e⟩
        · simp only [Caller.writing.injEq] at e
          intro hw
          have := hi.old k hw
          omega
        · exact hi.fresh j k e
      · intro k hw
        have := hi.old k hw
        simp only
        omega
      · intro j k e
        rcases set_cases e with ⟨_, e⟩ | ⟨_, e⟩
        · simp only [Caller.writing.injEq] at e
          simp only
          omega
        · have := hi.older j k e
          simp only
          omega
  | wrote i =>
    simp only [step] at h
    split at h
    · rename_i k hc
      obtain rfl := Option.some.inj h
      obtain ⟨hm, no⟩ := hi.alone i k hc
      have only : ∀ j l, j ≠ i → s.callers j ≠ .writing l := by
        intro j l hj e
        have := (hi.alone j l e).1
        rw [hm] at this
        simp only [Option.some.injEq] at this
        exact hj this.symm
      refine ⟨?_, ?_, ?_, ?_, ?_, ?_⟩
      · intro j l e
        rcases set_cases e with ⟨_, e⟩ | ⟨_, e⟩
        · simp only [Caller.owner.injEq] at e
          simp [e]
        · exact absurd e (no j l)
      · intro j l e
        rcases set_cases e with ⟨_, e⟩ | ⟨hj, e⟩
        · simp at e
        · exact absurd e (only j l hj)
      · intro j e
        rcases set_cases e with ⟨_, e⟩ | ⟨hj, e⟩
        · simp at e
        · have := hi.held j e
          rw [hm] at this
          simp only [Option.some.injEq] at this
          exact absurd this.symm hj
      · intro j l e
        rcases set_cases e with ⟨_, e⟩ | ⟨hj, e⟩
        · simp at e
        · exact absurd e (only j l hj)
      · intro l hl
        simp only [Option.some.injEq] at hl
        subst hl
        exact hi.older i k hc
      · intro j l e
        rcases set_cases e with ⟨_, e⟩ | ⟨_, e⟩
        · simp at e
        · exact hi.older j l e
    · simp at h
  | destroy i =>
    simp only [step] at h
    split at h
    · rename_i k hc
      obtain rfl := Option.some.inj h
      refine ⟨?_, ?_, ?_, ?_, hi.old, ?_⟩
      · intro j l e
        rcases set_cases e with ⟨_, e⟩ | ⟨_, e⟩
        · simp at e
        · exact hi.known j l e
      · intro j l e
        rcases set_cases e with ⟨_, e⟩ | ⟨_, e⟩
        · simp at e
        · exact absurd hc ((hi.alone j l e).2 i k)
      · intro j e
        rcases set_cases e with ⟨_, e⟩ | ⟨_, e⟩
        · simp at e
        · exact hi.held j e
      · intro j l e
        rcases set_cases e with ⟨_, e⟩ | ⟨_, e⟩
        · simp at e
        · exact hi.fresh j l e
      · intro j l e
        rcases set_cases e with ⟨_, e⟩ | ⟨_, e⟩
        · simp at e
        · exact hi.older j l e
    · simp at h

theorem inv_run : ∀ (as : List (Action threads)) (s s' : State threads), Inv s → run s as = some s' → Inv s'
  | [], s, s', hi, h => by
    simp only [run, Option.some.injEq] at h
    exact h ▸ hi
  | a :: as, s, s', hi, h => by
    simp only [run] at h
    split at h
    · rename_i s1 e
      exact inv_run as s1 s' (inv_step hi e) h
    · simp at h

theorem inv_reachable {s : State threads} (h : Reachable s) : Inv s := by
  obtain ⟨as, h⟩ := h
  exact inv_run as _ s ⟨by simp, by simp, by simp, by simp, by simp, by simp⟩ h

/-- All synthesizers that exist at a time have the same pool, whatever the threads that create and destroy them. (A read during an
assignment is taken to give the old value.) -/
theorem one_pool_partial {s : State threads} (h : Reachable s) {i j : Fin threads} {k l : Nat} (hi : Uses s i k) (hj : Uses s j l) : k = l := by
  have inv := inv_reachable h
  rcases hi with hi | hi <;> rcases hj with hj | hj
  · have h1 := inv.known i k hi
    have h2 := inv.known j l hj
    rw [h1] at h2
    exact Option.some.inj h2
  · exact absurd hi ((inv.alone j l hj).2 i k)
  · exact absurd hj ((inv.alone i k hi).2 j l)
  · have h1 := (inv.alone i k hi).1
    have h2 := (inv.alone j l hj).1
    rw [h1] at h2
    have := Option.some.inj h2
    subst this
    rw [hi] at hj
    exact Caller.writing.inj hj

/-- The reads that are made with the mutex never meet an assignment: only the first, unprotected look does. -/
theorem locked_read_safe {s : State threads} (h : Reachable s) {i j : Fin threads} {k : Nat} (hi : s.callers i = .rereading) :
    s.callers j ≠ .writing k := by
  intro hj
  have inv := inv_reachable h
  have h1 := inv.held i hi
  have h2 := (inv.alone j k hj).1
  rw [h1] at h2
  have := Option.some.inj h2
  subst this
  rw [hi] at hj
  simp at hj

/-- Two threads that create their synthesizers at the same time: one reads the weak pointer while the other assigns it. -/
theorem creation_race_violated : ∃ (as : List (Action 2)) (s : State 2), run {} as = some s ∧ Race s :=
  ⟨[.create 0, .read 0, .lock 0, .reread 0, .create 1], _, rfl, 1, 0, 0, by decide, Or.inl rfl, rfl⟩

/-- Both threads look before the pool exists, and have the same pool in the end. -/
example : ((run ({} : State 2) [.create 0, .create 1, .read 0, .read 1, .lock 0, .reread 0, .wrote 0, .lock 1, .reread 1]).map fun s =>
    (s.callers 0, s.callers 1, s.made)) = some (.owner 0, .owner 0, 1) := by decide

/-- The pool goes with the last synthesizer; the next one makes a new pool. -/
example : ((run ({} : State 2) [.create 0, .read 0, .lock 0, .reread 0, .wrote 0, .destroy 0, .create 1, .read 1, .lock 1, .reread 1, .wrote 1]).map
    fun s => (s.callers 0, s.callers 1, s.made)) = some (.outside, .owner 1, 2) := by decide

end Verif.Workers.Sharing
