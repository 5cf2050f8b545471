/-!
# The spin lock

Models `src/sfizz/utility/spin_mutex/SpinMutex.h` and `SpinMutex.cpp`: an atomic flag, `try_lock`
(one atomic test-and-set, SpinMutex.h:20-23), `lock` (repeated `try_lock`, SpinMutex.cpp:13-43; the
pauses and the staging of the attempts do not touch the flag) and `unlock` (SpinMutex.h:25-28).
Any number of threads, each following the usual discipline: it unlocks what it has locked.
-/

namespace Verif.SpinLock

/-- Where a thread is: outside; in `lock`, having failed `n` times; between a successful lock and
the unlock. -/
inductive Pc where
  | outside
  | spinning (failures : Nat)
  | inside
deriving DecidableEq, Repr

structure State where
  flag : Bool := false
  threads : List Pc
deriving DecidableEq, Repr

/-- `flag_.test_and_set()`: the value before, and the state after. -/
def testAndSet (s : State) : Bool × State := (s.flag, { s with flag := true })

/-- SpinMutex.h:20-23. -/
def tryLock (s : State) : Bool × State := (!(testAndSet s).1, (testAndSet s).2)

inductive Action where
  /-- a thread calls `lock()` -/
  | call (i : Nat)
  /-- one turn of the loops of `lock()` -/
  | spin (i : Nat)
  /-- a thread calls `try_lock()` -/
  | try_ (i : Nat)
  | unlock (i : Nat)
deriving DecidableEq, Repr

def setThread (s : State) (i : Nat) (pc : Pc) : State := { s with threads := s.threads.set i pc }

def step (s : State) : Action → State
  | .call i => if s.threads[i]? = some .outside then setThread s i (.spinning 0) else s
  | .spin i =>
    match s.threads[i]? with
    | some (.spinning n) =>
      let (got, s') := tryLock s
      setThread s' i (if got then .inside else .spinning (n + 1))
    | _ => s
  | .try_ i =>
    if s.threads[i]? = some .outside then
      let (got, s') := tryLock s
      setThread s' i (if got then .inside else .outside)
    else s
  | .unlock i =>
    if s.threads[i]? = some .inside then { setThread s i .outside with flag := false } else s

def init (n : Nat) : State := { threads := List.replicate n .outside }

def run (s : State) (as : List Action) : State := as.foldl step s

/-- How many threads are between lock and unlock. -/
def insideCount (s : State) : Nat := s.threads.countP (· = .inside)

theorem count_set {l : List Pc} {i : Nat} {a b : Pc} (h : l[i]? = some a) :
    (l.set i b).countP (· = .inside) + (if a = .inside then 1 else 0) =
      l.countP (· = .inside) + (if b = .inside then 1 else 0) := by
  induction l generalizing i with
  | nil => simp at h
  | cons x l ih =>
    cases i with
    | zero =>
      simp at h
      subst h
      simp only [List.set_cons_zero, List.countP_cons, decide_eq_true_eq]
      omega
    | succ i =>
      have := ih (i := i) (by simpa using h)
      simp only [List.set_cons_succ, List.countP_cons, decide_eq_true_eq]
      omega

theorem inv_step {s : State} (h : insideCount s = s.flag.toNat) (a : Action) :
    insideCount (step s a) = (step s a).flag.toNat := by
  unfold insideCount at h ⊢
  cases a with
  | call i =>
    by_cases hi : s.threads[i]? = some .outside
    · have := count_set (b := .spinning 0) hi
      simp at this
      simp only [step, if_pos hi, setThread]
      rw [this, h]
    · simp only [step, if_neg hi]
      exact h
  | spin i =>
    cases hi : s.threads[i]? with
    | none =>
      simp only [step, hi]
      exact h
    | some pc =>
      cases pc with
      | spinning n =>
        cases hf : s.flag with
        | true =>
          have := count_set (b := .spinning (n + 1)) hi
          simp at this
          rw [hf] at h
          simp only [step, hi, tryLock, testAndSet, hf, setThread]
          simp [this, h]
        | false =>
          have := count_set (b := .inside) hi
          rw [hf] at h
          simp at this
          simp only [step, hi, tryLock, testAndSet, hf, setThread]
          simp [this, h]
      | outside =>
        simp only [step, hi]
        exact h
      | inside =>
        simp only [step, hi]
        exact h
  | try_ i =>
    by_cases hi : s.threads[i]? = some .outside
    · simp only [step, if_pos hi]
      cases hf : s.flag with
      | true =>
        have := count_set (b := .outside) hi
        simp at this
        rw [hf] at h
        simp only [tryLock, testAndSet, hf, setThread]
        simp [this, h]
      | false =>
        have := count_set (b := .inside) hi
        rw [hf] at h
        simp at this
        simp only [tryLock, testAndSet, hf, setThread]
        simp [this, h]
    · simp only [step, if_neg hi]
      exact h
  | unlock i =>
    by_cases hi : s.threads[i]? = some .inside
    · have := count_set (b := .outside) hi
      simp at this
      simp only [step, if_pos hi, setThread]
      have hle : s.flag.toNat ≤ 1 := by cases s.flag <;> decide
      show (s.threads.set i .outside).countP (· = .inside) = 0
      omega
    · simp only [step, if_neg hi]
      exact h

theorem inv_run (n : Nat) (as : List Action) :
    insideCount (run (init n) as) = (run (init n) as).flag.toNat := by
  suffices H : ∀ s : State, insideCount s = s.flag.toNat →
      insideCount (run s as) = (run s as).flag.toNat from
    H _ (by simp [init, insideCount, List.countP_replicate])
  intro s hs
  induction as generalizing s with
  | nil => exact hs
  | cons a as ih => exact ih _ (inv_step hs a)

/-- **C53.** For any number of threads and any interleaving, at most one thread is between a
successful lock and its unlock: two threads inside are the same thread. -/
theorem mutual_exclusion (n : Nat) (as : List Action) {i j : Nat}
    (hi : (run (init n) as).threads[i]? = some .inside)
    (hj : (run (init n) as).threads[j]? = some .inside) : i = j := by
  have hinv := inv_run n as
  generalize run (init n) as = s at *
  by_cases hij : i = j
  · exact hij
  exfalso
  have h1 := count_set (b := .outside) hi
  have hj' : (s.threads.set i .outside)[j]? = some .inside := by
    rw [List.getElem?_set_ne hij]
    exact hj
  have h2 := count_set (b := .outside) hj'
  simp at h1 h2
  unfold insideCount at hinv
  have hle : s.flag.toNat ≤ 1 := by cases s.flag <;> decide
  omega

/-- **C53**, no lock-out: when no thread is inside, the next attempt of any waiting thread gets the
lock. -/
theorem attempt_succeeds (n : Nat) (as : List Action) {i k : Nat}
    (hi : (run (init n) as).threads[i]? = some (.spinning k))
    (hfree : ∀ j : Nat, (run (init n) as).threads[j]? ≠ some Pc.inside) :
    (step (run (init n) as) (.spin i)).threads[i]? = some Pc.inside := by
  have hinv := inv_run n as
  generalize run (init n) as = s at *
  have hlt : i < s.threads.length := by
    rcases Nat.lt_or_ge i s.threads.length with h | h
    · exact h
    · rw [List.getElem?_eq_none h] at hi
      cases hi
  have hf : s.flag = false := by
    cases hf : s.flag with
    | false => rfl
    | true =>
      exfalso
      unfold insideCount at hinv
      rw [hf] at hinv
      have hpos : 0 < s.threads.countP (· = .inside) := by
        rw [hinv]
        decide
      obtain ⟨a, ha, hp⟩ := List.countP_pos_iff.1 hpos
      simp at hp
      subst hp
      obtain ⟨j, hj⟩ := List.mem_iff_getElem?.1 ha
      exact hfree j hj
  simp only [step, hi, tryLock, testAndSet, setThread]
  rw [List.getElem?_set_self hlt]
  simp [hf]

/-- Three threads: one inside, one waiting, one whose `try_lock` failed. -/
example : run (init 3) [.call 0, .call 1, .spin 1, .spin 0, .try_ 2] =
    { flag := true, threads := [.spinning 1, .inside, .outside] } := by decide

end Verif.SpinLock
