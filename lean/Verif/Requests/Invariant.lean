import Verif.Requests.Model
import Mathlib.Algebra.BigOperators.Group.Finset.Basic
import Mathlib.Algebra.Order.BigOperators.Group.Finset
import Mathlib.Data.Fintype.BigOperators
import Mathlib.Data.List.Count
import Mathlib.Tactic

/-!
# What stays true of the queue of requests
-/

namespace Verif.Requests

variable {threads size : Nat}

/-- How many of the first `n` tickets belong to slot `i`. -/
def hits (size : Nat) : Nat → Nat → Nat
  | 0, _ => 0
  | n + 1, i => hits size n i + if n % size = i then 1 else 0

/-- The caller has a ticket for slot `i` and has not stored its request yet. -/
def flying (size i : Nat) : Caller → Nat
  | .reserved h _ => if h % size = i then 1 else 0
  | .storing h _ => if h % size = i then 1 else 0
  | _ => 0

/-- The caller holds the accepted request `a`. -/
def has (a : Nat) : Caller → Nat
  | .reserved _ r => if r = a then 1 else 0
  | .storing _ r => if r = a then 1 else 0
  | _ => 0

/-- The caller has a ticket, and has not posted yet. -/
def pending : Caller → Nat
  | .reserved _ _ => 1
  | .storing _ _ => 1
  | .pushed => 1
  | _ => 0

/-- The slot holds the request `a`. -/
def inside (a : Nat) : Slot → Nat
  | .stored r => if r = a then 1 else 0
  | .loading r => if r = a then 1 else 0
  | _ => 0

/-- The slot holds a request. -/
def full : Slot → Nat
  | .stored _ => 1
  | .loading _ => 1
  | _ => 0

/-- The dispatching thread is busy with slot `i`. -/
def holds (size i : Nat) : Worker → Nat
  | .claimed t => if t % size = i then 1 else 0
  | .loading t => if t % size = i then 1 else 0
  | _ => 0

/-- The dispatching thread is busy with some slot. -/
def busy : Worker → Nat
  | .claimed _ => 1
  | .loading _ => 1
  | _ => 0

/-- The dispatching thread will look into the queue before it waits. -/
def ready : Worker → Nat
  | .woken => 1
  | .looking => 1
  | .found => 1
  | _ => 0

structure Inv (size : Nat) (s : State threads) : Prop where
  le : s.tail ≤ s.head
  cap : s.head ≤ s.tail + size
  room : ∀ p h r, s.callers p = .checked h r → h < s.tail + size
  past : ∀ p h r, s.callers p = .loaded h r → h ≤ s.head
  owner : ∀ p h r, s.callers p = .storing h r → s.slots (h % size) = .storing
  unique : ∀ p q h r h' r', p ≠ q → s.callers p = .storing h r → s.callers q = .storing h' r' → h % size ≠ h' % size
  owned : ∀ i, s.slots i = .storing → ∃ p h r, s.callers p = .storing h r ∧ h % size = i
  lifting : ∀ t, s.worker = .loading t → ∃ r, s.slots (t % size) = .loading r
  lifted : ∀ i r, s.slots i = .loading r → ∃ t, s.worker = .loading t ∧ t % size = i
  last : ∀ t, s.worker = .claimed t ∨ s.worker = .loading t → s.tail = t + 1
  ledger : ∀ i, hits size s.head i + holds size i s.worker =
    hits size s.tail i + ∑ p, flying size i (s.callers p) + full (s.slots i)
  goods : ∀ a, s.accepted.count a =
    ∑ p, has a (s.callers p) + ∑ i ∈ Finset.range size, inside a (s.slots i) + s.taken.count a
  acceptedLength : s.accepted.length = s.head
  takenLength : s.taken.length + busy s.worker = s.tail
  found : s.worker = .found → s.tail < s.head
  wake : s.flag = true → s.head ≤ s.tail + s.count + ∑ p, pending (s.callers p) + ready s.worker
  closing : s.closed = true → s.flag = false ∧ (s.worker = .ended ∨ s.worker = .woken ∨ 1 ≤ s.count)
  running : s.flag = true → s.worker ≠ .ended

theorem put_sum {ι α : Type} [DecidableEq ι] (g : α → Nat) (f : ι → α) (S : Finset ι) {i : ι} (h : i ∈ S) (x : α) :
    ∑ j ∈ S, g (put f i x j) + g (f i) = ∑ j ∈ S, g (f j) + g x := by
  rw [← Finset.add_sum_erase S _ h, ← Finset.add_sum_erase S (fun j => g (f j)) h]
  have e : ∑ j ∈ S.erase i, g (put f i x j) = ∑ j ∈ S.erase i, g (f j) := by
    apply Finset.sum_congr rfl
    intro j hj
    simp [put, Finset.ne_of_mem_erase hj]
  rw [e]
  simp only [put, if_true]
  omega

theorem caller_sum (g : Caller → Nat) (f : Fin threads → Caller) (p : Fin threads) (x : Caller) :
    ∑ q, g (put f p x q) + g (f p) = ∑ q, g (f q) + g x := put_sum g f Finset.univ (Finset.mem_univ p) x

theorem put_self {ι α : Type} [DecidableEq ι] (f : ι → α) (i : ι) (x : α) : put f i x i = x := by simp [put]

theorem put_ne {ι α : Type} [DecidableEq ι] (f : ι → α) {i j : ι} (x : α) (h : j ≠ i) : put f i x j = f j := by simp [put, h]

theorem inv_init : Inv size ({} : State threads) where
  le := by simp
  cap := by simp
  room := by simp
  past := by simp
  owner := by simp
  unique := by simp
  owned := by simp
  lifting := by simp
  lifted := by simp
  last := by simp
  ledger := by simp [hits, flying, full, holds]
  goods := by simp [has, inside]
  acceptedLength := by simp
  takenLength := by simp [busy]
  found := by simp
  wake := by simp
  closing := by simp
  running := by simp

/-- A caller moves without touching a slot, from and to a place where it is not storing. -/
theorem inv_move {s : State threads} (hi : Inv size s) (p : Fin threads) (c : Caller)
    (h1 : ∀ h r, s.callers p ≠ .storing h r) (h2 : ∀ h r, c ≠ .storing h r)
    (hf : ∀ i, flying size i c = flying size i (s.callers p)) (hh : ∀ a, has a c = has a (s.callers p))
    (hp : pending c = pending (s.callers p))
    (hr : ∀ h r, c = .checked h r → h < s.tail + size) (hl : ∀ h r, c = .loaded h r → h ≤ s.head) :
    Inv size { s with callers := put s.callers p c } where
  le := hi.le
  cap := hi.cap
  room := by
    intro q h r e
    by_cases hq : q = p
    · subst hq; (try dsimp only at e); rw [put_self] at e; exact hr h r e
    · (try dsimp only at e); rw [put_ne _ _ hq] at e; exact hi.room q h r e
  past := by
    intro q h r e
    by_cases hq : q = p
    · subst hq; (try dsimp only at e); rw [put_self] at e; exact hl h r e
    · (try dsimp only at e); rw [put_ne _ _ hq] at e; exact hi.past q h r e
  owner := by
    intro q h r e
    by_cases hq : q = p
    · subst hq; (try dsimp only at e); rw [put_self] at e; exact absurd e (h2 h r)
    · (try dsimp only at e); rw [put_ne _ _ hq] at e; exact hi.owner q h r e
  unique := by
    intro q q' h r h' r' hne e e'
    by_cases hq : q = p
    · subst hq; (try dsimp only at e); rw [put_self] at e; exact absurd e (h2 h r)
    · by_cases hq' : q' = p
      · subst hq'; (try dsimp only at e'); rw [put_self] at e'; exact absurd e' (h2 h' r')
      · (try dsimp only at e); rw [put_ne _ _ hq] at e; (try dsimp only at e'); rw [put_ne _ _ hq'] at e'; exact hi.unique q q' h r h' r' hne e e'
  owned := by
    intro i e
    obtain ⟨q, h, r, e1, e2⟩ := hi.owned i e
    refine ⟨q, h, r, ?_, e2⟩
    try dsimp only
    rw [put_ne]
    · exact e1
    · rintro rfl; exact h1 h r e1
  lifting := hi.lifting
  lifted := hi.lifted
  last := hi.last
  ledger := by
    intro i
    have := hi.ledger i
    have := caller_sum (flying size i) s.callers p c
    have := hf i
    simp only at *
    omega
  goods := by
    intro a
    have := hi.goods a
    have := caller_sum (has a) s.callers p c
    have := hh a
    simp only at *
    omega
  acceptedLength := hi.acceptedLength
  takenLength := hi.takenLength
  found := hi.found
  wake := by
    intro hfl
    have := hi.wake hfl
    have := caller_sum pending s.callers p c
    simp only at *
    omega
  closing := hi.closing
  running := hi.running

theorem mod_mem (hs : 0 < size) (h : Nat) : h % size ∈ Finset.range size := Finset.mem_range.mpr (Nat.mod_lt _ hs)

theorem inv_step (hs : 0 < size) {s s' : State threads} (hi : Inv size s) {a : Action threads} (h : step size s a = some s') :
    Inv size s' := by
  cases a with
  | call p r =>
    simp only [step] at h
    split at h
    · rename_i e
      obtain rfl := Option.some.inj h
      apply inv_move hi p <;> simp [e, flying, has, pending]
    · simp at h
  | check p =>
    simp only [step] at h
    split at h
    · rename_i h0 r e
      split_ifs at h with hc
      · obtain rfl := Option.some.inj h
        have := inv_move hi p .idle (by simp [e]) (by simp) (by simp [e, flying]) (by simp [e, has]) (by simp [e, pending]) (by simp) (by simp)
        exact ⟨this.le, this.cap, this.room, this.past, this.owner, this.unique, this.owned, this.lifting, this.lifted, this.last,
          this.ledger, this.goods, this.acceptedLength, this.takenLength, this.found, this.wake, this.closing, this.running⟩
      · obtain rfl := Option.some.inj h
        apply inv_move hi p <;> simp [e, flying, has, pending]
        omega
    · simp at h
  | reserve p =>
    simp only [step] at h
    split at h
    · rename_i h0 r e
      split_ifs at h with hc
      · obtain rfl := Option.some.inj h
        have room := hi.room p h0 r e
        constructor
        · have := hi.le; simp only; omega
        · simp only; omega
        · intro q h1 r1 e1
          by_cases hq : q = p
          · subst hq; (try dsimp only at e1); rw [put_self] at e1; simp at e1
          · (try dsimp only at e1); rw [put_ne _ _ hq] at e1; exact hi.room q h1 r1 e1
        · intro q h1 r1 e1
          by_cases hq : q = p
          · subst hq; (try dsimp only at e1); rw [put_self] at e1; simp at e1
          · (try dsimp only at e1); rw [put_ne _ _ hq] at e1; have := hi.past q h1 r1 e1; simp only; omega
        · intro q h1 r1 e1
          by_cases hq : q = p
          · subst hq; (try dsimp only at e1); rw [put_self] at e1; simp at e1
          · (try dsimp only at e1); rw [put_ne _ _ hq] at e1; exact hi.owner q h1 r1 e1
        · intro q q' h1 r1 h2 r2 hne e1 e2
          by_cases hq : q = p
          · subst hq; (try dsimp only at e1); rw [put_self] at e1; simp at e1
          · by_cases hq' : q' = p
            · subst hq'; (try dsimp only at e2); rw [put_self] at e2; simp at e2
            · (try dsimp only at e1); rw [put_ne _ _ hq] at e1; (try dsimp only at e2); rw [put_ne _ _ hq'] at e2; exact hi.unique q q' h1 r1 h2 r2 hne e1 e2
        · intro i ei
          obtain ⟨q, h1, r1, e1, e2⟩ := hi.owned i ei
          refine ⟨q, h1, r1, ?_, e2⟩
          try dsimp only
          rw [put_ne]
          · exact e1
          · rintro rfl; rw [e] at e1; simp at e1
        · exact hi.lifting
        · exact hi.lifted
        · exact hi.last
        · intro i
          have h1 := hi.ledger i
          have h2 := caller_sum (flying size i) s.callers p (.reserved h0 r)
          rw [e] at h2
          rw [hc] at h1
          simp only [flying, hits] at *
          omega
        · intro x
          have h1 := hi.goods x
          have h2 := caller_sum (has x) s.callers p (.reserved h0 r)
          rw [e] at h2
          simp only [has, List.count_append, List.count_singleton, beq_iff_eq] at *
          omega
        · have := hi.acceptedLength
          simp only [List.length_append, List.length_singleton]; omega
        · exact hi.takenLength
        · intro hf; have := hi.found hf; simp only; omega
        · intro hfl
          have h1 := hi.wake hfl
          have h2 := caller_sum pending s.callers p (.reserved h0 r)
          rw [e] at h2
          simp only [pending] at *
          omega
        · exact hi.closing
        · exact hi.running
      · obtain rfl := Option.some.inj h
        apply inv_move hi p <;> simp [e, flying, has, pending]
    · simp at h
  | start p =>
    simp only [step] at h
    split at h
    · rename_i h0 r e
      split_ifs at h with hc
      · obtain rfl := Option.some.inj h
        constructor
        · exact hi.le
        · exact hi.cap
        · intro q h1 r1 e1
          by_cases hq : q = p
          · subst hq; (try dsimp only at e1); rw [put_self] at e1; simp at e1
          · (try dsimp only at e1); rw [put_ne _ _ hq] at e1; exact hi.room q h1 r1 e1
        · intro q h1 r1 e1
          by_cases hq : q = p
          · subst hq; (try dsimp only at e1); rw [put_self] at e1; simp at e1
          · (try dsimp only at e1); rw [put_ne _ _ hq] at e1; exact hi.past q h1 r1 e1
        · intro q h1 r1 e1
          by_cases hq : q = p
          · subst hq; (try dsimp only at e1); rw [put_self] at e1
            simp only [Caller.storing.injEq] at e1
            obtain ⟨rfl, rfl⟩ := e1
            simp [put]
          · (try dsimp only at e1); rw [put_ne _ _ hq] at e1
            have := hi.owner q h1 r1 e1
            simp only [put]
            split_ifs
            · rfl
            · exact this
        · intro q q' h1 r1 h2 r2 hne e1 e2
          by_cases hq : q = p
          · subst hq
            (try dsimp only at e1); rw [put_self] at e1
            (try dsimp only at e2); rw [put_ne _ _ hne.symm] at e2
            simp only [Caller.storing.injEq] at e1
            obtain ⟨rfl, rfl⟩ := e1
            intro he
            have := hi.owner q' h2 r2 e2
            rw [← he, hc] at this
            simp at this
          · by_cases hq' : q' = p
            · subst hq'
              (try dsimp only at e2); rw [put_self] at e2
              (try dsimp only at e1); rw [put_ne _ _ hq] at e1
              simp only [Caller.storing.injEq] at e2
              obtain ⟨rfl, rfl⟩ := e2
              intro he
              have := hi.owner q h1 r1 e1
              rw [he, hc] at this
              simp at this
            · (try dsimp only at e1); rw [put_ne _ _ hq] at e1; (try dsimp only at e2); rw [put_ne _ _ hq'] at e2; exact hi.unique q q' h1 r1 h2 r2 hne e1 e2
        · intro i ei
          by_cases hix : i = h0 % size
          · exact ⟨p, h0, r, put_self _ _ _, hix.symm⟩
          · simp only [put_ne _ _ hix] at ei
            obtain ⟨q, h1, r1, e1, e2⟩ := hi.owned i ei
            refine ⟨q, h1, r1, ?_, e2⟩
            try dsimp only
            rw [put_ne]
            · exact e1
            · rintro rfl; rw [e] at e1; simp at e1
        · intro t et
          obtain ⟨r1, e1⟩ := hi.lifting t et
          refine ⟨r1, ?_⟩
          simp only
          try dsimp only
          rw [put_ne]
          · exact e1
          · intro he; rw [he, hc] at e1; simp at e1
        · intro i r1 ei
          by_cases hix : i = h0 % size
          · subst hix; simp only [put_self] at ei; simp at ei
          · simp only [put_ne _ _ hix] at ei; exact hi.lifted i r1 ei
        · exact hi.last
        · intro i
          have h1 := hi.ledger i
          have h2 := caller_sum (flying size i) s.callers p (.storing h0 r)
          rw [e] at h2
          have h3 : full (put s.slots (h0 % size) .storing i) = full (s.slots i) := by
            by_cases hix : i = h0 % size
            · subst hix; rw [put_self, hc]; rfl
            · rw [put_ne _ _ hix]
          simp only [flying] at *
          omega
        · intro x
          have h1 := hi.goods x
          have h2 := caller_sum (has x) s.callers p (.storing h0 r)
          have h3 := put_sum (inside x) s.slots _ (mod_mem hs h0) .storing
          rw [e] at h2
          rw [hc] at h3
          simp only [has, inside] at *
          omega
        · exact hi.acceptedLength
        · exact hi.takenLength
        · exact hi.found
        · intro hfl
          have h1 := hi.wake hfl
          have h2 := caller_sum pending s.callers p (.storing h0 r)
          rw [e] at h2
          simp only [pending] at *
          omega
        · exact hi.closing
        · exact hi.running
    · simp at h
  | store p =>
    simp only [step] at h
    split at h
    · rename_i h0 r e
      have hc := hi.owner p h0 r e
      obtain rfl := Option.some.inj h
      constructor
      · exact hi.le
      · exact hi.cap
      · intro q h1 r1 e1
        by_cases hq : q = p
        · subst hq; (try dsimp only at e1); rw [put_self] at e1; simp at e1
        · (try dsimp only at e1); rw [put_ne _ _ hq] at e1; exact hi.room q h1 r1 e1
      · intro q h1 r1 e1
        by_cases hq : q = p
        · subst hq; (try dsimp only at e1); rw [put_self] at e1; simp at e1
        · (try dsimp only at e1); rw [put_ne _ _ hq] at e1; exact hi.past q h1 r1 e1
      · intro q h1 r1 e1
        by_cases hq : q = p
        · subst hq; (try dsimp only at e1); rw [put_self] at e1; simp at e1
        · (try dsimp only at e1); rw [put_ne _ _ hq] at e1
          have := hi.owner q h1 r1 e1
          have hne := hi.unique q p h1 r1 h0 r hq e1 e
          simp only [put_ne _ _ hne]
          exact this
      · intro q q' h1 r1 h2 r2 hne e1 e2
        by_cases hq : q = p
        · subst hq; (try dsimp only at e1); rw [put_self] at e1; simp at e1
        · by_cases hq' : q' = p
          · subst hq'; (try dsimp only at e2); rw [put_self] at e2; simp at e2
          · (try dsimp only at e1); rw [put_ne _ _ hq] at e1; (try dsimp only at e2); rw [put_ne _ _ hq'] at e2; exact hi.unique q q' h1 r1 h2 r2 hne e1 e2
      · intro i ei
        by_cases hix : i = h0 % size
        · subst hix; simp only [put_self] at ei; simp at ei
        · simp only [put_ne _ _ hix] at ei
          obtain ⟨q, h1, r1, e1, e2⟩ := hi.owned i ei
          refine ⟨q, h1, r1, ?_, e2⟩
          try dsimp only
          rw [put_ne]
          · exact e1
          · rintro rfl
            rw [e] at e1
            simp only [Caller.storing.injEq] at e1
            exact hix (by rw [← e2, e1.1])
      · intro t et
        obtain ⟨r1, e1⟩ := hi.lifting t et
        refine ⟨r1, ?_⟩
        simp only
        try dsimp only
        rw [put_ne]
        · exact e1
        · intro he; rw [he, hc] at e1; simp at e1
      · intro i r1 ei
        by_cases hix : i = h0 % size
        · subst hix; simp only [put_self] at ei; simp at ei
        · simp only [put_ne _ _ hix] at ei; exact hi.lifted i r1 ei
      · exact hi.last
      · intro i
        have h1 := hi.ledger i
        have h2 := caller_sum (flying size i) s.callers p .pushed
        rw [e] at h2
        have h3 : full (put s.slots (h0 % size) (.stored r) i) = full (s.slots i) + if h0 % size = i then 1 else 0 := by
          by_cases hix : i = h0 % size
          · subst hix; rw [put_self, hc]; simp [full]
          · rw [put_ne _ _ hix, if_neg (Ne.symm hix)]; rfl
        simp only [flying] at *
        omega
      · intro x
        have h1 := hi.goods x
        have h2 := caller_sum (has x) s.callers p .pushed
        have h3 := put_sum (inside x) s.slots _ (mod_mem hs h0) (.stored r)
        rw [e] at h2
        rw [hc] at h3
        simp only [has, inside] at *
        omega
      · exact hi.acceptedLength
      · exact hi.takenLength
      · exact hi.found
      · intro hfl
        have h1 := hi.wake hfl
        have h2 := caller_sum pending s.callers p .pushed
        rw [e] at h2
        simp only [pending] at *
        omega
      · exact hi.closing
      · exact hi.running
    · simp at h
  | post p =>
    simp only [step] at h
    split at h
    · rename_i e
      obtain rfl := Option.some.inj h
      constructor
      · exact hi.le
      · exact hi.cap
      · intro q h1 r1 e1
        by_cases hq : q = p
        · subst hq; (try dsimp only at e1); rw [put_self] at e1; simp at e1
        · (try dsimp only at e1); rw [put_ne _ _ hq] at e1; exact hi.room q h1 r1 e1
      · intro q h1 r1 e1
        by_cases hq : q = p
        · subst hq; (try dsimp only at e1); rw [put_self] at e1; simp at e1
        · (try dsimp only at e1); rw [put_ne _ _ hq] at e1; exact hi.past q h1 r1 e1
      · intro q h1 r1 e1
        by_cases hq : q = p
        · subst hq; (try dsimp only at e1); rw [put_self] at e1; simp at e1
        · (try dsimp only at e1); rw [put_ne _ _ hq] at e1; exact hi.owner q h1 r1 e1
      · intro q q' h1 r1 h2 r2 hne e1 e2
        by_cases hq : q = p
        · subst hq; (try dsimp only at e1); rw [put_self] at e1; simp at e1
        · by_cases hq' : q' = p
          · subst hq'; (try dsimp only at e2); rw [put_self] at e2; simp at e2
          · (try dsimp only at e1); rw [put_ne _ _ hq] at e1; (try dsimp only at e2); rw [put_ne _ _ hq'] at e2; exact hi.unique q q' h1 r1 h2 r2 hne e1 e2
      · intro i ei
        obtain ⟨q, h1, r1, e1, e2⟩ := hi.owned i ei
        refine ⟨q, h1, r1, ?_, e2⟩
        try dsimp only
        rw [put_ne]
        · exact e1
        · rintro rfl; rw [e] at e1; simp at e1
      · exact hi.lifting
      · exact hi.lifted
      · exact hi.last
      · intro i
        have h1 := hi.ledger i
        have h2 := caller_sum (flying size i) s.callers p .idle
        rw [e] at h2
        simp only [flying] at *
        omega
      · intro x
        have h1 := hi.goods x
        have h2 := caller_sum (has x) s.callers p .idle
        rw [e] at h2
        simp only [has] at *
        omega
      · exact hi.acceptedLength
      · exact hi.takenLength
      · exact hi.found
      · intro hfl
        have h1 := hi.wake hfl
        have h2 := caller_sum pending s.callers p .idle
        rw [e] at h2
        simp only [pending] at *
        omega
      · intro hcl
        obtain ⟨h1, h2⟩ := hi.closing hcl
        exact ⟨h1, h2.imp_right (Or.imp_right (fun _ => by simp))⟩
      · exact hi.running
    · simp at h
  | wait =>
    simp only [step] at h
    split at h
    · rename_i e
      split_ifs at h with hc
      obtain rfl := Option.some.inj h
      exact { le := hi.le, cap := hi.cap, room := hi.room, past := hi.past, owner := hi.owner, unique := hi.unique, owned := hi.owned
              lifting := by simp
              lifted := by
                intro i r ei
                obtain ⟨t, et, _⟩ := hi.lifted i r ei
                rw [e] at et; simp at et
              last := by simp
              ledger := by
                intro i
                have := hi.ledger i
                rw [e] at this
                simpa [holds] using this
              goods := hi.goods, acceptedLength := hi.acceptedLength
              takenLength := by
                have := hi.takenLength
                rw [e] at this
                simpa [busy] using this
              found := by simp
              wake := by
                intro hfl
                have := hi.wake hfl
                rw [e] at this
                simp only [ready] at *
                omega
              closing := by
                intro hcl
                exact ⟨(hi.closing hcl).1, Or.inr (Or.inl rfl)⟩
              running := by simp }
    · simp at h
  | test =>
    simp only [step] at h
    split at h
    · rename_i e
      obtain rfl := Option.some.inj h
      exact { le := hi.le, cap := hi.cap, room := hi.room, past := hi.past, owner := hi.owner, unique := hi.unique, owned := hi.owned
              lifting := by intro t; simp only; split_ifs <;> simp
              lifted := by
                intro i r ei
                obtain ⟨t, et, _⟩ := hi.lifted i r ei
                rw [e] at et; simp at et
              last := by intro t; simp only; split_ifs <;> simp
              ledger := by
                intro i
                have := hi.ledger i
                rw [e] at this
                simp only
                split_ifs <;> simpa [holds] using this
              goods := hi.goods, acceptedLength := hi.acceptedLength
              takenLength := by
                have := hi.takenLength
                rw [e] at this
                simp only
                split_ifs <;> simpa [busy] using this
              found := by simp only; split_ifs <;> simp
              wake := by
                intro hfl
                have := hi.wake hfl
                rw [e] at this
                simp only at hfl
                simp only [hfl, if_true, ready] at *
                omega
              closing := by
                intro hcl
                refine ⟨(hi.closing hcl).1, Or.inl ?_⟩
                simp [(hi.closing hcl).1]
              running := by
                intro hfl
                simp only at hfl
                simp [hfl] }
    · simp at h
  | look =>
    simp only [step] at h
    split at h
    · rename_i e
      obtain rfl := Option.some.inj h
      exact { le := hi.le, cap := hi.cap, room := hi.room, past := hi.past, owner := hi.owner, unique := hi.unique, owned := hi.owned
              lifting := by intro t; simp only; split_ifs <;> simp
              lifted := by
                intro i r ei
                obtain ⟨t, et, _⟩ := hi.lifted i r ei
                rw [e] at et; simp at et
              last := by intro t; simp only; split_ifs <;> simp
              ledger := by
                intro i
                have := hi.ledger i
                rw [e] at this
                simp only
                split_ifs <;> simpa [holds] using this
              goods := hi.goods, acceptedLength := hi.acceptedLength
              takenLength := by
                have := hi.takenLength
                rw [e] at this
                simp only
                split_ifs <;> simpa [busy] using this
              found := by
                simp only
                split_ifs with hc
                · simp
                · intro _; omega
              wake := by
                intro hfl
                have := hi.wake hfl
                rw [e] at this
                simp only [ready] at *
                split_ifs with hc
                · simp only; omega
                · simp only; omega
              closing := by
                intro hcl
                have := hi.closing hcl
                rw [e] at this
                simp at this
                exact ⟨this.1, Or.inr (Or.inr this.2)⟩
              running := by intro _; simp only; split_ifs <;> simp }
    · simp at h
  | claim =>
    simp only [step] at h
    split at h
    · rename_i e
      have hlt := hi.found e
      obtain rfl := Option.some.inj h
      exact { le := hlt
              cap := by have := hi.cap; simp only; omega
              room := by intro p h r ep; have := hi.room p h r ep; simp only; omega
              past := hi.past, owner := hi.owner, unique := hi.unique, owned := hi.owned
              lifting := by simp
              lifted := by
                intro i r ei
                obtain ⟨t, et, _⟩ := hi.lifted i r ei
                rw [e] at et; simp at et
              last := by intro t ht; simp at ht; simp [ht]
              ledger := by
                intro i
                have := hi.ledger i
                rw [e] at this
                simp only [holds, hits] at *
                omega
              goods := hi.goods, acceptedLength := hi.acceptedLength
              takenLength := by
                have := hi.takenLength
                rw [e] at this
                simpa [busy] using this
              found := by simp
              wake := by
                intro hfl
                have := hi.wake hfl
                rw [e] at this
                simp only [ready] at *
                omega
              closing := by
                intro hcl
                have := hi.closing hcl
                rw [e] at this
                simp at this
                exact ⟨this.1, Or.inr (Or.inr this.2)⟩
              running := by simp }
    · simp at h
  | lift =>
    simp only [step] at h
    split at h
    · rename_i t e
      split at h
      · rename_i r er
        obtain rfl := Option.some.inj h
        exact { le := hi.le, cap := hi.cap, room := hi.room, past := hi.past
                owner := by
                  intro q h1 r1 e1
                  have := hi.owner q h1 r1 e1
                  simp only
                  try dsimp only
                  rw [put_ne]
                  · exact this
                  · intro he; rw [he, er] at this; simp at this
                unique := hi.unique
                owned := by
                  intro i ei
                  by_cases hix : i = t % size
                  · subst hix; simp only [put_self] at ei; simp at ei
                  · simp only [put_ne _ _ hix] at ei; exact hi.owned i ei
                lifting := by
                  intro u eu
                  simp only [Worker.loading.injEq] at eu
                  subst eu
                  exact ⟨r, by simp [put]⟩
                lifted := by
                  intro i r1 ei
                  by_cases hix : i = t % size
                  · exact ⟨t, rfl, hix.symm⟩
                  · simp only [put_ne _ _ hix] at ei
                    obtain ⟨u, eu, _⟩ := hi.lifted i r1 ei
                    rw [e] at eu; simp at eu
                last := by
                  intro u hu
                  simp at hu
                  subst hu
                  exact hi.last t (Or.inl e)
                ledger := by
                  intro i
                  have h1 := hi.ledger i
                  rw [e] at h1
                  have h3 : full (put s.slots (t % size) (.loading r) i) = full (s.slots i) := by
                    by_cases hix : i = t % size
                    · subst hix; rw [put_self, er]; rfl
                    · rw [put_ne _ _ hix]
                  simp only [holds] at *
                  omega
                goods := by
                  intro x
                  have h1 := hi.goods x
                  have h3 := put_sum (inside x) s.slots _ (mod_mem hs t) (.loading r)
                  rw [er] at h3
                  simp only [inside] at *
                  omega
                acceptedLength := hi.acceptedLength
                takenLength := by
                  have := hi.takenLength
                  rw [e] at this
                  simpa [busy] using this
                found := by simp
                wake := by
                  intro hfl
                  have := hi.wake hfl
                  rw [e] at this
                  simpa [ready] using this
                closing := by
                  intro hcl
                  have := hi.closing hcl
                  rw [e] at this
                  simp at this
                  exact ⟨this.1, Or.inr (Or.inr this.2)⟩
                running := by simp }
      · simp at h
    · simp at h
  | take =>
    simp only [step] at h
    split at h
    · rename_i t e
      split at h
      · rename_i r er
        obtain rfl := Option.some.inj h
        exact { le := hi.le, cap := hi.cap, room := hi.room, past := hi.past
                owner := by
                  intro q h1 r1 e1
                  have := hi.owner q h1 r1 e1
                  simp only
                  try dsimp only
                  rw [put_ne]
                  · exact this
                  · intro he; rw [he, er] at this; simp at this
                unique := hi.unique
                owned := by
                  intro i ei
                  by_cases hix : i = t % size
                  · subst hix; simp only [put_self] at ei; simp at ei
                  · simp only [put_ne _ _ hix] at ei; exact hi.owned i ei
                lifting := by simp
                lifted := by
                  intro i r1 ei
                  by_cases hix : i = t % size
                  · subst hix; simp only [put_self] at ei; simp at ei
                  · simp only [put_ne _ _ hix] at ei
                    obtain ⟨u, eu, hu⟩ := hi.lifted i r1 ei
                    rw [e] at eu
                    simp only [Worker.loading.injEq] at eu
                    subst eu
                    exact absurd hu.symm hix
                last := by simp
                ledger := by
                  intro i
                  have h1 := hi.ledger i
                  rw [e] at h1
                  have h3 : full (put s.slots (t % size) .empty i) + (if t % size = i then 1 else 0) = full (s.slots i) := by
                    by_cases hix : i = t % size
                    · subst hix; rw [put_self, er]; simp [full]
                    · rw [put_ne _ _ hix, if_neg (Ne.symm hix)]; rfl
                  simp only [holds] at *
                  omega
                goods := by
                  intro x
                  have h1 := hi.goods x
                  have h3 := put_sum (inside x) s.slots _ (mod_mem hs t) .empty
                  rw [er] at h3
                  simp only [inside, List.count_append, List.count_singleton, beq_iff_eq] at *
                  omega
                acceptedLength := hi.acceptedLength
                takenLength := by
                  have := hi.takenLength
                  rw [e] at this
                  simpa [busy] using this
                found := by simp
                wake := by
                  intro hfl
                  have := hi.wake hfl
                  rw [e] at this
                  simpa [ready] using this
                closing := by
                  intro hcl
                  have := hi.closing hcl
                  rw [e] at this
                  simp at this
                  exact ⟨this.1, Or.inr (Or.inr this.2)⟩
                running := by simp }
      · simp at h
    · simp at h
  | lower =>
    simp only [step] at h
    obtain rfl := Option.some.inj h
    exact ⟨hi.le, hi.cap, hi.room, hi.past, hi.owner, hi.unique, hi.owned, hi.lifting, hi.lifted, hi.last,
      hi.ledger, hi.goods, hi.acceptedLength, hi.takenLength, hi.found, by simp, fun hc => ⟨rfl, (hi.closing hc).2⟩, by simp⟩
  | close =>
    simp only [step] at h
    split_ifs at h with hc
    obtain rfl := Option.some.inj h
    exact ⟨hi.le, hi.cap, hi.room, hi.past, hi.owner, hi.unique, hi.owned, hi.lifting, hi.lifted, hi.last,
      hi.ledger, hi.goods, hi.acceptedLength, hi.takenLength, hi.found, by simp [hc.1], fun _ => ⟨hc.1, by simp⟩, hi.running⟩

theorem inv_run (hs : 0 < size) : ∀ (as : List (Action threads)) (s s' : State threads), Inv size s → run size s as = some s' → Inv size s'
  | [], s, s', hi, h => by
    simp only [run, Option.some.injEq] at h
    exact h ▸ hi
  | a :: as, s, s', hi, h => by
    simp only [run] at h
    split at h
    · rename_i s1 e
      exact inv_run hs as s1 s' (inv_step hs hi e) h
    · simp at h

theorem inv_reachable (hs : 0 < size) {s : State threads} (h : Reachable size s) : Inv size s := by
  obtain ⟨as, h⟩ := h
  exact inv_run hs as _ s inv_init h

end Verif.Requests
