import Verif.Requests.Invariant

/-!
# C154: no request for a sample gets lost

Every theorem is about all executions of any number of requesting threads and the dispatching thread.
-/

namespace Verif.Requests

variable {threads size : Nat}

/-- No thread is in the middle of a request. -/
def Quiet (s : State threads) : Prop := ∀ p, s.callers p = .idle

/-- The dispatching thread sleeps: it waits for the semaphore, and the semaphore is zero. -/
def Asleep (s : State threads) : Prop := s.worker = .waiting ∧ s.count = 0

/-- The steps of the dispatching thread. -/
def Action.own : Action threads → Bool
  | .wait | .test | .look | .claim | .lift | .take => true
  | _ => false

/-- The steps that finish what has been begun: not new requests, nor the destruction of the pool. -/
def Action.inner : Action threads → Bool
  | .call _ _ | .lower | .close => false
  | _ => true

theorem quiet_flying {s : State threads} (h : Quiet s) (i : Nat) : ∑ p, flying size i (s.callers p) = 0 :=
  Finset.sum_eq_zero (fun p _ => by rw [h p]; rfl)

theorem quiet_has {s : State threads} (h : Quiet s) (a : Nat) : ∑ p, has a (s.callers p) = 0 :=
  Finset.sum_eq_zero (fun p _ => by rw [h p]; rfl)

theorem quiet_pending {s : State threads} (h : Quiet s) : ∑ p, pending (s.callers p) = 0 :=
  Finset.sum_eq_zero (fun p _ => by rw [h p]; rfl)

/-- A request is taken at most as often as it was accepted: none is invented, none is taken twice. -/
theorem taken_once (hs : 0 < size) {s : State threads} (h : Reachable size s) (a : Nat) : s.taken.count a ≤ s.accepted.count a := by
  have := (inv_reachable hs h).goods a
  omega

/-- When the dispatching thread sleeps and no thread is in the middle of a request, every accepted request has been taken,
exactly once: none waits in the queue. -/
theorem none_forgotten (hs : 0 < size) {s : State threads} (h : Reachable size s) (hf : s.flag = true) (hq : Quiet s) (ha : Asleep s) :
    s.taken.Perm s.accepted := by
  have hi := inv_reachable hs h
  obtain ⟨h1, h2⟩ := ha
  have hw := hi.wake hf
  have hle := hi.le
  have ht := hi.takenLength
  have hl := hi.acceptedLength
  rw [quiet_pending hq, h1, h2] at hw
  rw [h1] at ht
  simp only [ready, busy] at hw ht
  have e : s.tail = s.head := by omega
  have sub : s.taken.Subperm s.accepted := by
    rw [List.subperm_iff_count]
    intro a
    exact taken_once hs h a
  exact sub.perm_of_length_le (by omega)

/-- A request is refused only when at least `size` accepted requests have not been taken. -/
theorem refused_full (hs : 0 < size) {s s' : State threads} (h : Reachable size s) {a : Action threads} (hst : step size s a = some s')
    (hr : s'.refused ≠ s.refused) : s.taken.length + size ≤ s.accepted.length := by
  have hi := inv_reachable hs h
  cases a with
  | check p =>
    simp only [step] at hst
    split at hst
    · rename_i h0 r e
      have := hi.past p h0 r e
      have := hi.takenLength
      have := hi.acceptedLength
      split_ifs at hst with hc
      · omega
      · obtain rfl := Option.some.inj hst
        exact absurd rfl hr
    · simp at hst
  | _ =>
    exfalso
    apply hr
    simp only [step] at hst
    repeat' split at hst
    all_goals first | (simp at hst; done) | (obtain rfl := Option.some.inj hst; rfl)

/-- There are never more than `size` accepted requests besides the one the dispatching thread is about to take. -/
theorem bounded (hs : 0 < size) {s : State threads} (h : Reachable size s) : s.accepted.length ≤ s.taken.length + size + 1 := by
  have hi := inv_reachable hs h
  have := hi.cap
  have := hi.takenLength
  have := hi.acceptedLength
  have : busy s.worker ≤ 1 := by cases s.worker <;> simp [busy]
  omega

theorem hits_le (hs : 0 < size) (i n : Nat) : ∀ k, k ≤ size → hits size (n + k) i ≤ hits size n i + 1 ∧
    (hits size (n + k) i = hits size n i + 1 → ∃ j, j < k ∧ (n + j) % size = i)
  | 0, _ => by simp
  | k + 1, hk => by
    obtain ⟨h1, h2⟩ := hits_le hs i n k (by omega)
    rw [← Nat.add_assoc]
    simp only [hits]
    split_ifs with hc
    · by_cases hh : hits size (n + k) i = hits size n i + 1
      · exfalso
        obtain ⟨j, hj, ej⟩ := h2 hh
        have e1 : (n + k) % size = (n + j) % size := by rw [hc, ej]
        have e2 := (Nat.modEq_iff_dvd' (by omega : n + j ≤ n + k)).mp (show n + j ≡ n + k [MOD size] from e1.symm)
        have := Nat.le_of_dvd (by omega) e2
        omega
      · exact ⟨by omega, fun _ => ⟨k, by omega, hc⟩⟩
    · refine ⟨by omega, fun hh => ?_⟩
      obtain ⟨j, hj, ej⟩ := h2 (by omega)
      exact ⟨j, by omega, ej⟩

theorem hits_mono (i n : Nat) : ∀ k, hits size n i ≤ hits size (n + k) i
  | 0 => by simp
  | k + 1 => by
    have := hits_mono i n k
    rw [← Nat.add_assoc]
    simp only [hits]
    omega

theorem sum_pos {s : State threads} {g : Caller → Nat} (p : Fin threads) : g (s.callers p) ≤ ∑ q, g (s.callers q) :=
  Finset.single_le_sum (f := fun q => g (s.callers q)) (fun _ _ => Nat.zero_le _) (Finset.mem_univ p)

/-- A dispatching thread waiting for its slot finds the request there, or the slot's writer is on its way. -/
theorem claimed_slot (hs : 0 < size) {s : State threads} (hi : Inv size s) {t : Nat} (e : s.worker = .claimed t) :
    (∃ r, s.slots (t % size) = .stored r) ∨ ∃ p, 0 < flying size (t % size) (s.callers p) := by
  have hl := hi.ledger (t % size)
  have hlast := hi.last t (Or.inl e)
  have hm := hits_mono (size := size) (t % size) s.tail (s.head - s.tail)
  have : s.tail + (s.head - s.tail) = s.head := by have := hi.le; omega
  rw [this] at hm
  rw [e] at hl
  simp only [holds, if_true] at hl
  cases hsl : s.slots (t % size) with
  | stored r => exact Or.inl ⟨r, rfl⟩
  | loading r =>
    obtain ⟨u, eu, _⟩ := hi.lifted _ r hsl
    rw [e] at eu
    simp at eu
  | empty =>
    right
    by_contra hc
    push Not at hc
    have : ∑ p, flying size (t % size) (s.callers p) = 0 := Finset.sum_eq_zero (fun p _ => Nat.le_zero.mp (hc p))
    rw [hsl, this] at hl
    simp only [full] at hl
    omega
  | storing =>
    right
    by_contra hc
    push Not at hc
    have : ∑ p, flying size (t % size) (s.callers p) = 0 := Finset.sum_eq_zero (fun p _ => Nat.le_zero.mp (hc p))
    rw [hsl, this] at hl
    simp only [full] at hl
    omega

/-- A thread waiting for its slot to be empty waits for the dispatching thread, or for another thread that is writing. -/
theorem reserved_slot (hs : 0 < size) {s : State threads} (hi : Inv size s) {p : Fin threads} {h r : Nat} (e : s.callers p = .reserved h r)
    (hne : s.slots (h % size) ≠ .empty) :
    (∃ q h' r', s.callers q = .storing h' r') ∨ (∃ t r', s.worker = .claimed t ∧ s.slots (t % size) = .stored r') ∨ ∃ t, s.worker = .loading t := by
  cases hsl : s.slots (h % size) with
  | empty => exact absurd hsl hne
  | storing =>
    obtain ⟨q, h', r', e1, _⟩ := hi.owned _ hsl
    exact Or.inl ⟨q, h', r', e1⟩
  | loading r' =>
    obtain ⟨t, et, _⟩ := hi.lifted _ r' hsl
    exact Or.inr (Or.inr ⟨t, et⟩)
  | stored r' =>
    have hl := hi.ledger (h % size)
    have hf : 1 ≤ ∑ q, flying size (h % size) (s.callers q) := by
      have := sum_pos (s := s) (g := flying size (h % size)) p
      rw [e] at this
      simpa [flying] using this
    have hb := (hits_le hs (h % size) s.tail (s.head - s.tail) (by have := hi.cap; omega)).1
    have : s.tail + (s.head - s.tail) = s.head := by have := hi.le; omega
    rw [this] at hb
    rw [hsl] at hl
    simp only [full] at hl
    have hh : holds size (h % size) s.worker ≠ 0 := by omega
    cases hw : s.worker with
    | claimed t =>
      rw [hw] at hh
      simp only [holds] at hh
      have et : t % size = h % size := by by_contra hc; simp [hc] at hh
      exact Or.inr (Or.inl ⟨t, r', rfl, by rw [et, hsl]⟩)
    | loading t => exact Or.inr (Or.inr ⟨t, rfl⟩)
    | _ => rw [hw] at hh; simp [holds] at hh

/-- A thread with a ticket, or the thread it waits for, can go on. -/
theorem flying_goes_on (hs : 0 < size) {s : State threads} (hi : Inv size s) {p : Fin threads} {h r : Nat}
    (e : s.callers p = .reserved h r ∨ s.callers p = .storing h r) :
    ∃ a : Action threads, a.inner = true ∧ (step size s a).isSome := by
  rcases e with e | e
  · by_cases hc : s.slots (h % size) = .empty
    · exact ⟨.start p, rfl, by simp [step, e, hc]⟩
    · rcases reserved_slot hs hi e hc with ⟨q, h', r', e1⟩ | ⟨t, r', e1, e2⟩ | ⟨t, e1⟩
      · exact ⟨.store q, rfl, by simp [step, e1]⟩
      · exact ⟨.lift, rfl, by simp [step, e1, e2]⟩
      · obtain ⟨r', e2⟩ := hi.lifting t e1
        exact ⟨.take, rfl, by simp [step, e1, e2]⟩
  · exact ⟨.store p, rfl, by simp [step, e]⟩

/-- The threads never wait for each other in vain: unless no request is being made and the dispatching thread sleeps or has ended,
some thread can go on. -/
theorem never_stuck (hs : 0 < size) {s : State threads} (h : Reachable size s) (hn : ¬ (Quiet s ∧ (Asleep s ∨ s.worker = .ended))) :
    ∃ a : Action threads, a.inner = true ∧ (step size s a).isSome := by
  have hi := inv_reachable hs h
  by_cases hq : Quiet s
  · cases hw : s.worker with
    | waiting =>
      refine ⟨.wait, rfl, ?_⟩
      have : 0 < s.count := by
        by_contra hc
        exact hn ⟨hq, Or.inl ⟨hw, by omega⟩⟩
      simp [step, hw, this]
    | woken => exact ⟨.test, rfl, by simp [step, hw]⟩
    | looking => exact ⟨.look, rfl, by simp [step, hw]⟩
    | found => exact ⟨.claim, rfl, by simp [step, hw]⟩
    | claimed t =>
      rcases claimed_slot hs hi hw with ⟨r, e⟩ | ⟨p, hp⟩
      · exact ⟨.lift, rfl, by simp [step, hw, e]⟩
      · rw [hq p] at hp; simp [flying] at hp
    | loading t =>
      obtain ⟨r, e⟩ := hi.lifting t hw
      exact ⟨.take, rfl, by simp [step, hw, e]⟩
    | ended => exact absurd ⟨hq, Or.inr hw⟩ hn
  · simp only [Quiet, not_forall] at hq
    obtain ⟨p, hp⟩ := hq
    cases e : s.callers p with
    | idle => exact absurd e hp
    | loaded h0 r =>
      refine ⟨.check p, rfl, ?_⟩
      simp only [step, e]
      split_ifs <;> rfl
    | checked h0 r =>
      refine ⟨.reserve p, rfl, ?_⟩
      simp only [step, e]
      split_ifs <;> rfl
    | reserved h0 r => exact flying_goes_on hs hi (Or.inl e)
    | storing h0 r => exact flying_goes_on hs hi (Or.inr e)
    | pushed => exact ⟨.post p, rfl, by simp [step, e]⟩

/-- How far the dispatching thread is from sleeping. -/
def rank (s : State threads) : Nat :=
  10 * s.count + match s.worker with
    | .waiting => 0 | .woken => 6 | .looking => 5 | .found => 4 | .claimed _ => 3 | .loading _ => 2 | .ended => 0

theorem own_step (hs : 0 < size) {s : State threads} (hi : Inv size s) (hq : Quiet s) (h1 : ¬ Asleep s) (h2 : s.worker ≠ .ended) :
    ∃ (a : Action threads) (s' : State threads), a.own = true ∧ step size s a = some s' ∧ rank s' < rank s ∧
      s'.callers = s.callers ∧ s'.flag = s.flag ∧ s'.closed = s.closed ∧ s'.accepted = s.accepted := by
  cases hw : s.worker with
  | waiting =>
    have : 0 < s.count := by
      by_contra hc
      exact h1 ⟨hw, by omega⟩
    refine ⟨.wait, { s with worker := .woken, count := s.count - 1 }, rfl, by simp only [step, hw, if_pos this], ?_, rfl, rfl, rfl, rfl⟩
    simp only [rank, hw]
    omega
  | woken =>
    refine ⟨.test, { s with worker := if s.flag then .looking else .ended }, rfl, by simp only [step, hw], ?_, rfl, rfl, rfl, rfl⟩
    simp only [rank, hw]
    cases s.flag <;> simp
  | looking =>
    refine ⟨.look, { s with worker := if (s.head : Int) - s.tail ≤ 0 then .waiting else .found }, rfl, by simp only [step, hw], ?_, rfl, rfl, rfl, rfl⟩
    simp only [rank, hw]
    split_ifs <;> simp
  | found =>
    refine ⟨.claim, { s with worker := .claimed s.tail, tail := s.tail + 1 }, rfl, by simp only [step, hw], ?_, rfl, rfl, rfl, rfl⟩
    simp only [rank, hw]
    omega
  | claimed t =>
    rcases claimed_slot hs hi hw with ⟨r, e⟩ | ⟨p, hp⟩
    · refine ⟨.lift, { s with worker := .loading t, slots := put s.slots (t % size) (.loading r) }, rfl, by simp only [step, hw, e], ?_, rfl, rfl, rfl, rfl⟩
      simp only [rank, hw]
      omega
    · rw [hq p] at hp; simp [flying] at hp
  | loading t =>
    obtain ⟨r, e⟩ := hi.lifting t hw
    refine ⟨.take, { s with worker := .waiting, slots := put s.slots (t % size) .empty, taken := s.taken ++ [r] }, rfl, by simp only [step, hw, e], ?_, rfl, rfl, rfl, rfl⟩
    simp only [rank, hw]
    omega
  | ended => exact absurd hw h2

theorem settles (hs : 0 < size) : ∀ (n : Nat) (s : State threads), rank s ≤ n → Inv size s → Quiet s →
    ∃ (as : List (Action threads)) (s' : State threads), (∀ a ∈ as, a.own = true) ∧ run size s as = some s' ∧ as.length ≤ n ∧
      (Asleep s' ∨ s'.worker = .ended) ∧ s'.callers = s.callers ∧ s'.flag = s.flag ∧ s'.closed = s.closed ∧ s'.accepted = s.accepted := by
  intro n
  induction n with
  | zero =>
    intro s hr hi hq
    by_cases h1 : Asleep s
    · exact ⟨[], s, by simp, rfl, by simp, Or.inl h1, rfl, rfl, rfl, rfl⟩
    · by_cases h2 : s.worker = .ended
      · exact ⟨[], s, by simp, rfl, by simp, Or.inr h2, rfl, rfl, rfl, rfl⟩
      · obtain ⟨_, _, _, _, hlt, _⟩ := own_step hs hi hq h1 h2
        omega
  | succ n ih =>
    intro s hr hi hq
    by_cases h1 : Asleep s
    · exact ⟨[], s, by simp, rfl, by simp, Or.inl h1, rfl, rfl, rfl, rfl⟩
    · by_cases h2 : s.worker = .ended
      · exact ⟨[], s, by simp, rfl, by simp, Or.inr h2, rfl, rfl, rfl, rfl⟩
      · obtain ⟨a, s1, ha, hst, hlt, e1, e2, e3, e4⟩ := own_step hs hi hq h1 h2
        obtain ⟨as, s', h3, h4, h5, h6, f1, f2, f3, f4⟩ := ih s1 (by omega) (inv_step hs hi hst) (fun p => by rw [e1]; exact hq p)
        refine ⟨a :: as, s', ?_, ?_, by simp; omega, h6, f1.trans e1, f2.trans e2, f3.trans e3, f4.trans e4⟩
        · intro b hb
          rcases List.mem_cons.mp hb with rfl | hb
          · exact ha
          · exact h3 b hb
        · simp only [run, hst, h4]

theorem run_append (as bs : List (Action threads)) : ∀ s : State threads, run size s (as ++ bs) = (run size s as).bind (run size · bs) := by
  induction as with
  | nil => intro s; rfl
  | cons a as ih =>
    intro s
    simp only [List.cons_append, run]
    cases step size s a with
    | none => rfl
    | some s1 => exact ih s1

/-- Left to itself, the dispatching thread takes every request that has been accepted and then sleeps. -/
theorem all_taken (hs : 0 < size) {s : State threads} (h : Reachable size s) (hf : s.flag = true) (hq : Quiet s) :
    ∃ (as : List (Action threads)) (s' : State threads), (∀ a ∈ as, a.own = true) ∧ run size s as = some s' ∧ Asleep s' ∧
      s'.accepted = s.accepted ∧ s'.taken.Perm s.accepted := by
  have hi := inv_reachable hs h
  obtain ⟨as, s', h3, h4, _, h6, f1, f2, f3, f4⟩ := settles hs (rank s) s le_rfl hi hq
  have hr : Reachable size s' := by
    obtain ⟨bs, hb⟩ := h
    exact ⟨bs ++ as, by rw [run_append, hb]; exact h4⟩
  have hsl : Asleep s' := by
    rcases h6 with h6 | h6
    · exact h6
    · exact absurd h6 ((inv_reachable hs hr).running (f2.trans hf))
  exact ⟨as, s', h3, h4, hsl, f4, f4 ▸ none_forgotten hs hr (f2.trans hf) (fun p => by rw [f1]; exact hq p) hsl⟩

/-- When the pool is destroyed, the dispatching thread ends, without any other thread doing anything. -/
theorem destruction_ends (hs : 0 < size) {s : State threads} (h : Reachable size s) (hc : s.closed = true) (hq : Quiet s) :
    ∃ (as : List (Action threads)) (s' : State threads), (∀ a ∈ as, a.own = true) ∧ run size s as = some s' ∧ s'.worker = .ended := by
  have hi := inv_reachable hs h
  obtain ⟨as, s', h3, h4, _, h6, f1, f2, f3, f4⟩ := settles hs (rank s) s le_rfl hi hq
  refine ⟨as, s', h3, h4, ?_⟩
  rcases h6 with ⟨h6, h7⟩ | h6
  · have := ((inv_run hs as s s' hi h4).closing (f3.trans hc)).2
    rw [h6, h7] at this
    simp at this
  · exact h6

/-- The dispatching thread has only one way to go on, so that the steps above are the steps it makes. -/
theorem own_unique {s : State threads} {a b : Action threads} (ha : a.own = true) (hb : b.own = true) (h1 : (step size s a).isSome)
    (h2 : (step size s b).isSome) : a = b := by
  cases hw : s.worker <;> cases a <;> simp [Action.own] at ha <;> cases b <;> simp [Action.own] at hb <;>
    first | rfl | (simp [step, hw] at h1; done) | (simp [step, hw] at h2; done)

/-- The steps of a whole request. -/
def request {threads : Nat} (p : Fin threads) (r : Nat) : List (Action threads) :=
  [.call p r, .check p, .reserve p, .start p, .store p, .post p]

theorem head_slot (hs : 0 < size) {s : State threads} (hi : Inv size s) (hq : Quiet s) (hr : s.accepted.length < s.taken.length + size) :
    s.slots (s.head % size) = .empty := by
  have hl := hi.ledger (s.head % size)
  have hle := hi.le
  have hal := hi.acceptedLength
  have htl := hi.takenLength
  have hh : hits size s.head (s.head % size) = hits size s.tail (s.head % size) := by
    have e : s.tail + (s.head - s.tail) = s.head := by omega
    have hm := hits_mono (size := size) (s.head % size) s.tail (s.head - s.tail)
    obtain ⟨h1, h2⟩ := hits_le hs (s.head % size) s.tail (s.head - s.tail) (by omega)
    rw [e] at hm h1 h2
    by_contra hc
    obtain ⟨j, hj, ej⟩ := h2 (by omega)
    have hd := (Nat.modEq_iff_dvd' (by omega : s.tail + j ≤ s.head)).mp (show s.tail + j ≡ s.head [MOD size] from ej)
    have := Nat.le_of_dvd (by omega) hd
    omega
  have hw : holds size (s.head % size) s.worker = 0 := by
    have key : ∀ t, s.tail = t + 1 → s.taken.length = t → t % size ≠ s.head % size := by
      intro t h1 h2 he
      have hd := (Nat.modEq_iff_dvd' (by omega : t ≤ s.head)).mp (show t ≡ s.head [MOD size] from he)
      have := Nat.le_of_dvd (by omega) hd
      omega
    cases hc : s.worker with
    | claimed t =>
      have := hi.last t (Or.inl hc)
      rw [hc] at htl
      simp only [busy] at htl
      simp [holds, key t this (by omega)]
    | loading t =>
      have := hi.last t (Or.inr hc)
      rw [hc] at htl
      simp only [busy] at htl
      simp [holds, key t this (by omega)]
    | _ => rfl
  rw [quiet_flying hq, hh, hw] at hl
  cases hsl : s.slots (s.head % size) with
  | empty => rfl
  | storing =>
    obtain ⟨q, h', r', e1, _⟩ := hi.owned _ hsl
    rw [hq q] at e1
    simp at e1
  | stored r => rw [hsl] at hl; simp [full] at hl
  | loading r => rw [hsl] at hl; simp [full] at hl

/-- A request made while there is room is accepted at once, and wakes the dispatching thread. -/
theorem request_accepted (hs : 0 < size) {s : State threads} (h : Reachable size s) (hq : Quiet s)
    (hr : s.accepted.length < s.taken.length + size) (p : Fin threads) (r : Nat) :
    ∃ s', run size s (request p r) = some s' ∧ s'.accepted = s.accepted ++ [r] ∧ s'.refused = s.refused ∧ Quiet s' ∧ ¬ Asleep s' := by
  have hi := inv_reachable hs h
  have hsl := head_slot hs hi hq hr
  have hal := hi.acceptedLength
  have htl := hi.takenLength
  have hroom : ¬ ((s.head : Int) - s.tail ≥ size) := by omega
  have pp : ∀ (f : Fin threads → Caller) (x y : Caller), put (put f p x) p y = put f p y := by
    intro f x y; funext j; simp only [put]; split_ifs <;> rfl
  refine ⟨{ s with
    head := s.head + 1, slots := put (put s.slots (s.head % size) .storing) (s.head % size) (.stored r)
    callers := put s.callers p .idle, count := s.count + 1, accepted := s.accepted ++ [r] }, ?_, rfl, rfl, ?_, ?_⟩
  · simp only [request, run, step, hq p, put_self, if_neg hroom, if_true, hsl, pp]
  · intro q
    simp only [put]
    split_ifs
    · rfl
    · exact hq q
  · intro ha
    exact absurd ha.2 (by simp)

/-- A request made while the queue is full, and the dispatching thread is not about to take one, is refused at once. -/
theorem request_refused (hs : 0 < size) {s : State threads} (h : Reachable size s) (hq : Quiet s)
    (hr : s.taken.length + size ≤ s.accepted.length) (hw : ∀ t, s.worker ≠ .claimed t ∧ s.worker ≠ .loading t) (p : Fin threads) (r : Nat) :
    ∃ s', run size s [.call p r, .check p] = some s' ∧ s'.accepted = s.accepted ∧ s'.refused = s.refused ++ [r] ∧ Quiet s' := by
  have hi := inv_reachable hs h
  have hal := hi.acceptedLength
  have htl := hi.takenLength
  have : busy s.worker = 0 := by
    cases hc : s.worker with
    | claimed t => exact absurd hc (hw t).1
    | loading t => exact absurd hc (hw t).2
    | _ => rfl
  have hfull : (s.head : Int) - s.tail ≥ size := by omega
  have pp : ∀ (f : Fin threads → Caller) (x y : Caller), put (put f p x) p y = put f p y := by
    intro f x y; funext j; simp only [put]; split_ifs <;> rfl
  refine ⟨{ s with callers := put s.callers p .idle, refused := s.refused ++ [r] }, ?_, rfl, rfl, ?_⟩
  · simp only [run, step, hq p, put_self, if_pos hfull, pp]
  · intro q
    simp only [put]
    split_ifs
    · rfl
    · exact hq q

/-! ### The order -/

/-- The caller has a ticket and has not stored its request yet. -/
def out : Caller → Nat
  | .reserved _ _ => 1
  | .storing _ _ => 1
  | _ => 0

/-- The request a slot holds. -/
def content : Slot → Option Nat
  | .stored r => some r
  | .loading r => some r
  | _ => none

/-- The requests from number `q` up to the one being stored are in their slots. -/
structure Ordered (size : Nat) (s : State 1) : Prop where
  taken : s.taken = s.accepted.take s.taken.length
  ticket : ∀ h r, s.callers 0 = .reserved h r ∨ s.callers 0 = .storing h r → h + 1 = s.head ∧ s.accepted[h]? = some r
  cells : ∀ h, s.taken.length ≤ h → h + out (s.callers 0) < s.head → content (s.slots (h % size)) = s.accepted[h]?
  few : s.head ≤ s.taken.length + size + out (s.callers 0)

theorem ordered_init : Ordered size ({} : State 1) where
  taken := by simp
  ticket := by simp
  cells := by simp
  few := by simp

theorem content_some {s : State 1} (hi : Inv size s) (ho : Ordered size s) {h : Nat} (h1 : s.taken.length ≤ h) (h2 : h + out (s.callers 0) < s.head) :
    ∃ r, content (s.slots (h % size)) = some r := by
  rw [ho.cells h h1 h2]
  have : h < s.accepted.length := by rw [hi.acceptedLength]; omega
  exact ⟨s.accepted[h], List.getElem?_eq_getElem this⟩

theorem mod_ne {a b : Nat} (h1 : a < b) (h2 : b < a + size) : b % size ≠ a % size := by
  intro e
  have := Nat.le_of_dvd (by omega) ((Nat.modEq_iff_dvd' h1.le).mp (show a ≡ b [MOD size] from e.symm))
  omega

theorem fin_one (p : Fin 1) : p = 0 := Fin.fin_one_eq_zero p

theorem ordered_step (hs : 0 < size) {s s' : State 1} (hi : Inv size s) (ho : Ordered size s) {a : Action 1} (h : step size s a = some s') :
    Ordered size s' := by
  cases a with
  | call p r =>
    obtain rfl := fin_one p
    simp only [step] at h
    split at h
    · rename_i e
      obtain rfl := Option.some.inj h
      have c := ho.cells
      have f := ho.few
      rw [e] at c f
      exact ⟨ho.taken, by simp [put], by simpa [put, out] using c, by simpa [put, out] using f⟩
    · simp at h
  | check p =>
    obtain rfl := fin_one p
    simp only [step] at h
    split at h
    · rename_i h0 r e
      have c := ho.cells
      have f := ho.few
      rw [e] at c f
      split_ifs at h with hc
      · obtain rfl := Option.some.inj h
        exact ⟨ho.taken, by simp [put], by simpa [put, out] using c, by simpa [put, out] using f⟩
      · obtain rfl := Option.some.inj h
        exact ⟨ho.taken, by simp [put], by simpa [put, out] using c, by simpa [put, out] using f⟩
    · simp at h
  | reserve p =>
    obtain rfl := fin_one p
    simp only [step] at h
    split at h
    · rename_i h0 r e
      have c := ho.cells
      have f := ho.few
      have hl := hi.acceptedLength
      have ht := hi.takenLength
      have hle := hi.le
      rw [e] at c f
      split_ifs at h with hc
      · obtain rfl := Option.some.inj h
        refine ⟨?_, ?_, ?_, ?_⟩
        · have := ho.taken
          simp only
          rw [List.take_append_of_le_length (by omega)]
          exact this
        · intro h1 r1 h2
          simp only [put, if_true, Caller.reserved.injEq, reduceCtorEq, or_false] at h2
          obtain ⟨rfl, rfl⟩ := h2
          refine ⟨rfl, ?_⟩
          simp only
          rw [List.getElem?_append_right (by omega)]
          simp [hl, hc]
        · intro h1 h2 h3
          simp only [put, if_true, out] at h3
          simp only [out] at c
          have := c h1 h2 (by omega)
          simp only
          rw [List.getElem?_append_left (by omega)]
          exact this
        · simp only [put, if_true, out] at *
          omega
      · obtain rfl := Option.some.inj h
        exact ⟨ho.taken, by simp [put], by simpa [put, out] using c, by simpa [put, out] using f⟩
    · simp at h
  | start p =>
    obtain rfl := fin_one p
    simp only [step] at h
    split at h
    · rename_i h0 r e
      have c := ho.cells
      have f := ho.few
      have k := ho.ticket h0 r (Or.inl e)
      split_ifs at h with hc
      · have cs := @content_some size s hi ho
        rw [e] at c f cs
        obtain rfl := Option.some.inj h
        refine ⟨ho.taken, ?_, ?_, ?_⟩
        · intro h1 r1 h2
          simp only [put, if_true, Caller.storing.injEq, reduceCtorEq, false_or] at h2
          obtain ⟨rfl, rfl⟩ := h2
          exact k
        · intro h1 h2 h3
          simp only [put, if_true, out] at h3
          simp only [out] at c cs
          obtain ⟨r1, e1⟩ := cs h2 h3
          have : h1 % size ≠ h0 % size := by
            intro he
            rw [he, hc] at e1
            simp [content] at e1
          simp only [put_ne _ _ this]
          exact c h1 h2 h3
        · simp only [put, if_true, out] at *
          omega
    · simp at h
  | store p =>
    obtain rfl := fin_one p
    simp only [step] at h
    split at h
    · rename_i h0 r e
      have c := ho.cells
      have f := ho.few
      have k := ho.ticket h0 r (Or.inr e)
      have hc := hi.owner 0 h0 r e
      have cs := @content_some size s hi ho
      rw [e] at c f cs
      simp only [out] at c f cs
      obtain rfl := Option.some.inj h
      refine ⟨ho.taken, by simp [put], ?_, ?_⟩
      · intro h1 h2 h3
        simp only [put, if_true, out] at h3
        by_cases hh : h1 = h0
        · subst hh
          simp only [put_self, content]
          exact k.2.symm
        · obtain ⟨r1, e1⟩ := cs h2 (by omega)
          have : h1 % size ≠ h0 % size := by
            intro he
            rw [he, hc] at e1
            simp [content] at e1
          simp only [put_ne _ _ this]
          exact c h1 h2 (by omega)
      · simp only [put, if_true, out]
        by_contra hbig
        have e0 : h0 = s.taken.length + size := by omega
        obtain ⟨r1, e1⟩ := cs le_rfl (by omega)
        have : s.taken.length % size = h0 % size := by rw [e0]; simp
        rw [this, hc] at e1
        simp [content] at e1
    · simp at h
  | post p =>
    obtain rfl := fin_one p
    simp only [step] at h
    split at h
    · rename_i e
      obtain rfl := Option.some.inj h
      have c := ho.cells
      have f := ho.few
      rw [e] at c f
      exact ⟨ho.taken, by simp [put], by simpa [put, out] using c, by simpa [put, out] using f⟩
    · simp at h
  | wait =>
    simp only [step] at h
    split at h
    · split_ifs at h
      obtain rfl := Option.some.inj h
      exact ⟨ho.taken, ho.ticket, ho.cells, ho.few⟩
    · simp at h
  | test =>
    simp only [step] at h
    split at h
    · obtain rfl := Option.some.inj h
      exact ⟨ho.taken, ho.ticket, ho.cells, ho.few⟩
    · simp at h
  | look =>
    simp only [step] at h
    split at h
    · obtain rfl := Option.some.inj h
      exact ⟨ho.taken, ho.ticket, ho.cells, ho.few⟩
    · simp at h
  | claim =>
    simp only [step] at h
    split at h
    · obtain rfl := Option.some.inj h
      exact ⟨ho.taken, ho.ticket, ho.cells, ho.few⟩
    · simp at h
  | lift =>
    simp only [step] at h
    split at h
    · rename_i t e
      split at h
      · rename_i r er
        obtain rfl := Option.some.inj h
        refine ⟨ho.taken, ho.ticket, ?_, ho.few⟩
        intro h1 h2 h3
        have := ho.cells h1 h2 h3
        simp only [put]
        split_ifs with hx
        · rw [hx, er] at this
          exact this
        · exact this
      · simp at h
    · simp at h
  | take =>
    simp only [step] at h
    split at h
    · rename_i t e
      split at h
      · rename_i r er
        have hlast := hi.last t (Or.inr e)
        have ht := hi.takenLength
        have hle := hi.le
        have hl := hi.acceptedLength
        rw [e] at ht
        simp only [busy] at ht
        have et : t = s.taken.length := by omega
        have hn : s.taken.length + out (s.callers 0) < s.head := by
          by_contra hbig
          have hout : out (s.callers 0) = 1 := by
            cases hcal : s.callers 0 <;> simp [hcal, out] at hbig ⊢ <;> omega
          have htk : ∃ h0 r0, s.callers 0 = .reserved h0 r0 ∨ s.callers 0 = .storing h0 r0 := by
            cases hcal : s.callers 0 <;> simp [hcal, out] at hout ⊢
          obtain ⟨h0, r0, ec⟩ := htk
          have hk := (ho.ticket h0 r0 ec).1
          have e0 : h0 = t := by omega
          subst e0
          have hled := hi.ledger (h0 % size)
          have hfl : ∑ p, flying size (h0 % size) (s.callers p) = 1 := by
            rcases ec with ec | ec <;> simp [ec, flying]
          have hht : s.head = s.tail := by omega
          rw [hfl, e, er, hht] at hled
          simp only [holds, if_true, full] at hled
          omega
        have hcell := ho.cells s.taken.length le_rfl hn
        rw [← et, er] at hcell
        simp only [content] at hcell
        obtain rfl := Option.some.inj h
        refine ⟨?_, ho.ticket, ?_, ?_⟩
        · have h1 := ho.taken
          simp only [List.length_append, List.length_singleton]
          rw [List.take_add_one, ← h1, ← et, ← hcell]
          rfl
        · intro h1 h2 h3
          simp only [List.length_append, List.length_singleton] at h2
          simp only at h3
          have f := ho.few
          have : h1 % size ≠ t % size := mod_ne (by omega) (by omega)
          simp only [put_ne _ _ this]
          exact ho.cells h1 (by omega) h3
        · have := ho.few
          simp only [List.length_append, List.length_singleton]
          omega
      · simp at h
    · simp at h
  | lower =>
    simp only [step] at h
    obtain rfl := Option.some.inj h
    exact ⟨ho.taken, ho.ticket, ho.cells, ho.few⟩
  | close =>
    simp only [step] at h
    split_ifs at h
    obtain rfl := Option.some.inj h
    exact ⟨ho.taken, ho.ticket, ho.cells, ho.few⟩

theorem ordered_run (hs : 0 < size) : ∀ (as : List (Action 1)) (s s' : State 1), Inv size s → Ordered size s → run size s as = some s' → Ordered size s'
  | [], s, s', _, ho, h => by
    simp only [run, Option.some.injEq] at h
    exact h ▸ ho
  | a :: as, s, s', hi, ho, h => by
    simp only [run] at h
    split at h
    · rename_i s1 e
      exact ordered_run hs as s1 s' (inv_step hs hi e) (ordered_step hs hi ho e) h
    · simp at h

/-- When one thread makes the requests, as a host does that calls the synthesizer from its audio thread, they are taken in the order
in which they were made. -/
theorem in_order_partial (hs : 0 < size) {s : State 1} (h : Reachable size s) : s.taken <+: s.accepted := by
  obtain ⟨as, h⟩ := h
  have := (ordered_run hs as _ s inv_init ordered_init h).taken
  rw [this]
  exact List.take_prefix _ _

/-- One turn of the dispatching thread that takes a request. -/
def turn {threads : Nat} : List (Action threads) := [.wait, .test, .look, .claim, .lift, .take]

/-- With two threads, the requests of the second thread are taken in another order than it made them, if the first thread is held up in
the middle of a request while the queue goes around once (here with two slots). -/
theorem order_violated : ∃ (as : List (Action 2)) (s : State 2), run 2 {} as = some s ∧ s.accepted = [10, 20, 21] ∧ s.taken = [21] :=
  ⟨[.call 0 10, .check 0, .reserve 0] ++ request 1 20 ++ [.wait, .test, .look, .claim] ++ request 1 21 ++ [.lift, .take],
    _, rfl, rfl, rfl⟩

/-- Two requests of one thread, in the queue of 256 slots the pool has (Config.h:38), are taken one after the other. -/
example : ((run 256 ({} : State 1) (request 0 7 ++ request 0 8 ++ turn ++ turn)).map fun s =>
    (s.accepted, s.taken, s.refused, s.count)) = some ([7, 8], [7, 8], [], 0) := by rfl

/-- A thread that requests while the dispatching thread is between looking and taking. -/
example : ((run 4 ({} : State 2) (request 0 7 ++ [.wait, .test, .look, .call 1 9, .check 1, .claim, .reserve 1, .lift, .start 1, .take, .store 1])).map
    fun s => (s.accepted, s.taken, s.head, s.tail, s.count)) = some ([7, 9], [7], 2, 1, 0) := by rfl

/-- A full queue of one slot refuses. -/
example : ((run 1 ({} : State 1) (request 0 7 ++ [.call 0 8, .check 0])).map fun s => (s.accepted, s.refused)) = some ([7], [8]) := by rfl

/-- The pool is destroyed while a request waits: the thread ends. -/
example : ((run 4 ({} : State 1) (request 0 7 ++ [.lower, .close, .wait, .test])).map fun s => (s.worker, s.closed)) = some (.ended, true) := by rfl

end Verif.Requests
