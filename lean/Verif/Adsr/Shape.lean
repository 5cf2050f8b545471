import Verif.Adsr.Props
import Mathlib.Algebra.Order.Floor.Semiring
import Mathlib.Algebra.Order.Floor.Ring
import Mathlib.Data.Rat.Floor
import Mathlib.Tactic.FieldSimp
import Mathlib.Tactic.IntervalCases

/-! C122: the stages of an envelope take the times asked for and have the shapes asked for, frame by frame. -/
namespace Verif.Adsr

/-! ### The shape asked for -/

/-- An envelope as asked for: frames of delay, of hold, level of start and sustain, step of the attack and rate of the decay per
frame. -/
structure Shape where
  delay : Nat
  hold : Nat
  start : ℚ
  step : ℚ
  rate : ℚ
  sustain : ℚ

/-- The frames in which the attack is under way: those that leave the level below 1. -/
def Shape.attack (s : Shape) : Nat := ⌈(1 - s.start) / s.step⌉₊ - 1

/-- The frame where the decay starts. -/
def Shape.top (s : Shape) : Nat := s.delay + s.attack + s.hold

/-- The level at a frame, of a note that is held: the start level during the delay, a straight line up to 1, the hold at 1 and an
exponential decay down to the sustain level. -/
def Shape.level (s : Shape) (t : Nat) : ℚ :=
  if t < s.delay then s.start
  else if t < s.delay + s.attack then s.start + (t - s.delay + 1 : Nat) * s.step
  else if t < s.top then 1
  else max s.sustain (s.rate ^ (t - s.top + 1))

/-- The level `i` frames after the release at level `v`: exponential decay for `K` frames, then a straight line to 0 in `T` frames. -/
def releaseLevel (v rate T : ℚ) (K i : Nat) : ℚ :=
  if i < K then v * rate ^ (i + 1)
  else max 0 (v * rate ^ K - (i - K + 1 : Nat) * (max thr (v * rate ^ K) / T))

/-! ### The loops -/

theorem delayLoop_exact (n : Nat) (d : Int) (hd : 0 ≤ d) :
    ((n : Int) ≤ d ∧ delayLoop n d = (n, d - n)) ∨ (d < n ∧ delayLoop n d = (d.toNat, -1)) := by
  induction n generalizing d with
  | zero => left; exact ⟨by simpa using hd, by simp [delayLoop]⟩
  | succ n ih =>
    unfold delayLoop
    by_cases h : d > 0
    · rw [if_pos h]
      rcases ih (d - 1) (by omega) with ⟨h1, h2⟩ | ⟨h1, h2⟩
      · left
        rw [h2]
        refine ⟨by push_cast; omega, ?_⟩
        simp only [Prod.mk.injEq, true_and]
        push_cast; omega
      · right
        rw [h2]
        refine ⟨by push_cast; omega, ?_⟩
        simp only [Prod.mk.injEq, and_true]
        omega
    · right
      rw [if_neg h]
      have : d = 0 := by omega
      subst this
      exact ⟨by push_cast; omega, rfl⟩

/-- What a loop over `u 1, u 2, …` writes while `P` holds. -/
def Writes (P : ℚ → Prop) (u : Nat → ℚ) (n : Nat) (r : List ℚ × ℚ) : Prop :=
  ∃ m, r.1 = (List.range m).map (fun i => u (i + 1)) ∧ (∀ i, i < m → P (u (i + 1))) ∧
    ((m = n ∧ r.2 = u n) ∨ (m < n ∧ ¬P (u (m + 1)) ∧ r.2 = u (m + 1)))

theorem writes_cons {P : ℚ → Prop} {u : Nat → ℚ} {n : Nat} {l : List ℚ} {c : ℚ} (h1 : P (u 1))
    (h : Writes P (fun i => u (i + 1)) n (l, c)) : Writes P u (n + 1) (u 1 :: l, c) := by
  obtain ⟨m, h2, h3, h4⟩ := h
  refine ⟨m + 1, ?_, ?_, ?_⟩
  · simp only at h2
    rw [h2, List.range_succ_eq_map, List.map_cons, List.map_map]
    rfl
  · intro i hi
    cases i with
    | zero => exact h1
    | succ i => exact h3 i (by omega)
  · rcases h4 with ⟨h4, h5⟩ | ⟨h4, h5, h6⟩
    · left; exact ⟨by omega, h5⟩
    · right; exact ⟨by omega, h5, h6⟩

theorem attackLoop_writes (s : ℚ) (n : Nat) : ∀ c : ℚ, Writes (· < 1) (fun i => c + i * s) n (attackLoop s n c) := by
  induction n with
  | zero => intro c; exact ⟨0, rfl, by simp, Or.inl ⟨rfl, by simp [attackLoop]⟩⟩
  | succ n ih =>
    intro c
    unfold attackLoop
    split
    · rename_i h
      have := ih (c + s)
      have e : (fun i : Nat => c + s + i * s) = fun i : Nat => (fun i : Nat => c + i * s) (i + 1) := by
        funext i; simp only; push_cast; ring
      rw [e] at this
      have hw := writes_cons (P := (· < 1)) (u := fun i => c + i * s) (by simpa using h) this
      simpa using hw
    · rename_i h
      exact ⟨0, rfl, by simp, Or.inr ⟨by omega, by simpa using h, by simp⟩⟩

theorem decayLoop_writes (r b : ℚ) (n : Nat) : ∀ c : ℚ, Writes (b < ·) (fun i => c * r ^ i) n (decayLoop r b n c) := by
  induction n with
  | zero => intro c; exact ⟨0, rfl, by simp, Or.inl ⟨rfl, by simp [decayLoop]⟩⟩
  | succ n ih =>
    intro c
    unfold decayLoop
    split
    · rename_i h
      have := ih (c * r)
      have e : (fun i : Nat => c * r * r ^ i) = fun i : Nat => (fun i : Nat => c * r ^ i) (i + 1) := by
        funext i; simp only; ring
      rw [e] at this
      have hw := writes_cons (P := (b < ·)) (u := fun i => c * r ^ i) (by simpa using h) this
      simpa using hw
    · rename_i h
      exact ⟨0, rfl, by simp, Or.inr ⟨by omega, by simpa using h, by simp⟩⟩

theorem fadeLoop_writes (d : ℚ) (n : Nat) : ∀ c : ℚ, Writes (0 < ·) (fun i => c + i * d) n (fadeLoop d n c) := by
  induction n with
  | zero => intro c; exact ⟨0, rfl, by simp, Or.inl ⟨rfl, by simp [fadeLoop]⟩⟩
  | succ n ih =>
    intro c
    unfold fadeLoop
    split
    · rename_i h
      have := ih (c + d)
      have e : (fun i : Nat => c + d + i * d) = fun i : Nat => (fun i : Nat => c + i * d) (i + 1) := by
        funext i; simp only; push_cast; ring
      rw [e] at this
      have hw := writes_cons (P := (0 < ·)) (u := fun i => c + i * d) (by simpa using h) this
      simpa using hw
    · rename_i h
      exact ⟨0, rfl, by simp, Or.inr ⟨by omega, by simpa using h, by simp⟩⟩

theorem sustainLoop_near {S D δ : ℚ} (hδ : -D ≤ δ ∧ δ ≤ 0) (n : Nat) : ∀ c : ℚ, S - D ≤ c → c ≤ S + vz →
    (∀ y ∈ (sustainLoop S δ n c).1, S - D ≤ y ∧ y ≤ S + vz) ∧ S - D ≤ (sustainLoop S δ n c).2 ∧ (sustainLoop S δ n c).2 ≤ S + vz := by
  induction n with
  | zero => intro c h1 h2; exact ⟨by simp [sustainLoop], h1, h2⟩
  | succ n ih =>
    intro c h1 h2
    have h3 : S - D ≤ (if c > S then c + δ else c) ∧ (if c > S then c + δ else c) ≤ S + vz := by
      split
      · exact ⟨by linarith, by linarith⟩
      · exact ⟨h1, h2⟩
    obtain ⟨i1, i2⟩ := ih _ h3.1 h3.2
    unfold sustainLoop
    refine ⟨fun y hy => ?_, i2⟩
    rcases List.mem_cons.mp hy with rfl | hy
    · exact h3
    · exact i1 y hy

theorem lastD_mem {xs : List ℚ} {d : ℚ} (h : xs ≠ []) : xs.getLastD d ∈ xs := by
  rw [List.getLastD_eq_getLast?, List.getLast?_eq_some_getLast h]
  exact List.getLast_mem h

theorem last_sustainLoop (S δ : ℚ) (n : Nat) : ∀ c : ℚ, (sustainLoop S δ n c).2 = (sustainLoop S δ n c).1.getLastD c := by
  induction n with
  | zero => intro c; rfl
  | succ n ih =>
    intro c
    unfold sustainLoop
    simp only [List.getLastD_cons]
    rw [ih]

/-! ### Held -/

/-- What makes sense as a shape. -/
structure Shape.Ok (s : Shape) : Prop where
  start : s.start ≤ 1
  step : 0 < s.step
  rate : 0 ≤ s.rate ∧ s.rate ≤ 1

theorem Shape.below {s : Shape} (h : s.Ok) {j : Nat} (hj : 1 ≤ j) : s.start + j * s.step < 1 ↔ j ≤ s.attack := by
  have e : s.start + j * s.step < 1 ↔ (j : ℚ) < (1 - s.start) / s.step := by
    rw [lt_div_iff₀ h.step]; constructor <;> intro h <;> linarith
  rw [e, ← Nat.lt_ceil]
  unfold Shape.attack
  omega

/-- The envelope has the shape `s`. -/
structure Has (s : Shape) (T : ℚ) (e : Env) : Prop where
  step : e.attackStep = s.step
  rate : e.decayRate = s.rate
  start : e.start = s.start
  sustain : e.sustain = s.sustain
  free : e.freeRunning = false
  trans : e.trans = T

/-- Where the envelope is after `t` frames. -/
def Pos (s : Shape) (T : ℚ) (e : Env) (t : Nat) : Prop :=
  match e.state with
  | .delay => t ≤ s.delay ∧ e.delay = s.delay - t ∧ e.hold = s.hold ∧ e.cur = s.start
  | .attack => ∃ j, t = s.delay + j ∧ j ≤ s.attack ∧ e.cur = s.start + j * s.step ∧ e.hold = s.hold
  | .hold => ∃ k, t = s.delay + s.attack + k ∧ k ≤ s.hold ∧ e.hold = s.hold - k ∧ e.cur = 1
  | .decay => ∃ k, t = s.top + k ∧ e.cur = s.rate ^ k
  | .sustain => s.top ≤ t ∧ s.rate ^ (t - s.top + 1) ≤ s.sustain + vz ∧ s.sustain - vz / T ≤ e.cur ∧ e.cur ≤ s.sustain + vz ∧
      -(vz / T) ≤ e.delta ∧ e.delta ≤ 0
  | _ => False

/-- A level that is right: exactly that of the shape above the sustain level, near the sustain level (0.001) at most that far from it. -/
def Right (s : Shape) (T : ℚ) (t : Nat) (y : ℚ) : Prop :=
  if t < s.top ∨ s.sustain + vz < s.level t then y = s.level t else s.sustain - vz / T ≤ y ∧ y ≤ s.sustain + vz

theorem right_decay {s : Shape} {T : ℚ} (hT : 0 < T) {k : Nat} {y : ℚ} (hy : y = s.rate ^ (k + 1)) (h : s.sustain < y) :
    Right s T (s.top + k) y := by
  have hl : s.level (s.top + k) = s.rate ^ (k + 1) := by
    unfold Shape.level
    rw [if_neg (by unfold Shape.top; omega), if_neg (by unfold Shape.top; omega), if_neg (by omega), Nat.add_sub_cancel_left,
      max_eq_right (by rw [← hy]; exact le_of_lt h)]
  unfold Right
  split
  · rw [hl, hy]
  · rename_i hh
    rw [hl, ← hy] at hh
    have : 0 ≤ vz / T := div_nonneg (by unfold vz; norm_num) (le_of_lt hT)
    exact ⟨by linarith, by by_contra hc; exact hh (Or.inr (by linarith))⟩

theorem right_sustain {s : Shape} {T : ℚ} (hs : s.Ok) {t u : Nat} {y : ℚ} (ht : s.top ≤ t) (hu : t ≤ u)
    (h : s.rate ^ (t - s.top + 1) ≤ s.sustain + vz) (h1 : s.sustain - vz / T ≤ y) (h2 : y ≤ s.sustain + vz) : Right s T u y := by
  unfold Right
  rw [if_neg]
  · exact ⟨h1, h2⟩
  · rintro (hh | hh)
    · omega
    · unfold Shape.level at hh
      rw [if_neg (by unfold Shape.top at *; omega), if_neg (by unfold Shape.top at *; omega), if_neg (by omega)] at hh
      have : s.rate ^ (u - s.top + 1) ≤ s.rate ^ (t - s.top + 1) := pow_le_pow_of_le_one hs.rate.1 hs.rate.2 (by omega)
      have hv : 0 < vz := by unfold vz; norm_num
      rcases max_choice s.sustain (s.rate ^ (u - s.top + 1)) with hm | hm <;> rw [hm] at hh <;> linarith

/-- The part of the envelope that the stages of a held note leave alone. -/
structure Kept (a b : Env) : Prop where
  sr : b.shouldRelease = a.shouldRelease
  rd : b.releaseDelay = a.releaseDelay
  rr : b.releaseRate = a.releaseRate
  dl : a.delay < 0 → b.delay < 0

/-- One stage of a held note. -/
theorem held_segment {s : Shape} (hs : s.Ok) {T : ℚ} (hT : 0 < T) {e : Env} (hc : Has s T e) {t : Nat} (hp : Pos s T e t) (m : Nat) (hm : 0 < m) :
    (∀ i y, (segment e m).1[i]? = some y → Right s T (t + i) y) ∧ Pos s T (segment e m).2 (t + (segment e m).1.length) ∧
    Has s T (segment e m).2 ∧ Kept e (segment e m).2 ∧
    ((segment e m).1.length = m → (segment e m).2.cur = (segment e m).1.getLastD e.cur) := by
  have hv : 0 < vz := by unfold vz; norm_num
  have hvT : 0 ≤ vz / T := div_nonneg (le_of_lt hv) (le_of_lt hT)
  have hlen : ∀ (u : Nat → ℚ) m, ((List.range m).map (fun i => u (i + 1))).getLastD (u 0) = u m := by
    intro u m
    cases m with
    | zero => rfl
    | succ m => rw [List.range_succ, List.map_append]; simp
  unfold segment
  unfold Pos at hp
  cases hst : e.state with
  | delay =>
    rw [hst] at hp
    obtain ⟨h1, h2, h3, h4⟩ := hp
    have hstart := hc.start
    rcases delayLoop_exact m e.delay (by omega) with ⟨h5, h6⟩ | ⟨h5, h6⟩
    · simp only [h6]
      refine ⟨fun i y hy => ?_, ?_, ?_, ?_, fun _ => ?_⟩
      · have hi : i < m := by have := (List.getElem?_eq_some_iff.mp hy).1; simpa using this
        rw [List.getElem?_replicate_of_lt hi] at hy
        have hy' : e.start = y := by simpa using hy
        have : t + i < s.delay := by omega
        unfold Right
        rw [if_pos (by left; unfold Shape.top; omega)]
        unfold Shape.level
        rw [if_pos this, ← hy', hstart]
      · rw [List.length_replicate]
        split
        · refine ⟨0, by omega, by omega, ?_, h3⟩
          simp [hm, hstart]
        · unfold Pos
          simp only [hst]
          refine ⟨by omega, by push_cast; omega, h3, ?_⟩
          simp [hm, hstart]
      · split <;> exact ⟨hc.step, hc.rate, hc.start, hc.sustain, hc.free, hc.trans⟩
      · split <;> exact ⟨rfl, rfl, rfl, fun hh => by simp only; omega⟩
      · have e1 : (List.replicate m e.start).getLastD e.cur = if m > 0 then e.start else e.cur := by
          cases m with
          | zero => rfl
          | succ m => rw [if_pos (by omega)]; exact List.eq_of_mem_replicate (lastD_mem (by simp))
        rw [if_pos hm] at e1
        rw [e1]
        split <;> simp [hm]
    · simp only [h6]
      refine ⟨fun i y hy => ?_, ?_, ?_, ?_, fun hl => ?_⟩
      · have hi : i < e.delay.toNat := by have := (List.getElem?_eq_some_iff.mp hy).1; simpa using this
        rw [List.getElem?_replicate_of_lt hi] at hy
        have hy' : e.start = y := by simpa using hy
        have : t + i < s.delay := by omega
        unfold Right
        rw [if_pos (by left; unfold Shape.top; omega)]
        unfold Shape.level
        rw [if_pos this, ← hy', hstart]
      · rw [List.length_replicate, if_pos (by omega)]
        refine ⟨0, by omega, by omega, ?_, h3⟩
        simp only
        split
        · simp [hstart]
        · simp [h4]
      · split <;> exact ⟨hc.step, hc.rate, hc.start, hc.sustain, hc.free, hc.trans⟩
      · split <;> exact ⟨rfl, rfl, rfl, fun hh => by simp only; omega⟩
      · rw [List.length_replicate] at hl
        omega
  | attack =>
    rw [hst] at hp
    obtain ⟨j, h1, h2, h3, h4⟩ := hp
    obtain ⟨k, w1, w2, w3⟩ := attackLoop_writes e.attackStep m e.cur
    rw [hc.step, h3] at w1 w2 w3
    simp only [hc.step, h3]
    have hb : ∀ i, i < k → j + i + 1 ≤ s.attack := by
      intro i hi
      have := w2 i hi
      rw [← Shape.below hs (by omega)]
      push_cast at this ⊢
      linarith
    have hj : (j : ℚ) ≤ s.attack := by exact_mod_cast h2
    rw [w1]
    have hlk : ((List.range k).map fun i : Nat => s.start + j * s.step + ((i + 1 : Nat) : ℚ) * s.step).length = k := by simp
    refine ⟨fun i y hy => ?_, ?_, ?_, ?_, fun hl => ?_⟩
    · have hi : i < k := by have := (List.getElem?_eq_some_iff.mp hy).1; simpa using this
      rw [List.getElem?_map, List.getElem?_range hi] at hy
      simp only [Option.map_some, Option.some.injEq] at hy
      have := hb i hi
      unfold Right
      rw [if_pos (by left; unfold Shape.top; omega)]
      unfold Shape.level
      rw [if_neg (by omega), if_pos (by omega), ← hy, show t + i - s.delay + 1 = j + i + 1 by omega]
      push_cast; ring
    · rw [hlk]
      rcases w3 with ⟨w3, w4⟩ | ⟨w3, w4, w5⟩
      · subst w3
        rw [w4]
        split
        · rename_i hh
          -- only when nothing was written and the start is at 1
          cases k with
          | zero =>
            have hz : s.start + j * s.step ≥ 1 := by simpa using hh
            have hj0 : j = 0 := by
              by_contra hne
              have := (Shape.below hs (j := j) (by omega)).mpr h2
              linarith
            subst hj0
            have hA : s.attack = 0 := by
              by_contra hne
              have := (Shape.below hs (j := 1) (by omega)).mpr (by omega)
              have h0 := hs.step
              push_cast at this hz
              linarith
            exact ⟨0, by omega, by omega, by simp only; rw [h4]; simp, rfl⟩
          | succ k =>
            have := w2 k (by omega)
            exact absurd hh (not_le.mpr this)
        · unfold Pos
          simp only [hst]
          refine ⟨j + k, by omega, ?_, by push_cast; ring, h4⟩
          cases k with
          | zero => omega
          | succ k => have := hb k (by omega); omega
      · rw [w5, if_pos (not_lt.mp w4)]
        refine ⟨0, ?_, by omega, by simp only; rw [h4]; simp, rfl⟩
        have h5 : ¬(j + k + 1 ≤ s.attack) := by
          rw [← Shape.below hs (by omega)]
          push_cast at w4 ⊢
          intro hh; apply w4; linarith
        have h6 : j + k ≤ s.attack := by
          cases k with
          | zero => omega
          | succ k => have := hb k (by omega); omega
        omega
    · split <;> exact ⟨rfl, hc.rate, hc.start, hc.sustain, hc.free, hc.trans⟩
    · split <;> exact ⟨rfl, rfl, rfl, fun hh => hh⟩
    · rw [hlk] at hl
      have hl' := hlen (fun i : Nat => s.start + j * s.step + (i : ℚ) * s.step) k
      simp only [Nat.cast_zero, zero_mul, add_zero] at hl'
      rw [hl']
      rcases w3 with ⟨w3, w4⟩ | ⟨w3, w4, w5⟩
      · rw [w4]
        split
        · rename_i hh
          cases k with
          | zero =>
            have hz : s.start + j * s.step ≥ 1 := by
              rw [← w3] at hh; simpa using hh
            have hj0 : j = 0 := by
              by_contra hne
              have := (Shape.below hs (j := j) (by omega)).mpr h2
              linarith
            subst hj0
            have := hs.start
            simp at hz ⊢
            linarith
          | succ k =>
            have := w2 k (by omega)
            rw [← w3] at hh
            exact absurd hh (not_le.mpr this)
        · rw [w3]
      · omega
  | hold =>
    rw [hst] at hp
    obtain ⟨k, h1, h2, h3, h4⟩ := hp
    have hgood : ∀ n : Nat, n ≤ s.hold - k → ∀ i y, (List.replicate n e.cur)[i]? = some y → Right s T (t + i) y := by
      intro n hn i y hy
      have hi : i < n := by have := (List.getElem?_eq_some_iff.mp hy).1; simpa using this
      rw [List.getElem?_replicate_of_lt hi] at hy
      have hy' : e.cur = y := by simpa using hy
      unfold Right
      rw [if_pos (by left; unfold Shape.top; omega)]
      unfold Shape.level
      rw [if_neg (by omega), if_neg (by omega), if_pos (by unfold Shape.top; omega), ← hy', h4]
    rcases delayLoop_exact m e.hold (by omega) with ⟨h5, h6⟩ | ⟨h5, h6⟩
    · simp only [h6]
      refine ⟨hgood m (by omega), ?_, ?_, ?_, fun _ => ?_⟩
      · rw [List.length_replicate]
        split
        · exact ⟨0, by unfold Shape.top; omega, by simpa using h4⟩
        · unfold Pos
          simp only [hst]
          exact ⟨k + m, by omega, by omega, by push_cast; omega, h4⟩
      · split <;> exact ⟨hc.step, hc.rate, hc.start, hc.sustain, hc.free, hc.trans⟩
      · split <;> exact ⟨rfl, rfl, rfl, fun hh => hh⟩
      · have e1 : (List.replicate m e.cur).getLastD e.cur = e.cur := by
          cases m with
          | zero => rfl
          | succ m => exact List.eq_of_mem_replicate (lastD_mem (by simp))
        split <;> exact e1.symm
    · simp only [h6]
      refine ⟨hgood _ (by omega), ?_, ?_, ?_, fun hl => ?_⟩
      · rw [List.length_replicate, if_pos (by omega)]
        exact ⟨0, by unfold Shape.top; omega, by simpa using h4⟩
      · split <;> exact ⟨hc.step, hc.rate, hc.start, hc.sustain, hc.free, hc.trans⟩
      · split <;> exact ⟨rfl, rfl, rfl, fun hh => hh⟩
      · rw [List.length_replicate] at hl
        omega
  | decay =>
    rw [hst] at hp
    obtain ⟨k, h1, h2⟩ := hp
    obtain ⟨n, w1, w2, w3⟩ := decayLoop_writes e.decayRate e.sustain m e.cur
    rw [hc.rate, hc.sustain, h2] at w1 w2 w3
    have htr : ∀ d : Env, d.sampleRate = e.sampleRate → d.trans = T := by
      intro d hd; rw [← hc.trans]; unfold Env.trans; rw [hd]
    simp only [hc.rate, hc.sustain, h2]
    rw [w1]
    have hlk : ((List.range n).map fun i : Nat => s.rate ^ k * s.rate ^ (i + 1)).length = n := by simp
    have hval : (∃ i, (decayLoop s.rate s.sustain m (s.rate ^ k)).2 = s.rate ^ (k + i) ∧ i ≤ n + 1) := by
      rcases w3 with ⟨w3, w4⟩ | ⟨w3, w4, w5⟩
      · exact ⟨n, by rw [w4, pow_add, w3], by omega⟩
      · exact ⟨n + 1, by rw [w5, pow_add], by omega⟩
    refine ⟨fun i y hy => ?_, ?_, ?_, ?_, fun hl => ?_⟩
    · have hi : i < n := by have := (List.getElem?_eq_some_iff.mp hy).1; simpa using this
      rw [List.getElem?_map, List.getElem?_range hi] at hy
      simp only [Option.map_some, Option.some.injEq] at hy
      have := w2 i hi
      rw [h1, show s.top + k + i = s.top + (k + i) by omega]
      apply right_decay hT
      · rw [← hy]; ring
      · rw [← hy]; exact this
    · rw [hlk]
      split
      · rename_i hh
        obtain ⟨i, hv1, hv2⟩ := hval
        unfold Pos
        simp only
        rw [hv1] at hh ⊢
        have hd1 : 0 ≤ max s.sustain (s.rate ^ (k + i)) - s.sustain := by have := le_max_left s.sustain (s.rate ^ (k + i)); linarith
        have hd2 : max s.sustain (s.rate ^ (k + i)) - s.sustain ≤ vz := by
          rcases max_choice s.sustain (s.rate ^ (k + i)) with hm | hm <;> rw [hm] <;> linarith
        have hT' : ({ e with state := .sustain, cur := max s.sustain (s.rate ^ (k + i)), delta := (s.sustain - max s.sustain (s.rate ^ (k + i))) / e.trans } : Env).trans = T := htr _ rfl
        rw [hc.trans]
        refine ⟨by omega, ?_, by linarith, by linarith, ?_, ?_⟩
        · refine le_trans ?_ hh
          exact pow_le_pow_of_le_one hs.rate.1 hs.rate.2 (by omega)
        · rw [← neg_div]
          exact div_le_div_of_nonneg_right (by linarith) (le_of_lt hT)
        · exact div_nonpos_of_nonpos_of_nonneg (by linarith) (le_of_lt hT)
      · rename_i hh
        rcases w3 with ⟨w3, w4⟩ | ⟨w3, w4, w5⟩
        · unfold Pos
          simp only [hst]
          exact ⟨k + n, by omega, by rw [w4, pow_add, w3]⟩
        · exfalso
          apply hh
          rw [w5]
          have := not_lt.mp w4
          linarith
    · split
      · exact ⟨hc.step, rfl, hc.start, rfl, hc.free, htr _ rfl⟩
      · exact ⟨hc.step, rfl, hc.start, rfl, hc.free, htr _ rfl⟩
    · split <;> exact ⟨rfl, rfl, rfl, fun hh => hh⟩
    · rw [hlk] at hl
      have hl' := hlen (fun i : Nat => s.rate ^ k * s.rate ^ i) n
      simp only [pow_zero, mul_one] at hl'
      rw [hl']
      rcases w3 with ⟨w3, w4⟩ | ⟨w3, w4, w5⟩
      · rw [w4, ← w3]
        split
        · simp only
          cases n with
          | zero => omega
          | succ n => exact max_eq_right (le_of_lt (w2 n (by omega)))
        · rfl
      · omega
  | sustain =>
    rw [hst] at hp
    obtain ⟨h1, h2, h3, h4, h5, h6⟩ := hp
    rw [if_neg (by rw [hc.free]; simp)]
    obtain ⟨k1, k2, k3⟩ := sustainLoop_near (S := s.sustain) (D := vz / T) ⟨h5, h6⟩ m e.cur h3 h4
    simp only [hc.sustain]
    refine ⟨fun i y hy => ?_, ?_, ⟨hc.step, hc.rate, hc.start, rfl, hc.free, hc.trans⟩, ⟨rfl, rfl, rfl, fun hh => hh⟩, fun _ => last_sustainLoop _ _ _ _⟩
    · obtain ⟨k4, k5⟩ := k1 y (List.mem_of_getElem? hy)
      exact right_sustain hs h1 (by omega) h2 k4 k5
    · unfold Pos
      simp only [hst]
      refine ⟨by omega, le_trans (pow_le_pow_of_le_one hs.rate.1 hs.rate.2 (by omega)) h2, k2, k3, h5, h6⟩
  | release => rw [hst] at hp; exact hp.elim
  | fadeout => rw [hst] at hp; exact hp.elim
  | done => rw [hst] at hp; exact hp.elim

/-- A held note after `t` frames. -/
structure Held (s : Shape) (T : ℚ) (e : Env) (t : Nat) : Prop where
  has : Has s T e
  pos : Pos s T e t
  sr : e.shouldRelease = false

/-- The blocks of a held note. -/
theorem held_block {s : Shape} (hs : s.Ok) {T : ℚ} (hT : 0 < T) (e : Env) (n : Nat) : ∀ t, Held s T e t →
    (∀ i y, (block e n).1[i]? = some y → Right s T (t + i) y) ∧ Held s T (block e n).2 (t + n) ∧ Kept e (block e n).2 ∧
    (block e n).2.cur = (block e n).1.getLastD e.cur := by
  fun_induction block with
  | case1 e => intro t h; exact ⟨by simp, h, ⟨rfl, rfl, rfl, fun hh => hh⟩, rfl⟩
  | case2 e n hn tr r ih =>
    intro t h
    have hturn : turn e n = segment e n := by
      unfold turn prepare
      simp only [h.sr, Bool.false_eq_true, if_false]
      obtain ⟨_, _, _, h4, _⟩ := held_segment hs hT h.has h.pos n (by omega)
      unfold finish
      rw [h4.sr, h.sr]
      simp
    obtain ⟨h1, h2, h3, h4, h5⟩ := held_segment hs hT h.has h.pos n (by omega)
    have htr : tr = segment e n := hturn
    rw [htr] at ih ⊢
    have hlen : (segment e n).1.length ≤ n := segment_length e n
    obtain ⟨i1, i2, i3, i4⟩ := ih (t + (segment e n).1.length) ⟨h3, h2, by rw [h4.sr, h.sr]⟩
    have hr : r = block (segment e n).2 (n - (segment e n).1.length) := by rw [← htr]
    refine ⟨fun i y hy => ?_, ?_, ?_, ?_⟩
    · by_cases hi : i < (segment e n).1.length
      · rw [List.getElem?_append_left hi] at hy
        exact h1 i y hy
      · rw [List.getElem?_append_right (by omega), hr] at hy
        have := i1 _ y hy
        rwa [show t + (segment e n).1.length + (i - (segment e n).1.length) = t + i by omega] at this
    · rw [hr]
      rwa [show t + (segment e n).1.length + (n - (segment e n).1.length) = t + n by omega] at i2
    · rw [hr]
      exact ⟨by rw [i3.sr, h4.sr], by rw [i3.rd, h4.rd], by rw [i3.rr, h4.rr], fun hh => i3.dl (h4.dl hh)⟩
    · rw [hr]
      by_cases hf : (segment e n).1.length = n
      · have e1 := h5 hf
        have e2 : n - (segment e n).1.length = 0 := by omega
        rw [e2]
        rw [block]
        simp [e1]
      · have hne : (block (segment e n).2 (n - (segment e n).1.length)).1 ≠ [] := by
          intro hh
          have := block_length (segment e n).2 (n - (segment e n).1.length)
          rw [hh] at this
          simp only [List.length_nil] at this
          omega
        rw [i4, List.getLastD_eq_getLast?, List.getLastD_eq_getLast?, List.getLast?_append, List.getLast?_eq_some_getLast hne]
        rfl

/-- The delay was not over at the end of a block: it still runs, or was over within a block. -/
def Crossed (e : Env) : Prop := e.state = .delay ∨ e.delay < 0

theorem crossed_block {s : Shape} (hs : s.Ok) {T : ℚ} (hT : 0 < T) {e : Env} {n t : Nat} (h : Held s T e t) (hc : Crossed e)
    (hn : n = 0 ∨ t + n ≠ s.delay) : Crossed (block e n).2 := by
  by_cases hd : e.delay < 0
  · exact Or.inr ((held_block hs hT e n t h).2.2.1.dl hd)
  · have hst : e.state = .delay := by rcases hc with hc | hc; exacts [hc, absurd hc hd]
    have hp := h.pos
    unfold Pos at hp
    rw [hst] at hp
    obtain ⟨h1, h2, _, _⟩ := hp
    rw [block]
    by_cases h0 : n = 0
    · rw [dif_pos h0]; exact Or.inl hst
    · rw [dif_neg h0]
      have hturn : turn e n = segment e n := by
        unfold turn prepare
        simp only [h.sr, Bool.false_eq_true, if_false]
        obtain ⟨_, _, _, h4, _⟩ := held_segment hs hT h.has h.pos n (by omega)
        unfold finish
        rw [h4.sr, h.sr]
        simp
      obtain ⟨_, g2, g3, g4, _⟩ := held_segment hs hT h.has h.pos n (by omega)
      simp only [hturn]
      rcases delayLoop_exact n e.delay (by omega) with ⟨h5, h6⟩ | ⟨h5, h6⟩
      · have hseg : (segment e n).1.length = n ∧ (segment e n).2.state = .delay := by
          unfold segment
          simp only [hst, h6]
          rw [if_neg (by omega)]
          simp
        rw [hseg.1, Nat.sub_self, block]
        exact Or.inl hseg.2
      · have hseg : (segment e n).2.delay < 0 := by
          unfold segment
          simp only [hst, h6]
          rw [if_pos (by omega)]
          simp
        exact Or.inr ((held_block hs hT _ _ _ ⟨g3, g2, by rw [g4.sr, h.sr]⟩).2.2.1.dl hseg)

/-! ### Released -/

/-- A note that is to be released in `d` frames. -/
structure Pending (s : Shape) (T ρ : ℚ) (e : Env) (t d : Nat) : Prop where
  has : Has s T e
  pos : Pos s T e t
  sr : e.shouldRelease = true
  rd : e.releaseDelay = d
  rr : e.releaseRate = ρ
  dl : e.delay < 0

theorem pending_block {s : Shape} (hs : s.Ok) {T ρ : ℚ} (hT : 0 < T) (e : Env) (n : Nat) : ∀ t d, Pending s T ρ e t d →
    ∃ l e', l.length = min n d ∧ (∀ i y, l[i]? = some y → Right s T (t + i) y) ∧ Pending s T ρ e' (t + min n d) (d - min n d) ∧
      e'.cur = l.getLastD e.cur ∧ block e n = (l ++ (block e' (n - min n d)).1, (block e' (n - min n d)).2) := by
  fun_induction block with
  | case1 e =>
    intro t d h
    refine ⟨[], e, by simp, by simp, by simpa using h, rfl, ?_⟩
    rw [show 0 - min 0 d = 0 by omega, block]
    simp
  | case2 e n hn tr r ih =>
    intro t d h
    rcases Nat.eq_zero_or_pos d with hd | hd
    · subst hd
      refine ⟨[], e, by simp, by simp, by simpa using h, rfl, ?_⟩
      rw [show n - min n 0 = n by omega, block, dif_neg hn]
      simp only [List.nil_append]
      exact rfl
    · obtain ⟨h1, h2, h3, h4, h5⟩ := held_segment hs hT h.has h.pos (min n d) (by omega)
      have hlen : (segment e (min n d)).1.length ≤ min n d := segment_length e _
      have hturn : turn e n = ((segment e (min n d)).1, { (segment e (min n d)).2 with releaseDelay := (d - (segment e (min n d)).1.length : Nat) }) := by
        unfold turn prepare
        have hrd := h.rd
        simp only [h.sr, if_true, hrd]
        rw [if_pos (by omega)]
        simp only [Int.toNat_natCast]
        unfold finish
        rw [h4.sr, h.sr, if_pos rfl, h4.rd, hrd]
        congr 2
        omega
      have htr : tr = ((segment e (min n d)).1, { (segment e (min n d)).2 with releaseDelay := (d - (segment e (min n d)).1.length : Nat) }) := hturn
      obtain ⟨l, e', k1, k2, k3, k4, k5⟩ := ih (t + (segment e (min n d)).1.length) (d - (segment e (min n d)).1.length) (by
        rw [htr]
        exact ⟨⟨h3.step, h3.rate, h3.start, h3.sustain, h3.free, h3.trans⟩, h2, by simp only; rw [h4.sr, h.sr], rfl,
          by simp only; rw [h4.rr, h.rr], h4.dl h.dl⟩)
      rw [htr] at k1 k3 k4 k5
      simp only at k1 k3 k4 k5
      have hm : min (n - (segment e (min n d)).1.length) (d - (segment e (min n d)).1.length) = min n d - (segment e (min n d)).1.length := by omega
      rw [hm] at k1 k3 k5
      refine ⟨(segment e (min n d)).1 ++ l, e', ?_, fun i y hy => ?_, ?_, ?_, ?_⟩
      · rw [List.length_append, k1]; omega
      · by_cases hi : i < (segment e (min n d)).1.length
        · rw [List.getElem?_append_left hi] at hy
          exact h1 i y hy
        · rw [List.getElem?_append_right (by omega)] at hy
          have := k2 _ y hy
          rwa [show t + (segment e (min n d)).1.length + (i - (segment e (min n d)).1.length) = t + i by omega] at this
      · rwa [show t + (segment e (min n d)).1.length + (min n d - (segment e (min n d)).1.length) = t + min n d by omega,
          show d - (segment e (min n d)).1.length - (min n d - (segment e (min n d)).1.length) = d - min n d by omega] at k3
      · rw [k4]
        by_cases hf : (segment e (min n d)).1.length = min n d
        · have hl : l = [] := List.length_eq_zero_iff.mp (by omega)
          rw [hl, h5 hf]
          simp
        · have hne : l ≠ [] := by
            intro hh
            rw [hh] at k1
            simp only [List.length_nil] at k1
            omega
          rw [List.getLastD_eq_getLast?, List.getLastD_eq_getLast?, List.getLast?_append, List.getLast?_eq_some_getLast hne]
          rfl
      · have hr : r = block { (segment e (min n d)).2 with releaseDelay := (d - (segment e (min n d)).1.length : Nat) } (n - (segment e (min n d)).1.length) := by
          show block tr.2 (n - tr.1.length) = _
          rw [htr]
        rw [hr, htr]
        rw [show n - (segment e (min n d)).1.length - (min n d - (segment e (min n d)).1.length) = n - min n d by omega] at k5
        simp only
        rw [k5, List.append_assoc]

/-- A released note, `i` frames after its release at level `v`. -/
structure Released (v ρ T : ℚ) (K : Nat) (e : Env) (i : Nat) : Prop where
  sr : e.shouldRelease = true
  rd : e.releaseDelay = -1
  rr : e.releaseRate = ρ
  trans : e.trans = T
  pos : match e.state with
    | .release => i ≤ K ∧ e.cur = v * ρ ^ i
    | .fadeout => K ≤ i ∧ e.delta = -(max thr (v * ρ ^ K)) / T ∧ e.cur = v * ρ ^ K - (i - K : Nat) * (max thr (v * ρ ^ K) / T)
    | .done => K ≤ i ∧ v * ρ ^ K - (i - K + 1 : Nat) * (max thr (v * ρ ^ K) / T) ≤ 0
    | _ => False

theorem released_segment {v ρ T : ℚ} (hT : 0 < T) {K : Nat} (hK1 : ∀ j, 1 ≤ j → j ≤ K → thr < v * ρ ^ j) (hK2 : v * ρ ^ (K + 1) ≤ thr)
    {e : Env} {i : Nat} (h : Released v ρ T K e i) (m : Nat) (hm : 0 < m) :
    (∀ j y, (segment e m).1[j]? = some y → y = releaseLevel v ρ T K (i + j)) ∧
    Released v ρ T K (segment e m).2 (i + (segment e m).1.length) := by
  have htr : ∀ d : Env, d.sampleRate = e.sampleRate → d.trans = T := by
    intro d hd; rw [← h.trans]; unfold Env.trans; rw [hd]
  have hpos := h.pos
  have hδ : 0 < max thr (v * ρ ^ K) / T := div_pos (lt_of_lt_of_le thr_pos (le_max_left _ _)) hT
  unfold segment
  cases hst : e.state with
  | release =>
    rw [hst] at hpos
    obtain ⟨h1, h2⟩ := hpos
    obtain ⟨n, w1, w2, w3⟩ := decayLoop_writes e.releaseRate thr m e.cur
    rw [h.rr, h2] at w1 w2 w3
    simp only [h.rr, h2]
    rw [w1]
    have hn : i + n ≤ K := by
      by_contra hc
      have hlt : K - i < n := by omega
      have : thr < v * ρ ^ i * ρ ^ (K - i + 1) := w2 (K - i) hlt
      rw [mul_assoc, ← pow_add, show i + (K - i + 1) = K + 1 by omega] at this
      linarith
    have hlk : ((List.range n).map fun j : Nat => v * ρ ^ i * ρ ^ (j + 1)).length = n := by simp
    refine ⟨fun j y hy => ?_, ?_⟩
    · have hj : j < n := by have := (List.getElem?_eq_some_iff.mp hy).1; simpa using this
      rw [List.getElem?_map, List.getElem?_range hj] at hy
      simp only [Option.map_some, Option.some.injEq] at hy
      unfold releaseLevel
      rw [if_pos (by omega), ← hy]
      ring
    · rw [hlk]
      split
      · rename_i hh
        have hiK : i + n = K := by
          rcases w3 with ⟨w3, w4⟩ | ⟨w3, w4, w5⟩
          · rw [w4] at hh
            simp only at hh
            rw [mul_assoc, ← pow_add] at hh
            by_contra hc
            have := hK1 (i + m) (by omega) (by omega)
            linarith
          · simp only at w4
            rw [mul_assoc, ← pow_add] at w4
            by_contra hc
            exact w4 (hK1 _ (by omega) (by omega))
        have hprev : previous (v * ρ ^ i) ((List.range n).map fun j : Nat => v * ρ ^ i * ρ ^ (j + 1)) = v * ρ ^ K := by
          unfold previous
          cases n with
          | zero => simp [← hiK]
          | succ n =>
            rw [List.range_succ, List.map_append]
            simp only [List.map_cons, List.map_nil, List.getLast?_append, List.getLast?_singleton, Option.some_or, Option.getD_some]
            rw [← hiK]; ring
        rw [hprev]
        refine ⟨h.sr, h.rd, rfl, htr _ rfl, ?_⟩
        simp only
        rw [h.trans, hiK]
        exact ⟨le_refl _, rfl, by simp⟩
      · rename_i hh
        refine ⟨h.sr, h.rd, rfl, htr _ rfl, ?_⟩
        simp only [hst]
        refine ⟨hn, ?_⟩
        rcases w3 with ⟨w3, w4⟩ | ⟨w3, w4, w5⟩
        · rw [w4, w3]; ring
        · exact absurd (by rw [w5]; exact not_lt.mp w4) hh
  | fadeout =>
    rw [hst] at hpos
    obtain ⟨h1, h2, h3⟩ := hpos
    obtain ⟨n, w1, w2, w3⟩ := fadeLoop_writes e.delta m e.cur
    rw [h2, h3] at w1 w2 w3
    simp only [h2, h3]
    rw [w1]
    have hval : ∀ j : Nat, v * ρ ^ K - (i - K : Nat) * (max thr (v * ρ ^ K) / T) + (j : ℚ) * (-(max thr (v * ρ ^ K)) / T) =
        v * ρ ^ K - (i - K + j : Nat) * (max thr (v * ρ ^ K) / T) := by
      intro j; push_cast; ring
    have hlk : ((List.range n).map fun j : Nat => v * ρ ^ K - ((i - K : Nat) : ℚ) * (max thr (v * ρ ^ K) / T) +
        ((j + 1 : Nat) : ℚ) * (-(max thr (v * ρ ^ K)) / T)).length = n := by simp
    refine ⟨fun j y hy => ?_, ?_⟩
    · have hj : j < n := by have := (List.getElem?_eq_some_iff.mp hy).1; simpa using this
      rw [List.getElem?_map, List.getElem?_range hj] at hy
      simp only [Option.map_some, Option.some.injEq] at hy
      have h4 := w2 j hj
      simp only at h4
      rw [hval] at hy h4
      unfold releaseLevel
      rw [if_neg (by omega), show i + j - K + 1 = i - K + (j + 1) by omega, max_eq_right (le_of_lt h4), hy]
    · rw [hlk]
      split
      · rename_i hh
        refine ⟨h.sr, h.rd, h.rr, htr _ rfl, ?_⟩
        simp only
        refine ⟨by omega, ?_⟩
        rcases w3 with ⟨w3, w4⟩ | ⟨w3, w4, w5⟩
        · subst w3
          have h5 := w2 (n - 1) (by omega)
          rw [w4] at hh
          simp only at h5
          rw [show n - 1 + 1 = n by omega] at h5
          linarith
        · simp only at w4
          rw [hval] at w4
          rw [show i + n - K + 1 = i - K + (n + 1) by omega]
          exact not_lt.mp w4
      · rename_i hh
        refine ⟨h.sr, h.rd, h.rr, htr _ rfl, ?_⟩
        simp only [hst]
        refine ⟨by omega, trivial, ?_⟩
        rcases w3 with ⟨w3, w4⟩ | ⟨w3, w4, w5⟩
        · rw [w4]
          simp only
          rw [hval, w3, show i + m - K = i - K + m by omega]
        · exact absurd (by rw [w5]; exact not_lt.mp w4) hh
  | done =>
    rw [hst] at hpos
    obtain ⟨h1, h2⟩ := hpos
    have hle : ∀ j : Nat, v * ρ ^ K - (i + j - K + 1 : Nat) * (max thr (v * ρ ^ K) / T) ≤ 0 := by
      intro j
      rw [show i + j - K + 1 = i - K + 1 + j by omega]
      push_cast at h2 ⊢
      have : 0 ≤ (j : ℚ) * (max thr (v * ρ ^ K) / T) := mul_nonneg (by positivity) (le_of_lt hδ)
      linarith
    refine ⟨fun j y hy => ?_, ?_⟩
    · have hj : j < m := by have := (List.getElem?_eq_some_iff.mp hy).1; simpa using this
      simp only at hy
      rw [List.getElem?_replicate_of_lt hj] at hy
      have hy' : (0 : ℚ) = y := by simpa using hy
      unfold releaseLevel
      rw [if_neg (by omega), max_eq_left (hle j), hy']
    · refine ⟨h.sr, h.rd, h.rr, htr _ rfl, ?_⟩
      simp only [hst, List.length_replicate]
      exact ⟨by omega, hle m⟩
  | delay => rw [hst] at hpos; exact hpos.elim
  | attack => rw [hst] at hpos; exact hpos.elim
  | hold => rw [hst] at hpos; exact hpos.elim
  | decay => rw [hst] at hpos; exact hpos.elim
  | sustain => rw [hst] at hpos; exact hpos.elim

theorem released_prepare {v ρ T : ℚ} {K : Nat} {e : Env} {i : Nat} (h : Released v ρ T K e i) (n : Nat) : prepare e n = (e, n) := by
  have hs : ¬e.state.index < 5 := by
    have hp := h.pos
    cases hst : e.state <;> rw [hst] at hp <;> first | exact hp.elim | simp [St.index]
  unfold prepare
  rw [if_pos h.sr, h.rd, if_neg (by omega), if_neg (by omega), if_neg (fun hh => hs hh.2.1)]

theorem released_block {v ρ T : ℚ} (hT : 0 < T) {K : Nat} (hK1 : ∀ j, 1 ≤ j → j ≤ K → thr < v * ρ ^ j) (hK2 : v * ρ ^ (K + 1) ≤ thr)
    (e : Env) (n : Nat) : ∀ i, Released v ρ T K e i →
    (∀ j y, (block e n).1[j]? = some y → y = releaseLevel v ρ T K (i + j)) ∧ Released v ρ T K (block e n).2 (i + n) := by
  fun_induction block with
  | case1 e => intro i h; exact ⟨by simp, h⟩
  | case2 e n hn tr r ih =>
    intro i h
    obtain ⟨h1, h2⟩ := released_segment hT hK1 hK2 h n (by omega)
    have hturn : tr = segment e n := by
      show turn e n = _
      unfold turn
      rw [released_prepare h]
      simp only
      unfold finish
      have hrd := h2.rd
      rw [if_pos h2.sr, hrd, show max (-1 : Int) (-1 - ((segment e n).1.length : Nat)) = -1 by omega]
      refine Prod.ext rfl ?_
      simp only
      rw [← hrd]
    rw [hturn] at ih
    have hlen : (segment e n).1.length ≤ n := segment_length e n
    obtain ⟨i1, i2⟩ := ih _ h2
    have hr : r = block (segment e n).2 (n - (segment e n).1.length) := by
      show block tr.2 (n - tr.1.length) = _
      rw [hturn]
    rw [hr, hturn]
    refine ⟨fun j y hy => ?_, ?_⟩
    · by_cases hj : j < (segment e n).1.length
      · rw [List.getElem?_append_left hj] at hy
        exact h1 j y hy
      · rw [List.getElem?_append_right (by omega)] at hy
        have := i1 _ y hy
        rwa [show i + (segment e n).1.length + (j - (segment e n).1.length) = i + j by omega] at this
    · rwa [show i + (segment e n).1.length + (n - (segment e n).1.length) = i + n by omega] at i2

/-- The moment of the release. -/
theorem release_moment {s : Shape} {T ρ : ℚ} {e : Env} {t : Nat} (h : Pending s T ρ e t 0) (n : Nat) (hn : 0 < n) (K : Nat) :
    ∃ e0, Released e.cur ρ T K e0 0 ∧ block e n = block e0 n := by
  have hr : Released e.cur ρ T K { e with state := .release, releaseDelay := -1 } 0 :=
    ⟨h.sr, rfl, h.rr, by rw [← h.has.trans]; rfl, by simp⟩
  refine ⟨{ e with state := .release, releaseDelay := -1 }, hr, ?_⟩
  have hrd := h.rd
  have hturn : turn e n = turn { e with state := .release, releaseDelay := -1 } n := by
    unfold turn
    rw [released_prepare hr]
    have : prepare e n = ({ e with state := .release, releaseDelay := -1 }, n) := by
      unfold prepare
      have := h.dl
      rw [if_pos h.sr, hrd, if_neg (by omega), if_pos ⟨by simp, by omega⟩, if_pos h.dl]
    rw [this]
  rw [block, dif_neg (by omega), hturn]
  conv_rhs => rw [block, dif_neg (by omega)]

/-! ### Blocks -/

/-- The levels of consecutive blocks. -/
def gets (e : Env) (ns : List Nat) : List ℚ × Env := runAll e (ns.map .get)

theorem gets_cons (e : Env) (n : Nat) (ns : List Nat) :
    gets e (n :: ns) = ((block e n).1 ++ (gets (block e n).2 ns).1, (gets (block e n).2 ns).2) := rfl

theorem gets_length (ns : List Nat) : ∀ e, (gets e ns).1.length = ns.sum := by
  induction ns with
  | nil => intro e; rfl
  | cons n ns ih => intro e; rw [gets_cons]; simp [block_length, ih]

theorem lastD_append (a b : List ℚ) (c : ℚ) : (a ++ b).getLastD c = b.getLastD (a.getLastD c) := by
  rcases List.eq_nil_or_concat b with rfl | ⟨b, x, rfl⟩
  · simp
  · rw [List.concat_eq_append, ← List.append_assoc]
    simp [List.getLastD_eq_getLast?]

theorem held_gets {s : Shape} (hs : s.Ok) {T : ℚ} (hT : 0 < T) (ns : List Nat) : ∀ e t, Held s T e t → Crossed e →
    (∀ k, 0 < k → t + (ns.take k).sum = s.delay → (ns.take k).sum = 0) →
    (∀ i y, (gets e ns).1[i]? = some y → Right s T (t + i) y) ∧ Held s T (gets e ns).2 (t + ns.sum) ∧ Kept e (gets e ns).2 ∧
    (gets e ns).2.cur = (gets e ns).1.getLastD e.cur ∧ Crossed (gets e ns).2 := by
  induction ns with
  | nil => intro e t h hc _; exact ⟨by simp [gets, runAll], h, ⟨rfl, rfl, rfl, fun hh => hh⟩, rfl, hc⟩
  | cons n ns ih =>
    intro e t h hc hcut
    obtain ⟨h1, h2, h3, h4⟩ := held_block hs hT e n t h
    have h5 := crossed_block hs hT (n := n) h hc (by
      by_contra hh
      have := hcut 1 (by omega) (by simp only [List.take_succ_cons, List.take_zero, List.sum_cons, List.sum_nil, add_zero]; omega)
      simp at this
      omega)
    obtain ⟨i1, i2, i3, i4, i5⟩ := ih _ (t + n) h2 h5 (fun k hk he => by
      have := hcut (k + 1) (by omega) (by rw [List.take_succ_cons, List.sum_cons]; omega)
      rw [List.take_succ_cons, List.sum_cons] at this
      omega)
    rw [gets_cons]
    refine ⟨fun i y hy => ?_, ?_, ?_, ?_, i5⟩
    · by_cases hi : i < n
      · rw [List.getElem?_append_left (by rw [block_length]; exact hi)] at hy
        exact h1 i y hy
      · rw [List.getElem?_append_right (by rw [block_length]; omega), block_length] at hy
        have := i1 _ y hy
        rwa [show t + n + (i - n) = t + i by omega] at this
    · rw [List.sum_cons, ← Nat.add_assoc]; exact i2
    · exact ⟨by rw [i3.sr, h3.sr], by rw [i3.rd, h3.rd], by rw [i3.rr, h3.rr], fun hh => i3.dl (h3.dl hh)⟩
    · rw [i4, h4, lastD_append]

/-- As before, whether or not the delay ends with a block. -/
theorem held_gets_any {s : Shape} (hs : s.Ok) {T : ℚ} (hT : 0 < T) (ns : List Nat) : ∀ e t, Held s T e t →
    (∀ i y, (gets e ns).1[i]? = some y → Right s T (t + i) y) := by
  induction ns with
  | nil => intro e t _; simp [gets, runAll]
  | cons n ns ih =>
    intro e t h i y hy
    obtain ⟨h1, h2, _, _⟩ := held_block hs hT e n t h
    rw [gets_cons] at hy
    by_cases hi : i < n
    · rw [List.getElem?_append_left (by rw [block_length]; exact hi)] at hy
      exact h1 i y hy
    · rw [List.getElem?_append_right (by rw [block_length]; omega), block_length] at hy
      have := ih _ (t + n) h2 _ y hy
      rwa [show t + n + (i - n) = t + i by omega] at this

theorem released_gets {v ρ T : ℚ} (hT : 0 < T) {K : Nat} (hK1 : ∀ j, 1 ≤ j → j ≤ K → thr < v * ρ ^ j) (hK2 : v * ρ ^ (K + 1) ≤ thr)
    (ns : List Nat) : ∀ e i, Released v ρ T K e i → ∀ j y, (gets e ns).1[j]? = some y → y = releaseLevel v ρ T K (i + j) := by
  induction ns with
  | nil => intro e i _; simp [gets, runAll]
  | cons n ns ih =>
    intro e i h j y hy
    obtain ⟨h1, h2⟩ := released_block hT hK1 hK2 e n i h
    rw [gets_cons] at hy
    by_cases hj : j < n
    · rw [List.getElem?_append_left (by rw [block_length]; exact hj)] at hy
      exact h1 j y hy
    · rw [List.getElem?_append_right (by rw [block_length]; omega), block_length] at hy
      have := ih _ (i + n) h2 _ y hy
      rwa [show i + n + (j - n) = i + j by omega] at this

theorem pending_gets {s : Shape} (hs : s.Ok) {T ρ : ℚ} (hT : 0 < T) (ns : List Nat) : ∀ e t d, Pending s T ρ e t d →
    (∀ i y, i < d → (gets e ns).1[i]? = some y → Right s T (t + i) y) ∧
    (∀ v, v = ((gets e ns).1.take d).getLastD e.cur → ∀ K, (∀ j, 1 ≤ j → j ≤ K → thr < v * ρ ^ j) → v * ρ ^ (K + 1) ≤ thr →
      ∀ i y, (gets e ns).1[d + i]? = some y → y = releaseLevel v ρ T K i) := by
  induction ns with
  | nil => intro e t d _; exact ⟨by simp [gets, runAll], by simp [gets, runAll]⟩
  | cons n ns ih =>
    intro e t d h
    obtain ⟨l, e', h1, h2, h3, h4, h5⟩ := pending_block hs hT e n t d h
    rw [gets_cons]
    by_cases hn : n ≤ d
    · have hb : block e n = (l, e') := by
        rw [h5, show n - min n d = 0 by omega, block]
        simp
      rw [show min n d = n by omega] at h1 h3
      obtain ⟨i1, i2⟩ := ih e' (t + n) (d - n) h3
      rw [hb]
      simp only
      refine ⟨fun i y hi hy => ?_, fun v hv K hK1 hK2 i y hy => ?_⟩
      · by_cases hin : i < n
        · rw [List.getElem?_append_left (by omega)] at hy
          exact h2 i y hy
        · rw [List.getElem?_append_right (by omega), h1] at hy
          have := i1 _ y (by omega) hy
          rwa [show t + n + (i - n) = t + i by omega] at this
      · rw [List.getElem?_append_right (by omega), h1, show d + i - n = d - n + i by omega] at hy
        refine i2 v ?_ K hK1 hK2 i y hy
        have hl : l.take d = l := List.take_of_length_le (by omega)
        rw [hv, List.take_append, h1, lastD_append, hl, h4]
    · rw [show min n d = d by omega] at h1 h3 h5
      rw [Nat.sub_self] at h3
      refine ⟨fun i y hi hy => ?_, fun v hv K hK1 hK2 i y hy => ?_⟩
      · rw [h5, List.append_assoc, List.getElem?_append_left (by omega)] at hy
        exact h2 i y hy
      · obtain ⟨e0, r1, r2⟩ := release_moment h3 (n - d) (by omega) K
        have hv' : v = e'.cur := by
          rw [hv, h4, h5, List.append_assoc, List.take_append, h1, Nat.sub_self, List.take_zero, List.append_nil, List.take_of_length_le (by omega)]
        rw [← hv'] at r1
        rw [h5, List.append_assoc, List.getElem?_append_right (by omega), h1, Nat.add_sub_cancel_left, r2] at hy
        have e1 : (block e0 (n - d)).1 ++ (gets (block e0 (n - d)).2 ns).1 = (gets e0 ((n - d) :: ns)).1 := rfl
        have e2 : (block e n).2 = (block e0 (n - d)).2 := by rw [h5, r2]
        simp only at hy
        rw [e1] at hy
        have := released_gets hT hK1 hK2 ((n - d) :: ns) e0 0 r1 i y hy
        rwa [Nat.zero_add] at this

/-! ### The theorems -/

/-- The shape asked for by the parameters of a note that starts in `d` frames. -/
def shapeOf (d : Nat) (p : Params) : Shape :=
  { delay := d + p.delay.toNat, hold := p.hold.toNat, start := max (min p.start 1) 0, step := p.attackStep, rate := p.decayRate,
    sustain := max (min p.sustain 1) 0 }

theorem shapeOf_ok (d : Nat) {p : Params} (hp : p.Ok) : (shapeOf d p).Ok := ⟨(clamp01 p.start).2, hp.step, hp.decay⟩

theorem held_start {sr : ℚ} {d : Nat} {p : Params} (hd : 0 ≤ p.delay) (hh : 0 ≤ p.hold) (hsus : 32 / 10000 < p.sustain) :
    Held (shapeOf d p) (sr / 20) (reset (fresh sr) sr d p false) 0 := by
  refine ⟨⟨rfl, rfl, rfl, rfl, ?_, ?_⟩, ?_, rfl⟩
  · unfold reset update
    simp only [Bool.or_false, decide_eq_false_iff_not, not_le]
    rw [lt_max_iff]; left
    rw [lt_min_iff]
    exact ⟨hsus, by norm_num⟩
  · show sr * (1 / 20) = sr / 20
    ring
  · refine ⟨Nat.zero_le _, ?_, ?_, rfl⟩
    · show (d : Int) + p.delay = ((d + p.delay.toNat : Nat) : Int) - ((0 : Nat) : Int)
      push_cast; omega
    · show p.hold = ((p.hold.toNat : Nat) : Int)
      omega

/-- **C122, held.** While a note is held, whatever the sizes of the blocks, each level is that of the shape asked for: delay, straight
attack, hold and exponential decay exactly; from 0.001 above the sustain level on, the level stays within 0.001 above and
0.001 / (50 ms in frames) below it. -/
theorem held_shape (sr : ℚ) (hsr : 0 < sr) (d : Nat) (p : Params) (hp : p.Ok) (hd : 0 ≤ p.delay) (hh : 0 ≤ p.hold)
    (hsus : 32 / 10000 < p.sustain) (ns : List Nat) (t : Nat) (y : ℚ) (hy : (history sr d p false (ns.map .get)).1[t]? = some y) :
    if t < (shapeOf d p).top ∨ (shapeOf d p).sustain + 1 / 1000 < (shapeOf d p).level t then y = (shapeOf d p).level t
    else (shapeOf d p).sustain - 1 / 1000 / (sr / 20) ≤ y ∧ y ≤ (shapeOf d p).sustain + 1 / 1000 := by
  have := held_gets_any (shapeOf_ok d hp) (T := sr / 20) (by linarith) ns _ 0 (held_start hd hh hsus) t y hy
  rw [Nat.zero_add] at this
  exact this

/-- **C122, released.** A note whose delay was over within a block (not at the end of one), released at frame `k` of a later block: up to
there it has the shape of a held note, from there on the level `v` it had before decays exponentially as long as it is above
0.0001 (`K` frames), then fades to 0 on a straight line in 50 ms, and stays there.
Missing: the delay that is over at the end of a block, see `release_late_violated`, and the release before the end of the delay. -/
theorem release_shape_partial (sr : ℚ) (hsr : 0 < sr) (d : Nat) (p : Params) (hp : p.Ok) (hd : 0 ≤ p.delay) (hh : 0 ≤ p.hold)
    (hsus : 32 / 10000 < p.sustain) (ns : List Nat) (hns : (shapeOf d p).delay < ns.sum)
    (hcut : ∀ k, (ns.take k).sum = (shapeOf d p).delay → (ns.take k).sum = 0) (k : Nat) (ms : List Nat) (hms : k ≤ ms.sum)
    (out : List ℚ) (hout : out = (history sr d p false (ns.map .get ++ .release k :: ms.map .get)).1) :
    (∀ t y, t < ns.sum + k → out[t]? = some y → Right (shapeOf d p) (sr / 20) t y) ∧
    ∃ v, out[ns.sum + k - 1]? = some v ∧ ∀ K, (∀ j, 1 ≤ j → j ≤ K → thr < v * p.releaseRate ^ j) → v * p.releaseRate ^ (K + 1) ≤ thr →
      ∀ i y, out[ns.sum + k + i]? = some y → y = releaseLevel v p.releaseRate (sr / 20) K i := by
  have hT : (0 : ℚ) < sr / 20 := by linarith
  have hok := shapeOf_ok d hp
  obtain ⟨h1, h2, h3, h4, h5⟩ := held_gets hok hT ns _ 0 (held_start hd hh hsus) (Or.inl rfl) (fun k _ he => hcut k (by omega))
  have hrun : ∀ (a b : List Op) (e : Env), runAll e (a ++ b) = ((runAll e a).1 ++ (runAll (runAll e a).2 b).1, (runAll (runAll e a).2 b).2) := by
    intro a b
    induction a with
    | nil => intro e; rfl
    | cons o a ih => intro e; simp only [List.cons_append, runAll, ih, List.append_assoc]
  have hout' : out = (gets (reset (fresh sr) sr d p false) ns).1 ++
      (gets (startRelease (gets (reset (fresh sr) sr d p false) ns).2 k) ms).1 := by
    rw [hout]
    show (runAll (reset (fresh sr) sr d p false) _).1 = _
    rw [hrun]
    rfl
  generalize hE : gets (reset (fresh sr) sr d p false) ns = E at *
  have hlen : E.1.length = ns.sum := by rw [← hE]; exact gets_length ns _
  have hdl : E.2.delay < 0 := by
    rcases h5 with h5 | h5
    · have := h2.pos
      unfold Pos at this
      rw [h5] at this
      omega
    · exact h5
  have hpend : Pending (shapeOf d p) (sr / 20) p.releaseRate (startRelease E.2 k) ns.sum k := by
    refine ⟨⟨h2.has.step, h2.has.rate, h2.has.start, h2.has.sustain, h2.has.free, h2.has.trans⟩, ?_, rfl, rfl, ?_, hdl⟩
    · have := h2.pos
      rwa [Nat.zero_add] at this
    · show E.2.releaseRate = _
      rw [h3.rr]; rfl
  obtain ⟨g1, g2⟩ := pending_gets hok hT ms _ _ _ hpend
  have hmlen := gets_length ms (startRelease E.2 k)
  generalize gets (startRelease E.2 k) ms = G at *
  subst hout'
  refine ⟨fun t y ht hy => ?_, (G.1.take k).getLastD (startRelease E.2 k).cur, ?_, fun K hK1 hK2 i y hy => ?_⟩
  · by_cases htn : t < ns.sum
    · rw [List.getElem?_append_left (by omega)] at hy
      have := h1 t y hy
      rwa [Nat.zero_add] at this
    · rw [List.getElem?_append_right (by omega), hlen] at hy
      have := g1 _ y (by omega) hy
      rwa [show ns.sum + (t - ns.sum) = t by omega] at this
  · show _ = some ((G.1.take k).getLastD E.2.cur)
    rw [h4, ← lastD_append, List.getLastD_eq_getLast?, List.getLast?_eq_getElem?]
    have hl : (E.1 ++ G.1.take k).length = ns.sum + k := by rw [List.length_append, List.length_take]; omega
    rw [hl]
    have hlt : ns.sum + k - 1 < (E.1 ++ G.1.take k).length := by omega
    rw [List.getElem?_eq_getElem hlt, Option.getD_some, ← List.getElem?_eq_getElem hlt]
    by_cases hb : ns.sum + k - 1 < ns.sum
    · rw [List.getElem?_append_left (by omega), List.getElem?_append_left (by omega)]
    · rw [List.getElem?_append_right (by omega), List.getElem?_append_right (by omega), List.getElem?_take_of_lt (by omega)]
  · rw [List.getElem?_append_right (by omega), hlen, show ns.sum + k + i - ns.sum = k + i by omega] at hy
    exact g2 _ rfl K hK1 hK2 i y hy

/-- The frames of the exponential part exist. -/
theorem release_frames (v ρ : ℚ) (hρ : 0 ≤ ρ ∧ ρ < 1) : ∃ K, (∀ j, 1 ≤ j → j ≤ K → thr < v * ρ ^ j) ∧ v * ρ ^ (K + 1) ≤ thr := by
  classical
  have hex : ∃ n, v * ρ ^ (n + 1) ≤ thr := by
    by_cases hv : v ≤ 0
    · exact ⟨0, le_trans (mul_nonpos_of_nonpos_of_nonneg hv (pow_nonneg hρ.1 _)) (le_of_lt thr_pos)⟩
    · have hv' : 0 < v := not_le.mp hv
      obtain ⟨n, hn⟩ := exists_consts hρ (thr / v) (div_pos thr_pos hv')
      refine ⟨n, ?_⟩
      have h1 : ρ ^ (n + 1) ≤ thr / v := le_trans (pow_le_pow_of_le_one hρ.1 (le_of_lt hρ.2) (by omega)) hn
      rw [le_div_iff₀ hv'] at h1
      linarith
  refine ⟨Nat.find hex, fun j h1 h2 => ?_, Nat.find_spec hex⟩
  have := Nat.find_min hex (m := j - 1) (by omega)
  rw [show j - 1 + 1 = j by omega] at this
  exact not_le.mp this

/-- **C122, silence.** The level is 0 from 50 ms after the exponential part on. -/
theorem release_silent (v ρ T : ℚ) (hT : 0 < T) (K i : Nat) (hi : K + T ≤ i + 1) : releaseLevel v ρ T K i = 0 := by
  have hKi : K ≤ i := by
    have h1 : (K : ℚ) < i + 1 := by linarith
    have : K < i + 1 := by exact_mod_cast h1
    omega
  unfold releaseLevel
  rw [if_neg (by omega)]
  apply max_eq_left
  have h2 : T ≤ (i - K + 1 : Nat) := by
    rw [Nat.cast_add, Nat.cast_sub hKi]; push_cast; linarith
  have h3 : v * ρ ^ K ≤ max thr (v * ρ ^ K) := le_max_right _ _
  have h4 : 0 < max thr (v * ρ ^ K) := lt_of_lt_of_le thr_pos (le_max_left _ _)
  have h5 : max thr (v * ρ ^ K) ≤ (i - K + 1 : Nat) * (max thr (v * ρ ^ K) / T) := by
    rw [mul_div_assoc', le_div_iff₀ hT, mul_comm]
    exact mul_le_mul_of_nonneg_right h2 (le_of_lt h4)
  linarith

/-! ### In seconds -/

/-- `secondsToSamples` (ADSREnvelope.cpp:16-22). -/
def secondsToSamples (sr seconds : ℚ) : Int := if seconds ≤ 0 then 0 else (⌊seconds * sr⌋ : Int)

/-- `secondsToLinRate` (ADSREnvelope.cpp:24-30). -/
def secondsToLinRate (sr seconds : ℚ) : ℚ := if seconds ≤ 0 then 1 else 1 / (sr * seconds)

/-- **C122, times.** An attack of `a` seconds from the level `x` is at full level after `(1 - x) * a` seconds, rounded up to a frame; a
delay or hold of `a` seconds takes this time rounded down. -/
theorem times (sr : ℚ) (hsr : 0 < sr) (a : ℚ) (ha : 0 < a) (s : Shape) (hs : s.step = secondsToLinRate sr a) :
    s.attack + 1 = max 1 ⌈(1 - s.start) * a * sr⌉₊ ∧ (secondsToSamples sr a : ℚ) ≤ a * sr ∧ a * sr < secondsToSamples sr a + 1 := by
  refine ⟨?_, ?_, ?_⟩
  · unfold Shape.attack
    rw [hs, secondsToLinRate, if_neg (not_le.mpr ha), show (1 - s.start) / (1 / (sr * a)) = (1 - s.start) * a * sr by field_simp]
    omega
  · unfold secondsToSamples
    rw [if_neg (not_le.mpr ha)]
    exact Int.floor_le _
  · unfold secondsToSamples
    rw [if_neg (not_le.mpr ha)]
    exact Int.lt_floor_add_one _

/-! ### Cases -/

/-- An envelope of 3 frames of delay, an attack of 4 frames, 2 frames of hold, a decay by half and a sustain level of 1/5. -/
def keys : Params := { delay := 3, attackStep := 1 / 4, decayRate := 1 / 2, releaseRate := 1 / 4, hold := 2, sustain := 1 / 5, start := 0 }

example : (List.range 13).map (shapeOf 1 keys).level = [0, 0, 0, 0, 1/4, 1/2, 3/4, 1, 1, 1/2, 1/4, 1/5, 1/5] := by decide +kernel

example : (history 100 1 keys false ([6, 6].map .get)).1 = [0, 0, 0, 0, 1/4, 1/2, 3/4, 1, 1, 1/2, 1/4, 1/5] :=
  observe (fun r => r.1) _ _ _ (by decide +kernel)

/-- Released at frame 9, from level 1: 6 frames of exponential decay, then a line of 5 frames. -/
example : (history 100 1 keys false ([6].map .get ++ .release 3 :: [8, 12].map .get)).1 =
    [0, 0, 0, 0, 1/4, 1/2, 3/4, 1, 1] ++ (List.range 17).map (releaseLevel 1 (1/4) 5 6) :=
  observe (fun r => r.1) _ _ _ (by decide +kernel)

/-- It meets the conditions of `release_shape_partial`. -/
example : (shapeOf 1 keys).delay < [6].sum ∧ (∀ k, (([6] : List Nat).take k).sum = (shapeOf 1 keys).delay → (([6] : List Nat).take k).sum = 0) ∧
    3 ≤ [8, 12].sum ∧ (∀ j, 1 ≤ j → j ≤ 6 → thr < 1 * keys.releaseRate ^ j) ∧ 1 * keys.releaseRate ^ (6 + 1) ≤ thr := by
  refine ⟨by decide, fun k => ?_, by decide, fun j h1 h2 => ?_, by norm_num [keys, thr]⟩
  · cases k <;> simp [shapeOf, keys]
  · interval_cases j <;> norm_num [keys, thr]

example : (history 100 1 keys false ([6].map .get ++ .release 3 :: [8, 12].map .get)).1.drop 14 =
    [1/4096, 4/20480, 3/20480, 2/20480, 1/20480, 0, 0, 0, 0, 0, 0, 0] :=
  observe (fun r => r.1.drop 14) _ _ _ (by decide +kernel)

/-- C122 is violated: when the delay of an envelope ends exactly at the end of a block, a later release comes one frame late. -/
theorem release_late_violated :
    (history 100 1 keys false ([4, 2].map .get ++ .release 3 :: [4].map .get)).1 = [0, 0, 0, 0, 1/4, 1/2, 3/4, 1, 1, 1/2] ∧
    (history 100 1 keys false ([3, 3].map .get ++ .release 3 :: [4].map .get)).1 = [0, 0, 0, 0, 1/4, 1/2, 3/4, 1, 1, 1/4] :=
  ⟨observe (fun r => r.1) _ _ _ (by decide +kernel), observe (fun r => r.1) _ _ _ (by decide +kernel)⟩

end Verif.Adsr
