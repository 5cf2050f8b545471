import Verif.Adsr.Range

/-! Released envelopes end (for C35). -/
namespace Verif.Adsr

/-! ### Loops -/

theorem delayLoop_spec (n : Nat) (d : Int) : max (delayLoop n d).2 0 + (delayLoop n d).1 ≤ max d 0 ∧
    (delayLoop n d).2 ≤ d := by
  induction n generalizing d with
  | zero => simp [delayLoop]
  | succ n ih =>
    unfold delayLoop
    by_cases h : d > 0
    · rw [if_pos h]
      obtain ⟨h1, h2⟩ := ih (d - 1)
      dsimp only
      constructor
      · push_cast; omega
      · omega
    · rw [if_neg h]
      dsimp only
      constructor
      · push_cast; omega
      · omega

theorem mul_le_thr {r c t : ℚ} (ht : 0 ≤ t) (hr : 0 ≤ r ∧ r ≤ 1) (hc : c ≤ t) : c * r ≤ t := by
  by_cases h : 0 ≤ c
  · nlinarith
  · nlinarith [mul_nonneg hr.1 (by linarith : 0 ≤ -c)]

theorem decayLoop_spec {r ρ bd t : ℚ} (hbt : bd ≤ t) (ht : 0 ≤ t) (hr : 0 ≤ r ∧ r ≤ ρ) (hρ : ρ ≤ 1) (n : Nat) (c : ℚ) (j : Nat) (hj : c * ρ ^ j ≤ t) :
    (decayLoop r bd n c).2 ≤ t ∨ ((decayLoop r bd n c).1.length ≤ j ∧
      (decayLoop r bd n c).2 * ρ ^ (j - (decayLoop r bd n c).1.length) ≤ t) := by
  induction n generalizing c j with
  | zero => right; exact ⟨Nat.zero_le _, hj⟩
  | succ n ih =>
    unfold decayLoop
    by_cases h : c * r > bd
    · rw [if_pos h]
      cases j with
      | zero =>
        rw [pow_zero, mul_one] at hj
        have hle := mul_le_thr ht ⟨hr.1, le_trans hr.2 hρ⟩ hj
        rcases ih (c * r) 0 (by rw [pow_zero, mul_one]; exact hle) with h1 | ⟨h1, h2⟩
        · exact Or.inl h1
        · left
          dsimp only
          simpa using h2
      | succ j =>
        have hj' : c * r * ρ ^ j ≤ t := by
          have h0 : 0 ≤ ρ ^ j := pow_nonneg (le_trans hr.1 hr.2) j
          by_cases hc : 0 ≤ c
          · have : c * r * ρ ^ j ≤ c * ρ ^ (j + 1) := by
              rw [pow_succ, mul_comm (ρ ^ j) ρ, ← mul_assoc]
              exact mul_le_mul_of_nonneg_right (mul_le_mul_of_nonneg_left hr.2 hc) h0
            linarith
          · have : c * r * ρ ^ j ≤ 0 := mul_nonpos_of_nonpos_of_nonneg (mul_nonpos_of_nonpos_of_nonneg (by linarith) hr.1) h0
            linarith
        rcases ih (c * r) j hj' with h1 | ⟨h1, h2⟩
        · exact Or.inl h1
        · right
          dsimp only
          rw [List.length_cons, Nat.succ_sub_succ]
          exact ⟨Nat.succ_le_succ h1, h2⟩
    · rw [if_neg h]
      left
      exact le_trans (not_lt.mp h) hbt

/-- Number of frames of the decay when it ends. -/
theorem decayLoop_short {r ρ t : ℚ} (ht : 0 ≤ t) (hr : 0 ≤ r ∧ r ≤ ρ) (hρ : ρ ≤ 1) (n : Nat) (c : ℚ) (j : Nat) (hj : c * ρ ^ j ≤ t) :
    (decayLoop r t n c).1.length ≤ j := by
  induction n generalizing c j with
  | zero => exact Nat.zero_le _
  | succ n ih =>
    unfold decayLoop
    by_cases h : c * r > t
    · rw [if_pos h]
      cases j with
      | zero =>
        rw [pow_zero, mul_one] at hj
        have := mul_le_thr ht ⟨hr.1, le_trans hr.2 hρ⟩ hj
        linarith
      | succ j =>
        have hj' : c * r * ρ ^ j ≤ t := by
          have h0 : 0 ≤ ρ ^ j := pow_nonneg (le_trans hr.1 hr.2) j
          by_cases hc : 0 ≤ c
          · have : c * r * ρ ^ j ≤ c * ρ ^ (j + 1) := by
              rw [pow_succ, mul_comm (ρ ^ j) ρ, ← mul_assoc]
              exact mul_le_mul_of_nonneg_right (mul_le_mul_of_nonneg_left hr.2 hc) h0
            linarith
          · have : c * r * ρ ^ j ≤ 0 := mul_nonpos_of_nonpos_of_nonneg (mul_nonpos_of_nonpos_of_nonneg (by linarith) hr.1) h0
            linarith
        exact Nat.succ_le_succ (ih _ _ hj')
    · rw [if_neg h]
      exact Nat.zero_le _

theorem fadeLoop_spec {d : ℚ} (hd : d < 0) (n : Nat) (c : ℚ) (m : Nat) (hm : c + m * d ≤ 0) :
    (fadeLoop d n c).1.length ≤ m ∧ ((fadeLoop d n c).2 ≤ 0 ∨ (fadeLoop d n c).2 + ((m - (fadeLoop d n c).1.length : Nat) : ℚ) * d ≤ 0) := by
  induction n generalizing c m with
  | zero => exact ⟨Nat.zero_le _, Or.inr hm⟩
  | succ n ih =>
    unfold fadeLoop
    by_cases h : c + d > 0
    · rw [if_pos h]
      cases m with
      | zero =>
        rw [Nat.cast_zero, zero_mul] at hm
        linarith
      | succ m =>
        obtain ⟨h1, h2⟩ := ih (c + d) m (by push_cast at hm; linarith)
        dsimp only
        rw [List.length_cons, Nat.succ_sub_succ]
        exact ⟨Nat.succ_le_succ h1, h2⟩
    · rw [if_neg h]
      exact ⟨Nat.zero_le _, Or.inl (not_lt.mp h)⟩

/-! ### The bound -/

/-- The delay is over outside of the delay stage. -/
def DelayOk (e : Env) : Prop := e.delay > 0 → e.state = .delay

/-- Remaining frames of a fade-out. -/
def Fade (e : Env) (m : Nat) : Prop := e.state = .fadeout → e.cur + m * e.delta ≤ 0

/-- Remaining frames of a release, with a fade-out of at most `N` frames. -/
def Rel (ρ : ℚ) (N : Nat) (e : Env) (m : Nat) : Prop := e.state = .release → ∃ j, e.cur * ρ ^ j ≤ thr ∧ j + N ≤ m

/-- Constants for the bound: a level of 1 is released in `K` frames and faded out in `N` frames. -/
structure Consts (ρ : ℚ) (K N : Nat) (e : Env) : Prop where
  rho : e.releaseRate ≤ ρ ∧ ρ ≤ 1
  rel : ρ ^ K ≤ thr
  fade : e.trans ≤ N

theorem thr_pos : 0 < thr := by unfold thr; norm_num

theorem previous_fade {e : Env} {b : ℚ} {canc : Bool} (h : InRange b canc e) {N : Nat} (hN : e.trans ≤ N) {m : Nat} (hm : N ≤ m) (p : ℚ) :
    p + m * (-(max thr p) / e.trans) ≤ 0 := by
  have ht := h.trans_pos
  have hm' : (N : ℚ) ≤ m := by exact_mod_cast hm
  have h1 : 1 ≤ (m : ℚ) / e.trans := by rw [le_div_iff₀ ht]; linarith
  have h2 : 0 < max thr p := lt_of_lt_of_le thr_pos (le_max_left _ _)
  have h3 : p ≤ max thr p := le_max_right _ _
  have : (m : ℚ) * (-(max thr p) / e.trans) = -(max thr p * (m / e.trans)) := by ring
  rw [this]
  nlinarith

/-- Effect of a turn (after its release part) on the remaining time. -/
structure SegEnds (ρ : ℚ) (N : Nat) (e : Env) (m c size : Nat) (e' : Env) : Prop where
  count : c ≤ size
  sr : e'.shouldRelease = true
  rd : e'.releaseDelay = e.releaseDelay
  rr : e'.releaseRate = e.releaseRate
  rate : e'.sampleRate = e.sampleRate
  dok : DelayOk e'
  delay : max e'.delay 0 ≤ max e.delay 0
  inDelay : e.state = .delay → max e'.delay 0 + c ≤ max e.delay 0
  early : e.state.index < 5 → e'.state.index < 5
  nodelay : e.state ≠ .delay → e'.state ≠ .delay
  late : e.state = .release ∨ e.state = .fadeout → c ≤ m ∧ (e'.state = .release ∨ e'.state = .fadeout ∨ e'.state = .done)
  fade : Fade e' (m - c)
  rel : Rel ρ N e' (m - c)
  done : e.state = .done → e'.state = .done

theorem fade_of_ne {e : Env} (m : Nat) (h : e.state ≠ .fadeout) : Fade e m := fun hh => absurd hh h
theorem rel_of_ne {ρ : ℚ} {N : Nat} {e : Env} (m : Nat) (h : e.state ≠ .release) : Rel ρ N e m := fun hh => absurd hh h

theorem segment_ends {b : ℚ} {canc : Bool} {e : Env} {ρ : ℚ} {K N m : Nat} (h : InRange b canc e) (hf : FadeOk e) (hsr : e.shouldRelease = true)
    (hd : DelayOk e) (hc : Consts ρ K N e) (hfade : Fade e m) (hrel : Rel ρ N e m) (size : Nat) :
    SegEnds ρ N e m (segment e size).1.length size (segment e size).2 := by
  have hlen := segment_length e size
  unfold segment at hlen ⊢
  cases hs : e.state with
  | delay =>
    simp only [hs, List.length_replicate] at hlen ⊢
    obtain ⟨h1, h2⟩ := delayLoop_spec size e.delay
    split
    · rename_i h3
      refine ⟨hlen, hsr, rfl, rfl, rfl, fun hh => ?_, ?_, fun _ => h1, fun _ => by simp [St.index], fun hh => absurd hs hh, fun hh => by simp [hs] at hh,
        fade_of_ne _ (by simp), rel_of_ne _ (by simp), fun hh => absurd hh (by simp [hs])⟩
      · exfalso; dsimp only at hh; omega
      · dsimp only; omega
    · refine ⟨hlen, hsr, rfl, rfl, rfl, fun hh => by simp, ?_, fun _ => h1, fun _ => by simp [St.index], fun hh => absurd hs hh, fun hh => by simp [hs] at hh,
        fade_of_ne _ (by simp), rel_of_ne _ (by simp), fun hh => absurd hh (by simp [hs])⟩
      dsimp only; omega
  | attack =>
    have hd0 : ¬e.delay > 0 := fun hh => absurd (hd hh) (by simp [hs])
    simp only [hs] at hlen ⊢
    split
    · exact ⟨hlen, hsr, rfl, rfl, rfl, fun hh => absurd hh hd0, le_refl _, fun hh => absurd hh (by simp [hs]), fun _ => by simp [St.index], fun _ => by simp,
        fun hh => by simp [hs] at hh, fade_of_ne _ (by simp), rel_of_ne _ (by simp), fun hh => absurd hh (by simp [hs])⟩
    · exact ⟨hlen, hsr, rfl, rfl, rfl, fun hh => absurd hh hd0, le_refl _, fun hh => absurd hh (by simp [hs]), fun _ => by simp [St.index], fun _ => by simp,
        fun hh => by simp [hs] at hh, fade_of_ne _ (by simp), rel_of_ne _ (by simp), fun hh => absurd hh (by simp [hs])⟩
  | hold =>
    have hd0 : ¬e.delay > 0 := fun hh => absurd (hd hh) (by simp [hs])
    simp only [hs, List.length_replicate] at hlen ⊢
    split
    · exact ⟨hlen, hsr, rfl, rfl, rfl, fun hh => absurd hh hd0, le_refl _, fun hh => absurd hh (by simp [hs]), fun _ => by simp [St.index], fun _ => by simp,
        fun hh => by simp [hs] at hh, fade_of_ne _ (by simp), rel_of_ne _ (by simp), fun hh => absurd hh (by simp [hs])⟩
    · exact ⟨hlen, hsr, rfl, rfl, rfl, fun hh => absurd hh hd0, le_refl _, fun hh => absurd hh (by simp [hs]), fun _ => by simp [St.index], fun _ => by simp,
        fun hh => by simp [hs] at hh, fade_of_ne _ (by simp), rel_of_ne _ (by simp), fun hh => absurd hh (by simp [hs])⟩
  | decay =>
    have hd0 : ¬e.delay > 0 := fun hh => absurd (hd hh) (by simp [hs])
    simp only [hs] at hlen ⊢
    split
    · exact ⟨hlen, hsr, rfl, rfl, rfl, fun hh => absurd hh hd0, le_refl _, fun hh => absurd hh (by simp [hs]), fun _ => by simp [St.index], fun _ => by simp,
        fun hh => by simp [hs] at hh, fade_of_ne _ (by simp), rel_of_ne _ (by simp), fun hh => absurd hh (by simp [hs])⟩
    · exact ⟨hlen, hsr, rfl, rfl, rfl, fun hh => absurd hh hd0, le_refl _, fun hh => absurd hh (by simp [hs]), fun _ => by simp [St.index], fun _ => by simp,
        fun hh => by simp [hs] at hh, fade_of_ne _ (by simp), rel_of_ne _ (by simp), fun hh => absurd hh (by simp [hs])⟩
  | sustain =>
    have hd0 : ¬e.delay > 0 := fun hh => absurd (hd hh) (by simp [hs])
    simp only [hs] at hlen ⊢
    have hn : ¬(e.shouldRelease = false ∧ e.freeRunning = true) := by simp [hsr]
    rw [if_neg hn] at hlen ⊢
    exact ⟨hlen, hsr, rfl, rfl, rfl, fun hh => absurd hh hd0, le_refl _, fun hh => absurd hh (by simp [hs]), fun _ => by simp [St.index], fun _ => by simp,
        fun hh => by simp [hs] at hh, fade_of_ne _ (by simp), rel_of_ne _ (by simp), fun hh => absurd hh (by simp [hs])⟩
  | release =>
    have hd0 : ¬e.delay > 0 := fun hh => absurd (hd hh) (by simp [hs])
    simp only [hs] at hlen ⊢
    obtain ⟨j, hj, hjm⟩ := hrel hs
    have hr : 0 ≤ e.releaseRate ∧ e.releaseRate ≤ ρ := ⟨h.rel.1, hc.rho.1⟩
    have hs1 := decayLoop_spec (le_refl thr) (le_of_lt thr_pos) hr hc.rho.2 size e.cur j hj
    have hs2 := decayLoop_short (le_of_lt thr_pos) hr hc.rho.2 size e.cur j hj
    have hN : N ≤ m - (decayLoop e.releaseRate thr size e.cur).1.length := by omega
    split
    · refine ⟨hlen, hsr, rfl, rfl, rfl, fun hh => absurd hh hd0, le_refl _, fun hh => absurd hh (by simp [hs]), fun hh => absurd hh (by simp [hs, St.index]), fun _ => by simp,
        fun _ => ⟨by omega, by simp⟩, fun _ => ?_, rel_of_ne _ (by simp), fun hh => absurd hh (by simp [hs])⟩
      exact previous_fade h hc.fade hN _
    · rename_i hgt
      refine ⟨hlen, hsr, rfl, rfl, rfl, fun hh => absurd hh hd0, le_refl _, fun hh => absurd hh (by simp [hs]), fun hh => absurd hh (by simp [hs, St.index]), fun _ => by simp,
        fun _ => ⟨by omega, by simp⟩, fade_of_ne _ (by simp), fun _ => ?_, fun hh => absurd hh (by simp [hs])⟩
      rcases hs1 with hs1 | ⟨_, hs1⟩
      · exact absurd hs1 hgt
      · exact ⟨_, hs1, by omega⟩
  | fadeout =>
    have hd0 : ¬e.delay > 0 := fun hh => absurd (hd hh) (by simp [hs])
    simp only [hs] at hlen ⊢
    obtain ⟨h1, h2⟩ := fadeLoop_spec (hf hs) size e.cur m (hfade hs)
    split
    · exact ⟨hlen, hsr, rfl, rfl, rfl, fun hh => absurd hh hd0, le_refl _, fun hh => absurd hh (by simp [hs]), fun hh => absurd hh (by simp [hs, St.index]), fun _ => by simp,
        fun _ => ⟨h1, by simp⟩, fade_of_ne _ (by simp), rel_of_ne _ (by simp), fun hh => absurd hh (by simp [hs])⟩
    · rename_i hgt
      refine ⟨hlen, hsr, rfl, rfl, rfl, fun hh => absurd hh hd0, le_refl _, fun hh => absurd hh (by simp [hs]), fun hh => absurd hh (by simp [hs, St.index]), fun _ => by simp,
        fun _ => ⟨h1, by simp⟩, fun _ => ?_, rel_of_ne _ (by simp), fun hh => absurd hh (by simp [hs])⟩
      rcases h2 with h2 | h2
      · exact absurd h2 hgt
      · exact h2
  | done =>
    have hd0 : ¬e.delay > 0 := fun hh => absurd (hd hh) (by simp [hs])
    simp only [hs] at hlen ⊢
    exact ⟨hlen, hsr, rfl, rfl, rfl, fun hh => absurd hh hd0, le_refl _, fun hh => absurd hh (by simp [hs]), fun hh => absurd hh (by simp [hs, St.index]), fun _ => by simp,
        fun hh => by simp [hs] at hh, fade_of_ne _ (by simp), rel_of_ne _ (by simp), fun _ => by simp⟩

/-- The released envelope ends within `m + 1` frames. -/
structure Ends (ρ : ℚ) (K N : Nat) (b : ℚ) (canc : Bool) (e : Env) (m : Nat) : Prop where
  inv : InRange b canc e
  fok : FadeOk e
  sr : e.shouldRelease = true
  dok : DelayOk e
  consts : Consts ρ K N e
  rd : -1 ≤ e.releaseDelay
  fade : Fade e m
  rel : Rel ρ N e m
  pending : 0 ≤ e.releaseDelay → max e.delay 0 + e.releaseDelay + 1 + K + N ≤ m
  early : e.state.index < 5 → max e.delay 0 + K + N ≤ m

/-- Nothing more will happen. -/
structure Over (e : Env) : Prop where
  state : e.state = .done
  sr : e.shouldRelease = true
  rd : e.releaseDelay = -1

theorem cur_release {b : ℚ} {canc : Bool} {e : Env} {ρ : ℚ} {K N : Nat} (h : InRange b canc e) (hc : Consts ρ K N e) : e.cur * ρ ^ K ≤ thr := by
  have h0 : 0 ≤ ρ ^ K := pow_nonneg (le_trans h.rel.1 hc.rho.1) K
  have := mul_le_mul_of_nonneg_right h.cur.2 h0
  linarith [hc.rel]

theorem finish_fields (e : Env) (c : Nat) (hsr : e.shouldRelease = true) :
    finish e c = { e with releaseDelay := max (-1) (e.releaseDelay - c) } := by
  unfold finish
  rw [if_pos hsr]

theorem not_early {s : St} (h : ¬s.index < 5) : s = .release ∨ s = .fadeout ∨ s = .done := by
  cases s <;> simp [St.index] at h ⊢

theorem early_of {s : St} (h : s.index < 5) : s ≠ .release ∧ s ≠ .fadeout ∧ s ≠ .done := by
  cases s <;> simp [St.index] at h ⊢

theorem turn_ends {ρ : ℚ} {K N : Nat} {b : ℚ} {canc : Bool} {e : Env} {m : Nat} (h : Ends ρ K N b canc e m) (n : Nat) (hn : 0 < n) :
    ((turn e n).1.length ≤ m ∧ Ends ρ K N b canc (turn e n).2 (m - (turn e n).1.length)) ∨ Over (turn e n).2 := by
  obtain ⟨hp1, hp2⟩ := prepare_range h.inv h.fok n
  have hps := prepare_size e n hn
  -- what the release part does
  have key : ∃ p size, prepare e n = (p, size) ∧ p.shouldRelease = true ∧ DelayOk p ∧ Consts ρ K N p ∧ Fade p m ∧ Rel ρ N p m ∧
      p.delay = e.delay ∧
      ((0 < e.releaseDelay ∧ p = e ∧ (size : Int) ≤ e.releaseDelay) ∨
       (0 = e.releaseDelay ∧ p.releaseDelay = -1 ∧ p.state = .release ) ∨
       (0 = e.releaseDelay ∧ p.releaseDelay = -1 ∧ p.state = e.state ∧ size = 1 ∧ e.delay = 0) ∨
       (0 = e.releaseDelay ∧ p = e ∧ 0 < e.delay) ∨
       (-1 = e.releaseDelay ∧ p.releaseDelay = -1 ∧ p.state = .release) ∨
       (-1 = e.releaseDelay ∧ p = e ∧ (e.state.index < 5 → 0 < e.delay))) := by
    have hK := cur_release h.inv h.consts
    unfold prepare
    rw [if_pos h.sr]
    split
    · rename_i h1
      exact ⟨_, _, rfl, h.sr, h.dok, h.consts, h.fade, h.rel, rfl, Or.inl ⟨h1, rfl, by push_cast; omega⟩⟩
    · rename_i h1
      split
      · rename_i h2
        have hm := h.pending (by omega)
        split
        · rename_i h3
          refine ⟨_, _, rfl, h.sr, fun hh => ?_, ⟨h.consts.rho, h.consts.rel, h.consts.fade⟩, fade_of_ne _ (by simp), fun _ => ⟨K, hK, by omega⟩, rfl,
            Or.inr (Or.inl ⟨by omega, rfl, rfl⟩)⟩
          dsimp only at hh; omega
        · rename_i h3
          exact ⟨_, _, rfl, h.sr, h.dok, ⟨h.consts.rho, h.consts.rel, h.consts.fade⟩, h.fade, h.rel, rfl,
            Or.inr (Or.inr (Or.inl ⟨by omega, rfl, rfl, rfl, by omega⟩))⟩
      · rename_i h2
        split
        · rename_i h3
          have hm := h.early h3.2.1
          refine ⟨_, _, rfl, h.sr, fun hh => ?_, ⟨h.consts.rho, h.consts.rel, h.consts.fade⟩, fade_of_ne _ (by simp), fun _ => ⟨K, hK, by omega⟩, rfl,
            Or.inr (Or.inr (Or.inr (Or.inr (Or.inl ⟨by omega, h3.1, rfl⟩))))⟩
          have := h3.2.2
          dsimp only at hh; omega
        · rename_i h3
          have hrd := h.rd
          refine ⟨_, _, rfl, h.sr, h.dok, h.consts, h.fade, h.rel, rfl, ?_⟩
          by_cases h4 : e.releaseDelay = 0
          · exact Or.inr (Or.inr (Or.inr (Or.inl ⟨h4.symm, rfl, by omega⟩)))
          · refine Or.inr (Or.inr (Or.inr (Or.inr (Or.inr ⟨by omega, rfl, fun h5 => ?_⟩))))
            by_contra h6
            exact h3 ⟨by omega, h5, by omega⟩
  obtain ⟨p, size, hp, hsr, hdok, hconsts, hfade, hrel, hpd, hcases⟩ := key
  rw [hp] at hp1 hp2 hps
  dsimp only at hp1 hp2 hps
  have hseg := segment_ends hp1 hp2 hsr hdok hconsts hfade hrel size
  obtain ⟨_, s1, s2⟩ := segment_range hp1 hp2 size
  have hturn : turn e n = ((segment p size).1, finish (segment p size).2 (segment p size).1.length) := by
    unfold turn; rw [hp]
  rw [hturn]
  dsimp only
  generalize (segment p size).1.length = c at *
  generalize (segment p size).2 = s at *
  rw [finish_fields s c hseg.sr]
  obtain ⟨f1, f2⟩ := finish_range s1 s2 c
  rw [finish_fields s c hseg.sr] at f1 f2
  have hcount := hseg.count
  have hsd := hseg.delay
  have hsi := hseg.inDelay
  have hcs : Consts ρ K N { s with releaseDelay := max (-1) (s.releaseDelay - c) } :=
    ⟨by rw [show ({ s with releaseDelay := max (-1) (s.releaseDelay - c) } : Env).releaseRate = s.releaseRate from rfl, hseg.rr]; exact hconsts.rho, hconsts.rel,
      by rw [show ({ s with releaseDelay := max (-1) (s.releaseDelay - c) } : Env).trans = s.trans from rfl, show s.trans = p.trans by unfold Env.trans; rw [hseg.rate]]; exact hconsts.fade⟩
  have hrd := hseg.rd
  have hx : max (-1) (s.releaseDelay - (c : Int)) = -1 ∨ max (-1) (s.releaseDelay - (c : Int)) = s.releaseDelay - c := max_choice _ _
  have hx1 : -1 ≤ max (-1) (s.releaseDelay - (c : Int)) := le_max_left _ _
  have hx2 : s.releaseDelay - (c : Int) ≤ max (-1) (s.releaseDelay - (c : Int)) := le_max_right _ _
  generalize max (-1) (s.releaseDelay - (c : Int)) = rd' at *
  -- everything but the last two conditions
  have mk : c ≤ m → (0 ≤ rd' → max s.delay 0 + rd' + 1 + K + N ≤ (m - c : Nat)) →
      (s.state.index < 5 → max s.delay 0 + K + N ≤ (m - c : Nat)) →
      (c ≤ m ∧ Ends ρ K N b canc { s with releaseDelay := rd' } (m - c)) :=
    fun hcm h1 h2 => ⟨hcm, f1, f2, hseg.sr, hseg.dok, hcs, hx1, hseg.fade, hseg.rel, h1, h2⟩
  have lateOf : p.state = .release → c ≤ m ∧ ¬s.state.index < 5 := by
    intro hst
    obtain ⟨h1, h2⟩ := hseg.late (Or.inl hst)
    refine ⟨h1, ?_⟩
    rcases h2 with h2 | h2 | h2 <;> simp [h2, St.index]
  rcases hcases with ⟨c1, rfl, c3⟩ | ⟨c1, c2, c3⟩ | ⟨c1, c2, c3, c4, c5⟩ | ⟨c1, rfl, c3⟩ | ⟨c1, c2, c3⟩ | ⟨c1, rfl, c3⟩
  · left
    have hm := h.pending (by omega)
    exact mk (by omega) (fun _ => by omega) (fun _ => by omega)
  · left
    obtain ⟨l1, l2⟩ := lateOf c3
    exact mk l1 (fun hh => by omega) (fun hh => absurd hh l2)
  · have hm := h.pending (by omega)
    left
    exact mk (by omega) (fun hh => by omega) (fun _ => by omega)
  · left
    have hm := h.pending (by omega)
    have hst := hdok c3
    have := hsi hst
    exact mk (by omega) (fun hh => by omega) (fun _ => by omega)
  · left
    obtain ⟨l1, l2⟩ := lateOf c3
    exact mk l1 (fun hh => by omega) (fun hh => absurd hh l2)
  · by_cases hidx : p.state.index < 5
    · left
      have hst := hdok (c3 hidx)
      have := hsi hst
      have hm := h.early hidx
      exact mk (by omega) (fun hh => by omega) (fun _ => by omega)
    · rcases not_early hidx with hst | hst | hst
      · left
        obtain ⟨l1, l2⟩ := lateOf hst
        exact mk l1 (fun hh => by omega) (fun hh => absurd hh l2)
      · left
        obtain ⟨h1, h2⟩ := hseg.late (Or.inr hst)
        refine mk h1 (fun hh => by omega) (fun hh => ?_)
        rcases h2 with h2 | h2 | h2 <;> simp [h2, St.index] at hh
      · right
        exact ⟨hseg.done hst, hseg.sr, by dsimp only; omega⟩

theorem over_turn {e : Env} (h : Over e) (n : Nat) : Over (turn e n).2 := by
  have hp : prepare e n = (e, n) := by
    unfold prepare
    rw [if_pos h.sr, if_neg (by rw [h.rd]; omega), if_neg (by rw [h.rd]; omega), if_neg (by rw [h.state]; simp [St.index])]
  unfold turn
  rw [hp]
  dsimp only
  unfold segment
  simp only [h.state]
  unfold finish
  dsimp only
  rw [if_pos h.sr]
  exact ⟨rfl, h.sr, by dsimp only; have := h.rd; omega⟩

theorem over_block {e : Env} (h : Over e) (n : Nat) : Over (block e n).2 :=
  (block_induct (P := Over) (Q := fun _ => True) trivial (fun _ _ _ _ => trivial) (fun e n _ h => ⟨trivial, over_turn h n⟩) e n h).2

theorem block_ends {ρ : ℚ} {K N : Nat} {b : ℚ} {canc : Bool} (e : Env) (m n : Nat) (h : Ends ρ K N b canc e m) :
    (n ≤ m ∧ Ends ρ K N b canc (block e n).2 (m - n)) ∨ Over (block e n).2 := by
  fun_induction block generalizing m with
  | case1 e => exact Or.inl ⟨Nat.zero_le _, h⟩
  | case2 e n hn t r ih =>
    have hlen := turn_length e n (Nat.pos_of_ne_zero hn)
    rcases turn_ends h n (Nat.pos_of_ne_zero hn) with ⟨h1, h2⟩ | h1
    · rcases ih _ h2 with ⟨h3, h4⟩ | h3
      · left
        have h5 : m - (turn e n).1.length - (n - t.1.length) = m - n := by
          have : t = turn e n := rfl
          rw [this]; omega
        have h3' : n - (turn e n).1.length ≤ m - (turn e n).1.length := h3
        rw [h5] at h4
        exact ⟨by omega, h4⟩
      · exact Or.inr h3
    · exact Or.inr (over_block h1 _)

/-- When over, the output is 0. -/
theorem over_zero {e : Env} (h : Over e) (n : Nat) : ∀ y ∈ (block e n).1, y = 0 := by
  refine (block_induct (P := Over) (Q := fun l => ∀ y ∈ l, y = 0) (by simp) ?_ ?_ e n h).1
  · intro x y hx hy z hz
    rcases List.mem_append.mp hz with hz | hz
    · exact hx z hz
    · exact hy z hz
  · intro e n _ h
    refine ⟨?_, over_turn h n⟩
    have hp : prepare e n = (e, n) := by
      unfold prepare
      rw [if_pos h.sr, if_neg (by rw [h.rd]; omega), if_neg (by rw [h.rd]; omega), if_neg (by rw [h.state]; simp [St.index])]
    unfold turn
    rw [hp]
    dsimp only
    unfold segment
    simp only [h.state]
    intro y hy
    exact List.eq_of_mem_replicate hy

theorem over_update {e : Env} (h : Over e) (d : Int) (p : Params) : Over (update e d p) := ⟨h.state, h.sr, h.rd⟩

theorem over_dynamic (ps : Nat → Params) (e : Env) (k n : Nat) (h : Over e) :
    Over (dynamicBlock e ps k n).2 ∧ ∀ y ∈ (dynamicBlock e ps k n).1, y = 0 := by
  fun_induction dynamicBlock with
  | case1 => exact ⟨h, by simp⟩
  | case2 e k n hn chunk bl r ih =>
    have h1 := over_update h k (ps k)
    obtain ⟨h2, h3⟩ := ih (over_block h1 chunk)
    refine ⟨h2, fun y hy => ?_⟩
    rcases List.mem_append.mp hy with hy | hy
    · exact over_zero h1 chunk y hy
    · exact h3 y hy

/-! ### Dynamic parameters -/

theorem block_nodelay (e : Env) (n : Nat) (h : e.state ≠ .delay) : (block e n).2.state ≠ .delay := by
  refine (block_induct (P := fun e => e.state ≠ .delay) (Q := fun _ => True) trivial (fun _ _ _ _ => trivial) ?_ e n h).2
  intro e n _ h
  refine ⟨trivial, ?_⟩
  have hp : (prepare e n).1.state ≠ .delay := by
    unfold prepare
    split
    · split
      · exact h
      · split
        · split
          · simp
          · exact h
        · split
          · simp
          · exact h
    · exact h
  have hf : ∀ (s : Env) c, (finish s c).state = s.state := by intro s c; unfold finish; split <;> rfl
  unfold turn
  dsimp only
  rw [hf]
  generalize (prepare e n).1 = p at *
  generalize (prepare e n).2 = size at *
  unfold segment
  cases hs : p.state with
  | delay => exact absurd hs hp
  | attack => simp only; split <;> simp
  | hold => simp only; split <;> simp
  | decay => simp only; split <;> simp
  | sustain => simp only; split <;> simp
  | release => simp only; split <;> simp
  | fadeout => simp only; split <;> simp
  | done => simp

theorem ends_update {ρ : ℚ} {K N : Nat} {b : ℚ} {canc : Bool} {e : Env} {m : Nat} (h : Ends ρ K N b canc e m) (hs : e.state ≠ .delay)
    (d : Int) (p : Params) (hp : p.Ok) (hr : p.releaseRate ≤ ρ) : Ends ρ K N b canc (update e d p) m := by
  obtain ⟨h1, h2⟩ := update_range h.inv h.fok d p hp
  have hd : (update e d p).delay = e.delay := by unfold update; exact if_neg hs
  refine ⟨h1, h2, h.sr, ?_, ⟨⟨hr, h.consts.rho.2⟩, h.consts.rel, h.consts.fade⟩, h.rd, h.fade, h.rel, ?_, ?_⟩
  · unfold DelayOk; rw [hd]; exact h.dok
  · rw [hd]; exact h.pending
  · rw [hd]; exact h.early

theorem dynamic_ends {ρ : ℚ} {K N : Nat} {b : ℚ} {canc : Bool} (ps : Nat → Params) (hps : ∀ i, (ps i).Ok ∧ (ps i).releaseRate ≤ ρ) (e : Env) (k m n : Nat)
    (h : Ends ρ K N b canc e m) (hs : e.state ≠ .delay) :
    (n ≤ m ∧ Ends ρ K N b canc (dynamicBlock e ps k n).2 (m - n)) ∨ Over (dynamicBlock e ps k n).2 := by
  fun_induction dynamicBlock generalizing m with
  | case1 => exact Or.inl ⟨Nat.zero_le _, h⟩
  | case2 e k n hn chunk bl r ih =>
    have h1 := ends_update h hs k (ps k) (hps k).1 (hps k).2
    have hs1 := block_nodelay (update e k (ps k)) chunk hs
    rcases block_ends (update e k (ps k)) m chunk h1 with ⟨h2, h3⟩ | h2
    · rcases ih _ h3 hs1 with ⟨h4, h5⟩ | h4
      · left
        have hc : chunk = min 16 n := rfl
        have h6 : m - chunk - (n - chunk) = m - n := by omega
        rw [h6] at h5
        exact ⟨by omega, h5⟩
      · exact Or.inr h4
    · exact Or.inr (over_dynamic ps _ _ _ h2).1

theorem dynamic_nodelay (ps : Nat → Params) (e : Env) (k n : Nat) (h : e.state ≠ .delay) : (dynamicBlock e ps k n).2.state ≠ .delay := by
  fun_induction dynamicBlock with
  | case1 => exact h
  | case2 e k n hn chunk bl r ih => exact ih (block_nodelay (update e k (ps k)) chunk h)

/-! ### Envelopes that release themselves -/

theorem attackLoop_spec {s : ℚ} (hs : 0 < s) (n : Nat) (c : ℚ) (j : Nat) (hj : 1 ≤ c + j * s) :
    (attackLoop s n c).1.length ≤ j ∧ (1 ≤ (attackLoop s n c).2 ∨ 1 ≤ (attackLoop s n c).2 + ((j - (attackLoop s n c).1.length : Nat) : ℚ) * s) := by
  induction n generalizing c j with
  | zero => exact ⟨Nat.zero_le _, Or.inr hj⟩
  | succ n ih =>
    unfold attackLoop
    by_cases h : c + s < 1
    · rw [if_pos h]
      cases j with
      | zero =>
        rw [Nat.cast_zero, zero_mul] at hj
        linarith
      | succ j =>
        obtain ⟨h1, h2⟩ := ih (c + s) j (by push_cast at hj; linarith)
        dsimp only
        rw [List.length_cons, Nat.succ_sub_succ]
        exact ⟨Nat.succ_le_succ h1, h2⟩
    · rw [if_neg h]
      exact ⟨Nat.zero_le _, Or.inl (not_lt.mp h)⟩

/-- Constants of the stages before the release: `J` frames of attack, `D` frames of decay, blocks of at most `B` frames. -/
structure Stages (b : ℚ) (J D : Nat) (e : Env) : Prop where
  attack : 1 ≤ -b + J * e.attackStep
  decay : e.decayRate ^ D ≤ vz

/-- The envelope ends by itself within `m + 1` frames. -/
structure Auto (ρ : ℚ) (K N J D B : Nat) (b : ℚ) (canc : Bool) (e : Env) (m : Nat) : Prop where
  inv : InRange b canc e
  sr : e.shouldRelease = false
  fr : e.freeRunning = true
  dok : DelayOk e
  consts : Consts ρ K N e
  stages : Stages b J D e
  rd : e.releaseDelay = -1 ∨ e.releaseDelay = 0
  early : e.state.index < 5
  sustain : 1 + K + N ≤ m
  decay : e.state = .decay → ∃ j, e.cur * e.decayRate ^ j ≤ e.sustain + vz ∧ j + B + 1 + K + N ≤ m
  hold : e.state = .hold → max e.hold 0 + D + B + 1 + K + N ≤ m
  attack : e.state = .attack → ∃ j : Nat, 1 ≤ e.cur + j * e.attackStep ∧ j + max e.hold 0 + D + B + 1 + K + N ≤ m
  delay : e.state = .delay → max e.delay 0 + J + max e.hold 0 + D + B + 1 + K + N ≤ m

theorem auto_turn {ρ : ℚ} {K N J D B : Nat} {b : ℚ} {canc : Bool} {e : Env} {m : Nat} (h : Auto ρ K N J D B b canc e m) (n : Nat) (hn : n ≤ B) :
    (turn e n).1.length ≤ m ∧ (Auto ρ K N J D B b canc (turn e n).2 (m - (turn e n).1.length) ∨
      Ends ρ K N b canc (turn e n).2 (m - (turn e n).1.length)) := by
  have hp : prepare e n = (e, n) := by unfold prepare; rw [if_neg (by rw [h.sr]; simp)]
  have hfo : FadeOk e := fun hh => absurd h.early (by rw [hh]; simp [St.index])
  obtain ⟨_, hir, hfk⟩ := segment_range h.inv hfo n
  have hlen := segment_length e n
  have hturn : turn e n = ((segment e n).1, finish (segment e n).2 (segment e n).1.length) := by unfold turn; rw [hp]
  rw [hturn]
  have hsu := h.sustain
  have hfin : ∀ (s : Env) c, s.shouldRelease = false → finish s c = s := by
    intro s c hs; unfold finish; rw [if_neg (by rw [hs]; simp)]
  unfold segment at hir hfk hlen ⊢
  cases hs : e.state with
  | delay =>
    simp only [hs, List.length_replicate] at hir hfk hlen ⊢
    obtain ⟨h1, h2⟩ := delayLoop_spec n e.delay
    have hm := h.delay hs
    refine ⟨by omega, Or.inl ?_⟩
    rw [hfin _ _ (by split <;> exact h.sr)]
    by_cases hc : (delayLoop n e.delay).2 ≤ 0
    · rw [if_pos hc] at hir ⊢
      refine ⟨hir, h.sr, h.fr, fun hh => ?_, ⟨h.consts.rho, h.consts.rel, h.consts.fade⟩, ⟨h.stages.attack, h.stages.decay⟩, h.rd, by simp [St.index], by omega,
        fun hh => absurd hh (by simp), fun hh => absurd hh (by simp), fun _ => ⟨J, ?_, by dsimp only; omega⟩, fun hh => absurd hh (by simp)⟩
      · dsimp only at hh; omega
      · have := hir.cur.1
        have h3 := h.stages.attack
        dsimp only at this ⊢
        linarith
    · rw [if_neg hc] at hir ⊢
      exact ⟨hir, h.sr, h.fr, fun hh => by simp, ⟨h.consts.rho, h.consts.rel, h.consts.fade⟩, ⟨h.stages.attack, h.stages.decay⟩, h.rd, by simp [St.index], by omega,
        fun hh => absurd hh (by simp), fun hh => absurd hh (by simp), fun hh => absurd hh (by simp), fun _ => by dsimp only; omega⟩
  | attack =>
    have hd0 : ¬e.delay > 0 := fun hh => absurd (h.dok hh) (by simp [hs])
    simp only [hs] at hir hfk hlen ⊢
    obtain ⟨j, hj, hm⟩ := h.attack hs
    obtain ⟨h1, h2⟩ := attackLoop_spec h.inv.step n e.cur j hj
    refine ⟨by omega, Or.inl ?_⟩
    rw [hfin _ _ (by split <;> exact h.sr)]
    by_cases hc : (attackLoop e.attackStep n e.cur).2 ≥ 1
    · rw [if_pos hc] at hir ⊢
      exact ⟨hir, h.sr, h.fr, fun hh => absurd hh hd0, ⟨h.consts.rho, h.consts.rel, h.consts.fade⟩, ⟨h.stages.attack, h.stages.decay⟩, h.rd, by simp [St.index], by omega,
        fun hh => absurd hh (by simp), fun _ => by dsimp only; omega, fun hh => absurd hh (by simp), fun hh => absurd hh (by simp)⟩
    · rw [if_neg hc] at hir ⊢
      refine ⟨hir, h.sr, h.fr, fun hh => absurd hh hd0, ⟨h.consts.rho, h.consts.rel, h.consts.fade⟩, ⟨h.stages.attack, h.stages.decay⟩, h.rd, by simp [St.index], by omega,
        fun hh => absurd hh (by simp), fun hh => absurd hh (by simp), fun _ => ?_, fun hh => absurd hh (by simp)⟩
      rcases h2 with h2 | h2
      · exact absurd h2 hc
      · exact ⟨_, h2, by dsimp only; omega⟩
  | hold =>
    have hd0 : ¬e.delay > 0 := fun hh => absurd (h.dok hh) (by simp [hs])
    simp only [hs, List.length_replicate] at hir hfk hlen ⊢
    obtain ⟨h1, h2⟩ := delayLoop_spec n e.hold
    have hm := h.hold hs
    refine ⟨by omega, Or.inl ?_⟩
    rw [hfin _ _ (by split <;> exact h.sr)]
    by_cases hc : (delayLoop n e.hold).2 ≤ 0
    · rw [if_pos hc] at hir ⊢
      refine ⟨hir, h.sr, h.fr, fun hh => absurd hh hd0, ⟨h.consts.rho, h.consts.rel, h.consts.fade⟩, ⟨h.stages.attack, h.stages.decay⟩, h.rd, by simp [St.index], by omega,
        fun _ => ⟨D, ?_, by omega⟩, fun hh => absurd hh (by simp), fun hh => absurd hh (by simp), fun hh => absurd hh (by simp)⟩
      have h3 := h.stages.decay
      have h4 := h.inv.sustain.1
      have h5 : 0 ≤ e.decayRate ^ D := pow_nonneg h.inv.decay.1 D
      have h6 := mul_le_mul_of_nonneg_right h.inv.cur.2 h5
      dsimp only
      linarith
    · rw [if_neg hc] at hir ⊢
      exact ⟨hir, h.sr, h.fr, fun hh => absurd hh hd0, ⟨h.consts.rho, h.consts.rel, h.consts.fade⟩, ⟨h.stages.attack, h.stages.decay⟩, h.rd, by simp [St.index], by omega,
        fun hh => absurd hh (by simp), fun _ => by dsimp only; omega, fun hh => absurd hh (by simp), fun hh => absurd hh (by simp)⟩
  | decay =>
    have hd0 : ¬e.delay > 0 := fun hh => absurd (h.dok hh) (by simp [hs])
    simp only [hs] at hir hfk hlen ⊢
    obtain ⟨j, hj, hm⟩ := h.decay hs
    have hvz : 0 ≤ vz := by unfold vz; norm_num
    have h1 := decayLoop_spec (bd := e.sustain) (by linarith) (by linarith [h.inv.sustain.1]) ⟨h.inv.decay.1, le_refl _⟩ h.inv.decay.2 n e.cur j hj
    refine ⟨by omega, Or.inl ?_⟩
    rw [hfin _ _ (by split <;> exact h.sr)]
    by_cases hc : (decayLoop e.decayRate e.sustain n e.cur).2 ≤ e.sustain + vz
    · rw [if_pos hc] at hir ⊢
      exact ⟨hir, h.sr, h.fr, fun hh => absurd hh hd0, ⟨h.consts.rho, h.consts.rel, h.consts.fade⟩, ⟨h.stages.attack, h.stages.decay⟩, h.rd, by simp [St.index], by omega,
        fun hh => absurd hh (by simp), fun hh => absurd hh (by simp), fun hh => absurd hh (by simp), fun hh => absurd hh (by simp)⟩
    · rw [if_neg hc] at hir ⊢
      rcases h1 with h1 | ⟨h1, h2⟩
      · exact absurd h1 hc
      · exact ⟨hir, h.sr, h.fr, fun hh => absurd hh hd0, ⟨h.consts.rho, h.consts.rel, h.consts.fade⟩, ⟨h.stages.attack, h.stages.decay⟩, h.rd, by simp [St.index], by omega,
          fun _ => ⟨_, h2, by omega⟩, fun hh => absurd hh (by simp), fun hh => absurd hh (by simp), fun hh => absurd hh (by simp)⟩
  | sustain =>
    have hd0 : ¬e.delay > 0 := fun hh => absurd (h.dok hh) (by simp [hs])
    simp only [hs] at hir hfk hlen ⊢
    have hn : e.shouldRelease = false ∧ e.freeRunning = true := ⟨h.sr, h.fr⟩
    rw [if_pos hn] at hir hfk hlen ⊢
    dsimp only
    rw [List.length_nil]
    refine ⟨Nat.zero_le _, Or.inr ?_⟩
    obtain ⟨f1, f2⟩ := finish_range hir hfk 0
    have hrd := h.rd
    unfold finish at f1 f2 ⊢
    dsimp only at f1 f2 ⊢
    rw [if_pos rfl] at f1 f2 ⊢
    refine ⟨f1, f2, rfl, fun hh => absurd hh hd0, ⟨h.consts.rho, h.consts.rel, h.consts.fade⟩, le_max_left _ _, fade_of_ne _ (by simp), rel_of_ne _ (by simp), ?_, ?_⟩
    · intro _
      dsimp only
      push_cast
      omega
    · intro _
      dsimp only
      push_cast
      omega
  | release => exact absurd h.early (by rw [hs]; simp [St.index])
  | fadeout => exact absurd h.early (by rw [hs]; simp [St.index])
  | done => exact absurd h.early (by rw [hs]; simp [St.index])

theorem auto_block {ρ : ℚ} {K N J D B : Nat} {b : ℚ} {canc : Bool} (e : Env) (m n : Nat) (hn : n ≤ B) (h : Auto ρ K N J D B b canc e m) :
    (n ≤ m ∧ (Auto ρ K N J D B b canc (block e n).2 (m - n) ∨ Ends ρ K N b canc (block e n).2 (m - n))) ∨ Over (block e n).2 := by
  fun_induction block generalizing m with
  | case1 e => exact Or.inl ⟨Nat.zero_le _, Or.inl h⟩
  | case2 e n hn0 t r ih =>
    have hlen := turn_length e n (Nat.pos_of_ne_zero hn0)
    have ht : t = turn e n := rfl
    obtain ⟨h1, h2 | h2⟩ := auto_turn h n hn
    · rcases ih (m - (turn e n).1.length) (by omega) h2 with ⟨h3, h4⟩ | h3
      · left
        have h5 : m - (turn e n).1.length - (n - t.1.length) = m - n := by rw [ht]; omega
        have h3' : n - (turn e n).1.length ≤ m - (turn e n).1.length := h3
        rw [h5] at h4
        exact ⟨by omega, h4⟩
      · exact Or.inr h3
    · rcases block_ends (turn e n).2 _ (n - (turn e n).1.length) h2 with ⟨h3, h4⟩ | h3
      · left
        have h5 : m - (turn e n).1.length - (n - (turn e n).1.length) = m - n := by omega
        rw [h5] at h4
        exact ⟨by omega, Or.inr h4⟩
      · exact Or.inr h3

end Verif.Adsr
