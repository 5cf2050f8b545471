import Verif.Adsr.Shape
import Mathlib.Analysis.Complex.ExponentialBounds

/-! C122: releases and decays in seconds. -/
namespace Verif.Adsr

/-- `secondsToExpRate` (ADSREnvelope.cpp:32-39), over the reals: the factor per frame of a decay or release of `seconds` seconds; times
under 6 ms (`Default::offTime`) count as 6 ms. -/
noncomputable def secondsToExpRate (sr seconds : ℝ) : ℝ :=
  if seconds ≤ 0 then 0 else Real.exp (-9 / (max (6 / 1000) seconds * sr))

/-- The time `secondsToExpRate` works with. -/
noncomputable def decayTime (seconds : ℝ) : ℝ := max (6 / 1000) seconds

theorem exp_nine : (1 / 10000 : ℝ) < Real.exp (-9) := by
  rw [Real.exp_neg, one_div]
  apply inv_strictAnti₀ (Real.exp_pos _)
  have h := Real.exp_one_lt_d9
  have : Real.exp 9 = Real.exp 1 ^ 9 := by rw [← Real.exp_nat_mul]; norm_num
  rw [this]
  calc Real.exp 1 ^ 9 < 2.7182818286 ^ 9 := by gcongr
    _ < 10000 := by norm_num

theorem exp_nine_quarter : Real.exp (-(37 / 4)) < (1 / 10000 : ℝ) := by
  have h : (10000 : ℝ) < Real.exp (37 / 4) := by
    have h4 : Real.exp (37 / 4) ^ 4 = Real.exp 1 ^ 37 := by rw [← Real.exp_nat_mul, ← Real.exp_nat_mul]; norm_num
    have h5 : (10000 : ℝ) ^ 4 < Real.exp (37 / 4) ^ 4 := by
      rw [h4]
      calc (10000 : ℝ) ^ 4 < 2.7182818283 ^ 37 := by norm_num
        _ < Real.exp 1 ^ 37 := by gcongr; exact Real.exp_one_gt_d9
    exact lt_of_pow_lt_pow_left₀ 4 (Real.exp_pos _).le h5
  rw [Real.exp_neg, one_div]
  exact inv_strictAnti₀ (by norm_num) h

theorem rate_pow (sr t : ℝ) (ht : 0 < t) (n : Nat) :
    secondsToExpRate sr t ^ n = Real.exp (-9 * (n / (decayTime t * sr))) := by
  unfold secondsToExpRate decayTime
  rw [if_neg (not_le.mpr ht), ← Real.exp_nat_mul]
  congr 1
  ring

/-- **C122, seconds.** A release of `t` seconds from full level decays for at least `t` seconds, and from any level for no more than
`37/36 t` seconds, before its last fade: `K` is the number of frames of `release_frames`. A rational rate bounds the real one from the
side that matters. -/
theorem release_time (sr t : ℝ) (hsr : 0 < sr) (ht : 0 < t) (v ρ : ℚ) (hv : 0 < v ∧ v ≤ 1) (hρ : 0 ≤ ρ) (K : Nat)
    (h1 : ∀ j, 1 ≤ j → j ≤ K → thr < v * ρ ^ j) (h2 : v * ρ ^ (K + 1) ≤ thr) :
    ((ρ : ℝ) ≤ secondsToExpRate sr t → (K : ℝ) / sr ≤ 37 / 36 * decayTime t) ∧
    (v = 1 → secondsToExpRate sr t ≤ (ρ : ℝ) → decayTime t ≤ (K + 1 : ℕ) / sr) := by
  have hT : 0 < decayTime t * sr := mul_pos (lt_of_lt_of_le ht (le_max_right _ _)) hsr
  have hthr : ((thr : ℚ) : ℝ) = 1 / 10000 := by norm_num [thr]
  constructor
  · intro hle
    by_contra hK
    rw [not_le, lt_div_iff₀ hsr] at hK
    have hK0 : 0 < K := by
      rcases Nat.eq_zero_or_pos K with h | h
      · subst h; exfalso; rw [Nat.cast_zero] at hK; nlinarith
      · exact h
    have h3 : ((thr : ℚ) : ℝ) < v * ρ ^ K := by exact_mod_cast h1 K hK0 le_rfl
    have h4 : (ρ : ℝ) ^ K ≤ Real.exp (-9 * (K / (decayTime t * sr))) := by
      rw [← rate_pow sr t ht]
      exact pow_le_pow_left₀ (by exact_mod_cast hρ) hle K
    have h5 : Real.exp (-9 * (K / (decayTime t * sr))) ≤ Real.exp (-(37 / 4)) := by
      apply Real.exp_le_exp.mpr
      have : (37 / 36 : ℝ) ≤ K / (decayTime t * sr) := by
        rw [le_div_iff₀ hT]; linarith
      linarith
    have h6 : (v : ℝ) * ρ ^ K ≤ 1 * ρ ^ K :=
      mul_le_mul_of_nonneg_right (by exact_mod_cast hv.2) (pow_nonneg (by exact_mod_cast hρ) _)
    have := exp_nine_quarter
    rw [hthr] at h3
    linarith
  · intro hv1 hle
    by_contra hK
    rw [not_le, div_lt_iff₀ hsr] at hK
    subst hv1
    have h3 : (ρ : ℝ) ^ (K + 1) ≤ ((thr : ℚ) : ℝ) := by
      have : ((1 * ρ ^ (K + 1) : ℚ) : ℝ) ≤ ((thr : ℚ) : ℝ) := by exact_mod_cast h2
      push_cast at this; linarith
    have h0 : 0 ≤ secondsToExpRate sr t := by
      unfold secondsToExpRate; split
      · exact le_rfl
      · exact (Real.exp_pos _).le
    have h4 : Real.exp (-9 * ((K + 1 : ℕ) / (decayTime t * sr))) ≤ (ρ : ℝ) ^ (K + 1) := by
      rw [← rate_pow sr t ht]
      exact pow_le_pow_left₀ h0 hle _
    have h5 : Real.exp (-9) ≤ Real.exp (-9 * ((K + 1 : ℕ) / (decayTime t * sr))) := by
      apply Real.exp_le_exp.mpr
      have : ((K + 1 : ℕ) : ℝ) / (decayTime t * sr) ≤ 1 := by
        rw [div_le_one hT]; linarith
      linarith
    have := exp_nine
    rw [hthr] at h3
    linarith

/-- **C122, decays.** A decay of `t` seconds is at less than 1/8000 of full level after `t` seconds: it has reached any sustain level
above this by then. -/
theorem decay_time (sr t : ℝ) (hsr : 0 < sr) (ht : 0 < t) (n : Nat) (hn : decayTime t ≤ n / sr) :
    secondsToExpRate sr t ^ n < 1 / 8000 := by
  have hT : 0 < decayTime t * sr := mul_pos (lt_of_lt_of_le ht (le_max_right _ _)) hsr
  rw [rate_pow sr t ht]
  have h1 : Real.exp (-9 * (n / (decayTime t * sr))) ≤ Real.exp (-9) := by
    apply Real.exp_le_exp.mpr
    have : (1 : ℝ) ≤ n / (decayTime t * sr) := by
      rw [le_div_iff₀ hT, one_mul]
      rwa [le_div_iff₀ hsr] at hn
    linarith
  have h2 : Real.exp (-9) < 1 / 8000 := by
    rw [Real.exp_neg, one_div]
    apply inv_strictAnti₀ (by norm_num)
    have : Real.exp 9 = Real.exp 1 ^ 9 := by rw [← Real.exp_nat_mul]; norm_num
    rw [this]
    calc (8000 : ℝ) < 2.7182818283 ^ 9 := by norm_num
      _ < Real.exp 1 ^ 9 := by gcongr; exact Real.exp_one_gt_d9
  linarith

/-- At 1000 frames per second a release of 1 s takes between 1000 and 1028 frames: a rational rate under the real one. -/
example : (0 : ℝ) < 1000 ∧ ((99 / 100 : ℚ) : ℝ) ≤ secondsToExpRate 1000 1 := by
  refine ⟨by norm_num, ?_⟩
  unfold secondsToExpRate
  rw [if_neg (by norm_num), max_eq_right (by norm_num)]
  have := Real.add_one_le_exp (-9 / (1 * 1000) : ℝ)
  push_cast
  linarith

end Verif.Adsr
