import Verif.Wavetable.Props

/-!
C107: what the interpolation between the samples of a table gives, apart from its formula.
-/
namespace Verif.Wavetable

theorem hermite_weights {c : ℝ} (h0 : 0 ≤ c) (h1 : c ≤ 1) :
    hermite3 (-1 - c) = 2 - 4 * (1 + c) + 5 / 2 * (1 + c) ^ 2 - 1 / 2 * (1 + c) ^ 3 ∧
    hermite3 (0 - c) = 1 - 5 / 2 * c ^ 2 + 3 / 2 * c ^ 3 ∧
    hermite3 (1 - c) = 1 - 5 / 2 * (1 - c) ^ 2 + 3 / 2 * (1 - c) ^ 3 ∧
    hermite3 (2 - c) = 2 - 4 * (2 - c) + 5 / 2 * (2 - c) ^ 2 - 1 / 2 * (2 - c) ^ 3 := by
  have a1 : |-1 - c| = 1 + c := by rw [abs_of_nonpos (by linarith)]; ring
  have a2 : |0 - c| = c := by rw [abs_of_nonpos (by linarith)]; ring
  have a3 : |1 - c| = 1 - c := abs_of_nonneg (by linarith)
  have a4 : |2 - c| = 2 - c := abs_of_nonneg (by linarith)
  simp only [hermite3, a1, a2, a3, a4]
  refine ⟨?_, ?_, ?_, ?_⟩
  · split_ifs with q1 q2
    · linarith
    · ring
    · have : c = 1 := by linarith
      subst this; norm_num
  · split_ifs with q1 q2
    · ring
    · have : c = 1 := by linarith
      subst this; norm_num
    · linarith
  · split_ifs with q1 q2
    · ring
    · have : c = 0 := by linarith
      subst this; norm_num
    · linarith
  · split_ifs with q1 q2
    · linarith
    · ring
    · have : c = 0 := by linarith
      subst this; norm_num

/-- **On the samples** every interpolator gives the samples. -/
theorem between_samples (v : ℤ → ℝ) (i : ℤ) (how : Interpolator) : between v i 0 how = v i := by
  obtain ⟨a1, a2, a3, a4⟩ := hermite_weights (c := 0) (le_refl _) zero_le_one
  cases how with
  | nearest =>
    simp only [between]
    rw [if_neg (by norm_num)]
  | linear => simp [between]
  | hermite =>
    simp only [between, a1, a2, a3, a4]
    ring

/-- **No jump**: at the end of the step between two samples, the linear and the Hermite interpolators have reached the next one. -/
theorem between_reaches (v : ℤ → ℝ) (i : ℤ) (how : Interpolator) (hh : how ≠ .nearest) : between v i 1 how = v (i + 1) := by
  obtain ⟨a1, a2, a3, a4⟩ := hermite_weights (c := 1) zero_le_one (le_refl _)
  cases how with
  | nearest => exact absurd rfl hh
  | linear => simp [between]
  | hermite =>
    simp only [between, a1, a2, a3, a4]
    ring

/-- **Straight lines and parabolas** are reproduced between the samples. -/
theorem between_parabola (v : ℤ → ℝ) (a b d : ℝ) (hv : ∀ i : ℤ, v i = a + b * i + d * i ^ 2) (i : ℤ) (c : ℝ) (h0 : 0 ≤ c) (h1 : c ≤ 1) :
    between v i c .hermite = a + b * (i + c) + d * (i + c) ^ 2 ∧ (d = 0 → between v i c .linear = a + b * (i + c)) := by
  obtain ⟨a1, a2, a3, a4⟩ := hermite_weights h0 h1
  constructor
  · simp only [between, a1, a2, a3, a4, hv]
    push_cast
    ring
  · rintro rfl
    simp only [between, hv]
    push_cast
    ring

/-- **The nearest** sample is the one at no more than half a step. -/
theorem between_nearest (v : ℤ → ℝ) (i : ℤ) (c : ℝ) (h0 : 0 ≤ c) (h1 : c ≤ 1) :
    ∃ j : ℤ, |(i : ℝ) + c - j| ≤ 1 / 2 ∧ between v i c .nearest = v j := by
  by_cases h : c > 1 / 2
  · refine ⟨i + 1, ?_, by simp only [between]; rw [if_pos h]⟩
    push_cast
    rw [abs_le]
    constructor <;> linarith
  · refine ⟨i, ?_, by simp only [between]; rw [if_neg h]⟩
    rw [abs_le]
    constructor <;> linarith

example : between (fun i => (i : ℝ) ^ 2) 3 (1 / 2) .hermite = 49 / 4 := by
  have := (between_parabola (fun i => (i : ℝ) ^ 2) 0 0 1 (fun i => by simp) 3 (1 / 2) (by norm_num) (by norm_num)).1
  rw [this]; norm_num

end Verif.Wavetable
