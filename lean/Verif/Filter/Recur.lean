import Verif.Filter.Model
import Mathlib.Analysis.SpecificLimits.Normed
import Mathlib.Analysis.Complex.Basic
import Mathlib.Topology.Algebra.Order.LiminfLimsup

/-!
# First- and second-order recursions

Lemmas about sequences: a recursion whose poles lie inside the unit disc keeps bounded signals
bounded and forgets signals that die out.  The second-order case is factored over `ℂ` into two
first-order ones.
-/

namespace Verif.Filter

open _root_.Filter Topology

/-- A stable first-order recursion stays bounded. -/
lemma bounded_one {r : ℂ} (hr : ‖r‖ < 1) {y w : ℕ → ℂ} (h : ∀ n, y (n + 1) = r * y n + w n)
    {W : ℝ} (hw : ∀ n, ‖w n‖ ≤ W) (n : ℕ) : ‖y n‖ ≤ ‖y 0‖ + W / (1 - ‖r‖) := by
  have hW : 0 ≤ W := (norm_nonneg _).trans (hw 0)
  have h1 : 0 < 1 - ‖r‖ := by linarith
  induction n with
  | zero => have := div_nonneg hW h1.le; linarith
  | succ n ih =>
    rw [h]
    have e1 : ‖r * y n + w n‖ ≤ ‖r‖ * ‖y n‖ + ‖w n‖ := by
      simpa using norm_add_le (r * y n) (w n)
    have e2 : ‖r‖ * ‖y n‖ ≤ ‖r‖ * (‖y 0‖ + W / (1 - ‖r‖)) :=
      mul_le_mul_of_nonneg_left ih (norm_nonneg _)
    have e3 : W / (1 - ‖r‖) = ‖r‖ * (W / (1 - ‖r‖)) + W := by field_simp; ring
    have e4 : ‖r‖ * ‖y 0‖ ≤ ‖y 0‖ := by
      have := mul_le_mul_of_nonneg_right hr.le (norm_nonneg (y 0)); linarith
    have := hw n
    nlinarith

/-- A stable first-order recursion forgets a dying input. -/
lemma vanish_one {r : ℂ} (hr : ‖r‖ < 1) {y w : ℕ → ℂ} (h : ∀ n, y (n + 1) = r * y n + w n)
    (hw : Tendsto w atTop (𝓝 0)) : Tendsto y atTop (𝓝 0) := by
  rw [Metric.tendsto_atTop] at hw ⊢
  intro ε hε
  have h1 : 0 < 1 - ‖r‖ := by linarith
  obtain ⟨N, hN⟩ := hw (ε / 2 * (1 - ‖r‖)) (by positivity)
  have key : ∀ k, ‖y (N + k)‖ ≤ ‖r‖ ^ k * ‖y N‖ + ε / 2 := by
    intro k
    induction k with
    | zero => simp; linarith
    | succ k ih =>
      have e0 : y (N + (k + 1)) = r * y (N + k) + w (N + k) := h (N + k)
      rw [e0]
      have e1 : ‖r * y (N + k) + w (N + k)‖ ≤ ‖r‖ * ‖y (N + k)‖ + ‖w (N + k)‖ := by
        simpa using norm_add_le (r * y (N + k)) (w (N + k))
      have e2 := mul_le_mul_of_nonneg_left ih (norm_nonneg r)
      have e3 : ‖w (N + k)‖ ≤ ε / 2 * (1 - ‖r‖) := by
        have := hN (N + k) (by omega); rw [dist_zero_right] at this; exact this.le
      rw [pow_succ]
      nlinarith
  have hp : Tendsto (fun k : ℕ => ‖r‖ ^ k * ‖y N‖) atTop (𝓝 0) := by
    simpa using (tendsto_pow_atTop_nhds_zero_of_lt_one (norm_nonneg r) hr).mul_const ‖y N‖
  obtain ⟨K, hK⟩ := (Metric.tendsto_atTop.mp hp) (ε / 2) (by positivity)
  refine ⟨N + K, fun n hn => ?_⟩
  obtain ⟨k, rfl⟩ : ∃ k, n = N + k := ⟨n - N, by omega⟩
  have e1 := hK k (by omega)
  rw [dist_zero_right, Real.norm_of_nonneg (by positivity)] at e1
  rw [dist_zero_right]
  have := key k
  linarith

/-- The stability triangle of a second-order recursion. -/
def Stable (a1 a2 : ℝ) : Prop := |a2| < 1 ∧ |a1| < 1 + a2

/-- Inside the triangle, both poles are inside the unit disc. -/
lemma Stable.roots {a1 a2 : ℝ} (h : Stable a1 a2) :
    ∃ r1 r2 : ℂ, r1 + r2 = -a1 ∧ r1 * r2 = a2 ∧ ‖r1‖ < 1 ∧ ‖r2‖ < 1 := by
  obtain ⟨h2, h1⟩ := h
  have h2' := (abs_lt.mp h2)
  have h1' := (abs_lt.mp h1)
  by_cases hd : 0 ≤ a1 ^ 2 - 4 * a2
  · have hs := Real.sq_sqrt hd
    set d := Real.sqrt (a1 ^ 2 - 4 * a2) with hdd
    have hd0 : 0 ≤ d := Real.sqrt_nonneg _
    have hlt : d < 2 - |a1| := by
      rw [hdd, Real.sqrt_lt' (by linarith)]
      have : |a1| ^ 2 = a1 ^ 2 := sq_abs a1
      nlinarith
    have ha : -|a1| ≤ a1 ∧ a1 ≤ |a1| := ⟨neg_abs_le _, le_abs_self _⟩
    refine ⟨(((-a1 + d) / 2 : ℝ) : ℂ), (((-a1 - d) / 2 : ℝ) : ℂ), ?_, ?_, ?_, ?_⟩
    · push_cast; ring
    · rw [← Complex.ofReal_mul]; congr 1; nlinarith
    · rw [Complex.norm_real, Real.norm_eq_abs, abs_lt]
      constructor <;> linarith [ha.1, ha.2]
    · rw [Complex.norm_real, Real.norm_eq_abs, abs_lt]
      constructor <;> linarith [ha.1, ha.2]
  · have hd' : 0 ≤ 4 * a2 - a1 ^ 2 := by linarith
    have hs := Real.sq_sqrt hd'
    set d := Real.sqrt (4 * a2 - a1 ^ 2) with hdd
    have hn : ∀ e : ℝ, e ^ 2 = d ^ 2 → ‖(⟨-a1 / 2, e / 2⟩ : ℂ)‖ < 1 := by
      intro e he
      have : ‖(⟨-a1 / 2, e / 2⟩ : ℂ)‖ ^ 2 < 1 := by
        rw [← Complex.normSq_eq_norm_sq, Complex.normSq_mk]
        nlinarith
      nlinarith [norm_nonneg (⟨-a1 / 2, e / 2⟩ : ℂ)]
    refine ⟨⟨-a1 / 2, d / 2⟩, ⟨-a1 / 2, -d / 2⟩, ?_, ?_, hn d rfl, hn (-d) (by ring)⟩
    · apply Complex.ext
      · simp
      · simp; ring
    · apply Complex.ext
      · simp; nlinarith
      · simp; ring

/-- A second-order recursion driven by `w`. -/
def Rec2 (a1 a2 : ℝ) (w y : ℕ → ℝ) : Prop :=
  ∀ n, y (n + 2) = w n - a1 * y (n + 1) - a2 * y n

/-- Both poles split off: the recursion is two first-order ones in series. -/
lemma Rec2.factor {a1 a2 : ℝ} {w y : ℕ → ℝ} (h : Rec2 a1 a2 w y) {r1 r2 : ℂ}
    (hs : r1 + r2 = -a1) (hp : r1 * r2 = a2) :
    ∀ n, ((y (n + 2) : ℂ) - r1 * y (n + 1)) = r2 * (y (n + 1) - r1 * y n) + w n := by
  intro n
  have e : (y (n + 2) : ℂ) = w n - a1 * y (n + 1) - a2 * y n := by
    rw [h n]; push_cast; ring
  have hs' : (a1 : ℂ) = -(r1 + r2) := by rw [hs]; ring
  rw [e, hs', ← hp]; ring

/-- Inside the triangle, the result is bounded by a fixed multiple of the start values and the
drive. -/
lemma Rec2.gain {a1 a2 : ℝ} (hst : Stable a1 a2) : ∃ K, 0 ≤ K ∧ ∀ (w y : ℕ → ℝ),
    Rec2 a1 a2 w y → ∀ W, (∀ n, |w n| ≤ W) → ∀ n, |y n| ≤ K * (|y 0| + |y 1| + W) := by
  obtain ⟨r1, r2, hs, hp, n1, n2⟩ := hst.roots
  have h1 : 0 < 1 - ‖r1‖ := by linarith
  have h2 : 0 < 1 - ‖r2‖ := by linarith
  have i1 : 1 ≤ 1 / (1 - ‖r1‖) := by
    rw [le_div_iff₀ h1]; linarith [norm_nonneg r1]
  have i2 : 1 ≤ 1 / (1 - ‖r2‖) := by
    rw [le_div_iff₀ h2]; linarith [norm_nonneg r2]
  refine ⟨1 + 1 / (1 - ‖r2‖) * (1 / (1 - ‖r1‖)), by positivity, fun w y h W hw n => ?_⟩
  have hW : 0 ≤ W := (abs_nonneg _).trans (hw 0)
  have b1 := bounded_one n2 (y := fun n => (y (n + 1) : ℂ) - r1 * y n) (w := fun n => (w n : ℂ))
    (h.factor hs hp) (W := W) (fun n => by simpa using hw n)
  have b2 := bounded_one n1 (y := fun n => (y n : ℂ)) (w := fun n => (y (n + 1) : ℂ) - r1 * y n)
    (fun n => by ring) b1 n
  simp only [Complex.norm_real, Real.norm_eq_abs] at b2
  have b3 : ‖(y (0 + 1) : ℂ) - r1 * y 0‖ ≤ |y 1| + |y 0| := by
    refine (norm_sub_le _ _).trans ?_
    simp only [norm_mul, Complex.norm_real, Real.norm_eq_abs]
    nlinarith [abs_nonneg (y 0)]
  have b4 : W / (1 - ‖r2‖) = 1 / (1 - ‖r2‖) * W := by ring
  have b5 : (‖(y (0 + 1) : ℂ) - r1 * y 0‖ + W / (1 - ‖r2‖)) / (1 - ‖r1‖)
      ≤ (1 / (1 - ‖r2‖) * (|y 0| + |y 1| + W)) / (1 - ‖r1‖) := by
    apply div_le_div_of_nonneg_right _ h1.le
    rw [b4]
    nlinarith [abs_nonneg (y 0), abs_nonneg (y 1)]
  have b6 : (1 / (1 - ‖r2‖) * (|y 0| + |y 1| + W)) / (1 - ‖r1‖)
      = 1 / (1 - ‖r2‖) * (1 / (1 - ‖r1‖)) * (|y 0| + |y 1| + W) := by ring
  nlinarith [abs_nonneg (y 0), abs_nonneg (y 1)]

/-- Inside the triangle, a drive that dies out gives a result that dies out. -/
lemma Rec2.vanish {a1 a2 : ℝ} (hst : Stable a1 a2) {w y : ℕ → ℝ} (h : Rec2 a1 a2 w y)
    (hw : Tendsto w atTop (𝓝 0)) : Tendsto y atTop (𝓝 0) := by
  obtain ⟨r1, r2, hs, hp, n1, n2⟩ := hst.roots
  have hw' : Tendsto (fun n => (w n : ℂ)) atTop (𝓝 0) := by
    have := (Complex.continuous_ofReal.tendsto 0).comp hw
    simpa [Function.comp_def] using this
  have b1 := vanish_one n2 (y := fun n => (y (n + 1) : ℂ) - r1 * y n) (w := fun n => (w n : ℂ))
    (h.factor hs hp) hw'
  have b2 := vanish_one n1 (y := fun n => (y n : ℂ)) (w := fun n => (y (n + 1) : ℂ) - r1 * y n)
    (fun n => by ring) b1
  have := (Complex.continuous_re.tendsto 0).comp b2
  simpa [Function.comp_def] using this

/-- The determinant of three successive values is multiplied by `a2` at each free step. -/
lemma Rec2.det {a1 a2 : ℝ} {w y : ℕ → ℝ} (h : Rec2 a1 a2 w y) {N : ℕ}
    (hw : ∀ n, N ≤ n → w n = 0) (k : ℕ) :
    y (N + k + 2) * y (N + k) - y (N + k + 1) ^ 2
      = a2 ^ k * (y (N + 2) * y N - y (N + 1) ^ 2) := by
  induction k with
  | zero => simp
  | succ k ih =>
    have e1 := h (N + k)
    have e2 := h (N + k + 1)
    rw [hw _ (by omega)] at e1 e2
    have : N + (k + 1) = N + k + 1 := by omega
    rw [this, pow_succ a2 k]
    have e3 : y (N + k + 1 + 2) * y (N + k + 1) - y (N + k + 1 + 1) ^ 2
        = a2 * (y (N + k + 2) * y (N + k) - y (N + k + 1) ^ 2) := by
      have e4 : N + k + 1 + 1 = N + k + 2 := by omega
      rw [e4] at e2 ⊢
      rw [e2]
      linear_combination (-y (N + k + 2)) * e1
    rw [e3, ih]; ring

/-- Outside the triangle by `|a2| > 1`, a recursion left to itself in general position grows
beyond every bound. -/
lemma Rec2.unbounded {a1 a2 : ℝ} (ha : 1 < |a2|) {w y : ℕ → ℝ} (h : Rec2 a1 a2 w y) {N : ℕ}
    (hw : ∀ n, N ≤ n → w n = 0) (hd : y (N + 2) * y N - y (N + 1) ^ 2 ≠ 0) :
    ¬ ∃ B, ∀ n, |y n| ≤ B := by
  rintro ⟨B, hB⟩
  have hB0 : 0 ≤ B := (abs_nonneg _).trans (hB 0)
  have hbig := tendsto_pow_atTop_atTop_of_one_lt ha
  have hd' : 0 < |y (N + 2) * y N - y (N + 1) ^ 2| := abs_pos.mpr hd
  obtain ⟨k, hk⟩ := (hbig.eventually_gt_atTop
    ((B * B + B ^ 2) / |y (N + 2) * y N - y (N + 1) ^ 2|)).exists
  rw [div_lt_iff₀ hd', ← abs_pow, ← abs_mul, ← h.det hw k] at hk
  have e1 : |y (N + k + 2) * y (N + k) - y (N + k + 1) ^ 2|
      ≤ |y (N + k + 2) * y (N + k)| + |y (N + k + 1) ^ 2| := abs_sub _ _
  have e2 : |y (N + k + 2) * y (N + k)| ≤ B * B := by
    rw [abs_mul]; exact mul_le_mul (hB _) (hB _) (abs_nonneg _) hB0
  have e3 : |y (N + k + 1) ^ 2| ≤ B ^ 2 := by
    rw [abs_pow]; exact pow_le_pow_left₀ (abs_nonneg _) (hB _) 2
  linarith

end Verif.Filter
