import Verif.Wavetable.Content
import Mathlib.Analysis.SpecialFunctions.Integrals.Basic

/-!
# What the generated waveforms look like

The tables of the triangle, the saw and the square hold the Fourier series of the ideal shape, as far as
the cutoff lets it through.  The shapes and their Fourier coefficients are the specification.
-/

namespace Verif.Wavetable

open Real intervalIntegral

/-- One period of an ideal triangle: up to 1, down to -1 and back. -/
noncomputable def idealTriangle (t : ℝ) : ℝ := if t ≤ 1 / 4 then 4 * t else if t ≤ 3 / 4 then 2 - 4 * t else 4 * t - 4

/-- One period of an ideal saw: falls with slope 2, from -1 back to 1 in the middle. -/
noncomputable def idealSaw (t : ℝ) : ℝ := if t ≤ 1 / 2 then -2 * t else 2 - 2 * t

/-- One period of an ideal square. -/
noncomputable def idealSquare (t : ℝ) : ℝ := if t ≤ 1 / 2 then 1 else -1

/-- The Fourier coefficients of a function of period 1. -/
noncomputable def sinCoeff (f : ℝ → ℝ) (h : ℕ) : ℝ := 2 * ∫ t in (0 : ℝ)..1, f t * sin (2 * π * h * t)

/-- See `sinCoeff`. -/
noncomputable def cosCoeff (f : ℝ → ℝ) (h : ℕ) : ℝ := 2 * ∫ t in (0 : ℝ)..1, f t * cos (2 * π * h * t)

/-- What is left of a Fourier series when only harmonics up to the cutoff are kept. -/
noncomputable def cutSeries (f : ℝ → ℝ) (size : ℕ) (cutoff t : ℝ) : ℝ :=
  ∑ h ∈ Finset.Ico 1 (size / 2), if (h : ℝ) * (1 / size) ≤ cutoff then
    cosCoeff f h * cos (2 * π * h * t) + sinCoeff f h * sin (2 * π * h * t) else 0

/-! ### Integrals of straight pieces -/

lemma piece_sin {w : ℝ} (hw : w ≠ 0) (p q a b : ℝ) :
    ∫ t in a..b, (p * t + q) * sin (w * t)
      = (-(p * b + q) * cos (w * b) / w + p * sin (w * b) / w ^ 2)
        - (-(p * a + q) * cos (w * a) / w + p * sin (w * a) / w ^ 2) := by
  refine integral_eq_sub_of_hasDerivAt (f := fun t => -(p * t + q) * cos (w * t) / w + p * sin (w * t) / w ^ 2)
    (fun t _ => ?_) (Continuous.intervalIntegrable (by fun_prop) _ _)
  have h1 : HasDerivAt (fun t : ℝ => w * t) w t := by simpa using (hasDerivAt_id t).const_mul w
  have h2 : HasDerivAt (fun t : ℝ => -(p * t + q)) (-p) t := by
    have : HasDerivAt (fun t : ℝ => -(p * t + q)) (-(p * 1)) t :=
      (((hasDerivAt_id t).const_mul p).add_const q).neg
    rwa [mul_one] at this
  have h3 := ((h2.mul h1.cos).div_const w).add ((h1.sin.const_mul p).div_const (w ^ 2))
  refine h3.congr_deriv ?_
  field_simp
  ring

lemma piece_cos {w : ℝ} (hw : w ≠ 0) (p q a b : ℝ) :
    ∫ t in a..b, (p * t + q) * cos (w * t)
      = ((p * b + q) * sin (w * b) / w + p * cos (w * b) / w ^ 2)
        - ((p * a + q) * sin (w * a) / w + p * cos (w * a) / w ^ 2) := by
  refine integral_eq_sub_of_hasDerivAt (f := fun t => (p * t + q) * sin (w * t) / w + p * cos (w * t) / w ^ 2)
    (fun t _ => ?_) (Continuous.intervalIntegrable (by fun_prop) _ _)
  have h1 : HasDerivAt (fun t : ℝ => w * t) w t := by simpa using (hasDerivAt_id t).const_mul w
  have h2 : HasDerivAt (fun t : ℝ => p * t + q) p t := by
    have := ((hasDerivAt_id t).const_mul p).add_const q
    simpa using this
  have h3 := ((h2.mul h1.sin).div_const w).add ((h1.cos.const_mul p).div_const (w ^ 2))
  refine h3.congr_deriv ?_
  field_simp
  ring

/-- The integral of a function that agrees with a straight line on a piece. -/
lemma piece {f g : ℝ → ℝ} (hg : Continuous g) {p q a b : ℝ} (hab : a ≤ b)
    (hf : ∀ t, a < t → t ≤ b → f t = p * t + q) :
    (∫ t in a..b, f t * g t = ∫ t in a..b, (p * t + q) * g t) ∧
      IntervalIntegrable (fun t => f t * g t) MeasureTheory.volume a b := by
  have h : Set.EqOn (fun t => (p * t + q) * g t) (fun t => f t * g t) (Set.uIoc a b) := by
    intro t ht
    rw [Set.uIoc_of_le hab] at ht
    simp only [hf t ht.1 ht.2]
  refine ⟨?_, ?_⟩
  · symm
    refine integral_congr_ae ?_
    filter_upwards with t ht using h ht
  · exact IntervalIntegrable.congr h (Continuous.intervalIntegrable (by fun_prop) _ _)

lemma cos_half (h : ℕ) : cos (2 * π * h * (1 / 2)) = (-1) ^ h := by
  rw [show 2 * π * h * (1 / 2) = h * π by ring]; exact cos_nat_mul_pi h

lemma sin_half (h : ℕ) : sin (2 * π * h * (1 / 2)) = 0 := by
  rw [show 2 * π * h * (1 / 2) = h * π by ring]; exact sin_nat_mul_pi h

lemma cos_full (h : ℕ) : cos (2 * π * h * 1) = 1 := by
  rw [show 2 * π * h * 1 = h * (2 * π) by ring]; exact cos_nat_mul_two_pi h

lemma sin_full (h : ℕ) : sin (2 * π * h * 1) = 0 := by
  rw [show 2 * π * h * 1 = ((2 * h : ℕ) : ℝ) * π by push_cast; ring]; exact sin_nat_mul_pi _

lemma cos_three (h : ℕ) : cos (2 * π * h * (3 / 4)) = cos (2 * π * h * (1 / 4)) := by
  rw [show 2 * π * h * (3 / 4) = h * (2 * π) - 2 * π * h * (1 / 4) by ring, cos_nat_mul_two_pi_sub]

lemma sin_three (h : ℕ) : sin (2 * π * h * (3 / 4)) = -sin (2 * π * h * (1 / 4)) := by
  rw [show 2 * π * h * (3 / 4) = h * (2 * π) - 2 * π * h * (1 / 4) by ring, sin_nat_mul_two_pi_sub]

lemma sin_quarter (h : ℕ) : sin (2 * π * h * (1 / 4))
    = if h % 2 = 0 then 0 else if h / 2 % 2 = 1 then -1 else 1 := by
  obtain ⟨m, r, hr, rfl⟩ : ∃ m r, r < 4 ∧ h = 4 * m + r :=
    ⟨h / 4, h % 4, Nat.mod_lt _ (by norm_num), by omega⟩
  have e : 2 * π * ((4 * m + r : ℕ) : ℝ) * (1 / 4) = r * (π / 2) + m * (2 * π) := by push_cast; ring
  rw [e, sin_add_nat_mul_two_pi]
  interval_cases r
  · rw [if_pos (by omega)]; simp
  · rw [if_neg (by omega), if_neg (by omega)]; simp
  · rw [if_pos (by omega), show ((2 : ℕ) : ℝ) * (π / 2) = π by push_cast; ring, sin_pi]
  · rw [if_neg (by omega), if_pos (by omega),
      show ((3 : ℕ) : ℝ) * (π / 2) = π / 2 + π by push_cast; ring, sin_add_pi, sin_pi_div_two]

lemma freq_ne {h : ℕ} (hh : 0 < h) : 2 * π * h ≠ 0 := by
  have : (0 : ℝ) < h := by exact_mod_cast hh
  positivity

/-! ### The coefficients of the shapes -/

lemma square_pieces {g : ℝ → ℝ} (hg : Continuous g) : ∫ t in (0 : ℝ)..1, idealSquare t * g t
    = (∫ t in (0 : ℝ)..(1 / 2), ((0 * t + 1) * g t)) + ∫ t in (1 / 2 : ℝ)..1, ((0 * t + -1) * g t) := by
  have p1 := piece (f := idealSquare) hg (p := 0) (q := 1) (a := 0) (b := 1 / 2) (by norm_num)
    fun t _ h2 => by rw [idealSquare, if_pos h2]; ring
  have p2 := piece (f := idealSquare) hg (p := 0) (q := -1) (a := 1 / 2) (b := 1) (by norm_num)
    fun t h1 _ => by rw [idealSquare, if_neg (not_le.2 h1)]; ring
  rw [← integral_add_adjacent_intervals p1.2 p2.2, p1.1, p2.1]

lemma saw_pieces {g : ℝ → ℝ} (hg : Continuous g) : ∫ t in (0 : ℝ)..1, idealSaw t * g t
    = (∫ t in (0 : ℝ)..(1 / 2), ((-2 * t + 0) * g t)) + ∫ t in (1 / 2 : ℝ)..1, ((-2 * t + 2) * g t) := by
  have p1 := piece (f := idealSaw) hg (p := -2) (q := 0) (a := 0) (b := 1 / 2) (by norm_num)
    fun t _ h2 => by rw [idealSaw, if_pos h2]; ring
  have p2 := piece (f := idealSaw) hg (p := -2) (q := 2) (a := 1 / 2) (b := 1) (by norm_num)
    fun t h1 _ => by rw [idealSaw, if_neg (not_le.2 h1)]; ring
  rw [← integral_add_adjacent_intervals p1.2 p2.2, p1.1, p2.1]

lemma triangle_pieces {g : ℝ → ℝ} (hg : Continuous g) : ∫ t in (0 : ℝ)..1, idealTriangle t * g t
    = (∫ t in (0 : ℝ)..(1 / 4), ((4 * t + 0) * g t)) + (∫ t in (1 / 4 : ℝ)..(3 / 4), ((-4 * t + 2) * g t))
      + ∫ t in (3 / 4 : ℝ)..1, ((4 * t + -4) * g t) := by
  have p1 := piece (f := idealTriangle) hg (p := 4) (q := 0) (a := 0) (b := 1 / 4) (by norm_num)
    fun t _ h2 => by rw [idealTriangle, if_pos h2]; ring
  have p2 := piece (f := idealTriangle) hg (p := -4) (q := 2) (a := 1 / 4) (b := 3 / 4) (by norm_num)
    fun t h1 h2 => by rw [idealTriangle, if_neg (not_le.2 h1), if_pos h2]; ring
  have p3 := piece (f := idealTriangle) hg (p := 4) (q := -4) (a := 3 / 4) (b := 1) (by norm_num)
    fun t h1 _ => by
      rw [idealTriangle, if_neg (not_le.2 (by linarith)), if_neg (not_le.2 h1)]; ring
  rw [← integral_add_adjacent_intervals (p1.2.trans p2.2) p3.2,
    ← integral_add_adjacent_intervals p1.2 p2.2, p1.1, p2.1, p3.1]

lemma cont_sin (w : ℝ) : Continuous fun t : ℝ => sin (w * t) := by fun_prop
lemma cont_cos (w : ℝ) : Continuous fun t : ℝ => cos (w * t) := by fun_prop

lemma square_coeff {h : ℕ} (hh : 0 < h) :
    cosCoeff idealSquare h = 0 ∧ sinCoeff idealSquare h = 2 * (1 - (-1) ^ h) / (π * h) := by
  have hw := freq_ne hh
  have hp := pi_pos.ne'
  have hh' : (h : ℝ) ≠ 0 := by exact_mod_cast hh.ne'
  constructor
  · rw [cosCoeff, square_pieces (cont_cos _), piece_cos hw, piece_cos hw, sin_half, sin_full]
    simp
  · rw [sinCoeff, square_pieces (cont_sin _), piece_sin hw, piece_sin hw, cos_half, cos_full]
    simp only [mul_zero, cos_zero, sin_zero, zero_mul, zero_div]
    field_simp
    ring

lemma saw_coeff {h : ℕ} (hh : 0 < h) :
    cosCoeff idealSaw h = 0 ∧ sinCoeff idealSaw h = 2 * (-1) ^ h / (π * h) := by
  have hw := freq_ne hh
  have hp := pi_pos.ne'
  have hh' : (h : ℝ) ≠ 0 := by exact_mod_cast hh.ne'
  constructor
  · rw [cosCoeff, saw_pieces (cont_cos _), piece_cos hw, piece_cos hw, sin_half, sin_full, cos_half, cos_full]
    simp only [mul_zero, cos_zero, sin_zero, zero_mul, zero_div]
    ring
  · rw [sinCoeff, saw_pieces (cont_sin _), piece_sin hw, piece_sin hw, cos_half, cos_full, sin_half, sin_full]
    simp only [mul_zero, cos_zero, sin_zero, zero_mul, zero_div]
    field_simp
    ring

lemma triangle_coeff {h : ℕ} (hh : 0 < h) : cosCoeff idealTriangle h = 0 ∧
    sinCoeff idealTriangle h
      = 8 / (π ^ 2 * h ^ 2) * if h % 2 = 0 then 0 else if h / 2 % 2 = 1 then -1 else 1 := by
  have hw := freq_ne hh
  have hp := pi_pos.ne'
  have hh' : (h : ℝ) ≠ 0 := by exact_mod_cast hh.ne'
  constructor
  · rw [cosCoeff, triangle_pieces (cont_cos _), piece_cos hw, piece_cos hw, piece_cos hw, sin_three, cos_three,
      sin_full, cos_full]
    simp only [mul_zero, cos_zero, sin_zero, zero_mul, zero_div]
    ring
  · rw [sinCoeff, triangle_pieces (cont_sin _), piece_sin hw, piece_sin hw, piece_sin hw, sin_three, cos_three,
      sin_full, cos_full, sin_quarter]
    simp only [mul_zero, cos_zero, sin_zero, zero_mul, zero_div]
    field_simp
    ring

/-! ### C110 -/

lemma cutoff_all {size : ℕ} {cutoff : ℝ} {h : ℕ} (hh : 1 ≤ h) :
    (∀ k : ℕ, 1 ≤ k → k ≤ h → ¬ (k * (1 / size : ℝ) > cutoff)) ↔ (h : ℝ) * (1 / size) ≤ cutoff := by
  constructor
  · intro H; exact not_lt.1 (H h hh le_rfl)
  · intro H k _ hk
    refine not_lt.2 (le_trans ?_ H)
    exact mul_le_mul_of_nonneg_right (by exact_mod_cast hk) (by positivity)

/-- A waveform whose harmonics are the sine coefficients of a shape, negated, is its series. -/
lemma generate_series {size : ℕ} (amplitude cutoff : ℝ) {p : ℕ → ℂ} {f : ℝ → ℝ}
    (hp : ∀ h, 0 < h → p h = ((-sinCoeff f h : ℝ) : ℂ)) (hc : ∀ h, 0 < h → cosCoeff f h = 0) (n : ℕ) :
    generate size amplitude cutoff p n = amplitude * cutSeries f size cutoff (n / size) := by
  have hI : Complex.exp (π / 2 * Complex.I) = Complex.I := Complex.exp_pi_div_two_mul_I
  have hre : ∀ h, (spectrum size amplitude cutoff p h).re = 0 := by
    intro h
    unfold spectrum
    split
    · next hh =>
      rw [hp h hh.1, hI, mul_assoc, Complex.re_ofReal_mul, mul_comm Complex.I, Complex.re_ofReal_mul,
        Complex.I_re, mul_zero, mul_zero]
    · rfl
  unfold generate inverseReal
  rw [hre, hre, zero_add, zero_mul, add_zero, cutSeries, Finset.mul_sum]
  refine Finset.sum_congr rfl fun h hh => ?_
  obtain ⟨h1, h2⟩ := Finset.mem_Ico.1 hh
  rw [angle, re_mul_exp, hre, zero_mul, zero_sub]
  unfold spectrum
  by_cases hcut : (h : ℝ) * (1 / size) ≤ cutoff
  · rw [if_pos ⟨h1, by omega, (cutoff_all h1).2 hcut⟩, if_pos hcut, hp h h1, hc h h1, hI, mul_assoc,
      Complex.im_ofReal_mul, mul_comm Complex.I, Complex.im_ofReal_mul, Complex.I_im]
    rw [show 2 * π * (h : ℝ) * n / size = 2 * π * h * (n / size) by ring]
    ring
  · rw [if_neg fun hh => hcut ((cutoff_all h1).1 hh.2.2), if_neg hcut]
    simp

lemma exp_zero_arg : Complex.exp (((0 : ℝ) : ℂ) * Complex.I) = 1 := by simp
lemma exp_pi_arg : Complex.exp ((π : ℂ) * Complex.I) = -1 := Complex.exp_pi_mul_I

/-- C110: every table of the triangle holds the Fourier series of a triangle, up to the cutoff. -/
theorem triangle_exact (size : ℕ) (amplitude cutoff : ℝ) (n : ℕ) :
    generate size amplitude cutoff triangleProfile n = amplitude * cutSeries idealTriangle size cutoff (n / size) := by
  refine generate_series amplitude cutoff (fun h hh => ?_) (fun h hh => (triangle_coeff hh).1) n
  rw [(triangle_coeff hh).2, triangleProfile]
  by_cases h1 : h % 2 = 0
  · rw [if_pos h1, if_pos h1]; simp
  · rw [if_neg h1, if_neg h1]
    by_cases h2 : h / 2 % 2 = 1
    · rw [if_pos h2, if_pos h2, exp_zero_arg, mul_one]
      congr 1
      field_simp
    · rw [if_neg h2, if_neg h2, exp_pi_arg, ← Complex.ofReal_one, ← Complex.ofReal_neg, ← Complex.ofReal_mul]
      congr 1
      field_simp

/-- C110: every table of the saw holds the Fourier series of a saw, up to the cutoff. -/
theorem saw_exact (size : ℕ) (amplitude cutoff : ℝ) (n : ℕ) :
    generate size amplitude cutoff sawProfile n = amplitude * cutSeries idealSaw size cutoff (n / size) := by
  refine generate_series amplitude cutoff (fun h hh => ?_) (fun h hh => (saw_coeff hh).1) n
  rw [(saw_coeff hh).2, sawProfile, if_neg (by omega)]
  by_cases h2 : h % 2 = 1
  · rw [if_pos h2, exp_zero_arg, mul_one, Odd.neg_one_pow (Nat.odd_iff.2 h2)]
    congr 1
    field_simp
  · rw [if_neg h2, exp_pi_arg, ← Complex.ofReal_one, ← Complex.ofReal_neg, ← Complex.ofReal_mul,
      Even.neg_one_pow (Nat.even_iff.2 (by omega))]
    congr 1
    field_simp

/-- C110: every table of the square holds the Fourier series of a square, up to the cutoff. -/
theorem square_exact (size : ℕ) (amplitude cutoff : ℝ) (n : ℕ) :
    generate size amplitude cutoff squareProfile n = amplitude * cutSeries idealSquare size cutoff (n / size) := by
  refine generate_series amplitude cutoff (fun h hh => ?_) (fun h hh => (square_coeff hh).1) n
  rw [(square_coeff hh).2, squareProfile]
  by_cases h2 : h % 2 = 0
  · rw [if_pos h2, Even.neg_one_pow (Nat.even_iff.2 h2)]; simp
  · rw [if_neg h2, exp_pi_arg, ← Complex.ofReal_one, ← Complex.ofReal_neg, ← Complex.ofReal_mul,
      Odd.neg_one_pow (Nat.odd_iff.2 (by omega))]
    congr 1
    field_simp
    ring

/-- The square at a quarter of its period, with three harmonics: 1 - 1/3 of `4/π`. -/
example : cutSeries idealSquare 8 0.5 (2 / 8) = 4 / π * (1 - 1 / 3) := by
  have e3 := sin_quarter 3
  have e1 := sin_quarter 1
  have e2 := sin_quarter 2
  norm_num at e1 e2 e3
  rw [cutSeries, show Finset.Ico 1 (8 / 2) = {1, 2, 3} from rfl]
  rw [Finset.sum_insert (by decide), Finset.sum_insert (by decide), Finset.sum_singleton]
  rw [(square_coeff (h := 1) (by norm_num)).1, (square_coeff (h := 1) (by norm_num)).2,
    (square_coeff (h := 2) (by norm_num)).1, (square_coeff (h := 2) (by norm_num)).2,
    (square_coeff (h := 3) (by norm_num)).1, (square_coeff (h := 3) (by norm_num)).2]
  norm_num [e1, e2, e3]
  have hp := pi_pos.ne'
  field_simp
  ring

end Verif.Wavetable
