import Verif.Wavetable.Alias
import Mathlib.Algebra.BigOperators.Field

/-!
# What the tables hold

C110: waveforms have no offset, the sine is a sine, a file is reproduced; the oscillators of a unison are balanced.
-/
namespace Verif.Wavetable

open Real

/-! ### Sums of cosines over a period -/

theorem cos_sum {N : ℕ} (hN : 0 < N) (k : ℤ) :
    ∑ h ∈ Finset.range N, cos (2 * π * h * k / N) = if (N : ℤ) ∣ k then (N : ℝ) else 0 := by
  have hNr : (N : ℝ) ≠ 0 := by exact_mod_cast hN.ne'
  have hNc : (N : ℂ) ≠ 0 := by exact_mod_cast hN.ne'
  split
  · rename_i hd
    obtain ⟨c, rfl⟩ := hd
    have : ∀ h ∈ Finset.range N, cos (2 * π * h * ((N * c : ℤ) : ℝ) / N) = 1 := by
      intro h _
      have : 2 * π * (h : ℝ) * (((N : ℤ) * c : ℤ) : ℝ) / N = ((h * c : ℤ) : ℝ) * (2 * π) := by
        push_cast; field_simp
      rw [this]; exact cos_int_mul_two_pi _
    rw [Finset.sum_congr rfl this]; simp
  · rename_i hd
    set z := Complex.exp (2 * π * k / N * Complex.I) with hz
    have hzN : z ^ N = 1 := by
      rw [hz, ← Complex.exp_nat_mul]
      have : (N : ℂ) * (2 * π * k / N * Complex.I) = k * (2 * π * Complex.I) := by field_simp
      rw [this]; exact Complex.exp_int_mul_two_pi_mul_I k
    have hz1 : z ≠ 1 := by
      intro h
      rw [hz, Complex.exp_eq_one_iff] at h
      obtain ⟨n, hn⟩ := h
      apply hd
      have h2 : (k : ℂ) = N * n := by
        have hpi : (2 * π * Complex.I : ℂ) ≠ 0 := Complex.two_pi_I_ne_zero
        have : (k : ℂ) / N * (2 * π * Complex.I) = n * (2 * π * Complex.I) := by rw [← hn]; ring
        have := mul_right_cancel₀ hpi this
        field_simp at this
        rw [this]
      exact ⟨n, by exact_mod_cast h2⟩
    have hgeo : ∑ h ∈ Finset.range N, z ^ h = 0 := by
      rw [geom_sum_eq hz1, hzN]; simp
    have hre : ∀ h ∈ Finset.range N, cos (2 * π * h * k / N) = (z ^ h).re := by
      intro h _
      rw [hz, ← Complex.exp_nat_mul]
      have : (h : ℂ) * (2 * π * k / N * Complex.I) = ((2 * π * h * k / N : ℝ) : ℂ) * Complex.I := by push_cast; ring
      rw [this, Complex.exp_ofReal_mul_I_re]
    rw [Finset.sum_congr rfl hre, ← Complex.re_sum, hgeo]; rfl

theorem sin_sum {N : ℕ} (hN : 0 < N) (k : ℤ) : ∑ h ∈ Finset.range N, sin (2 * π * h * k / N) = 0 := by
  have hNr : (N : ℝ) ≠ 0 := by exact_mod_cast hN.ne'
  have href : ∑ h ∈ Finset.range N, sin (2 * π * h * k / N) = ∑ h ∈ Finset.range N, sin (2 * π * ((N - 1 - h : ℕ) : ℝ) * k / N) := by
    rw [Finset.sum_range_reflect (fun h => sin (2 * π * (h : ℝ) * k / N))]
  -- shift by one: the sum over `1..N` is the sum over `0..N-1`
  have hshift : ∑ h ∈ Finset.range N, sin (2 * π * ((h + 1 : ℕ) : ℝ) * k / N) = ∑ h ∈ Finset.range N, sin (2 * π * h * k / N) := by
    have h1 := Finset.sum_range_succ (fun h : ℕ => sin (2 * π * (h : ℝ) * k / N)) N
    have h2 := Finset.sum_range_succ' (fun h : ℕ => sin (2 * π * (h : ℝ) * k / N)) N
    have hN0 : sin (2 * π * (N : ℝ) * k / N) = 0 := by
      have : 2 * π * (N : ℝ) * k / N = ((2 * k : ℤ) : ℝ) * π := by push_cast; field_simp
      rw [this]; exact sin_int_mul_pi _
    rw [h1, hN0] at h2
    simp only [Nat.cast_zero, mul_zero, zero_mul, zero_div, sin_zero, add_zero] at h2
    exact h2.symm
  have hneg : ∀ h ∈ Finset.range N, sin (2 * π * ((N - 1 - h : ℕ) : ℝ) * k / N) = -sin (2 * π * ((h + 1 : ℕ) : ℝ) * k / N) := by
    intro h hh
    have hlt := Finset.mem_range.mp hh
    have hc : ((N - 1 - h : ℕ) : ℝ) = N - ((h + 1 : ℕ) : ℝ) := by
      rw [show N - 1 - h = N - (h + 1) by omega, Nat.cast_sub (by omega)]
    rw [hc]
    have : 2 * π * ((N : ℝ) - ((h + 1 : ℕ) : ℝ)) * k / N = -(2 * π * ((h + 1 : ℕ) : ℝ) * k / N) + (k : ℝ) * (2 * π) := by
      field_simp
      ring
    rw [this, sin_add_int_mul_two_pi, sin_neg]
  rw [Finset.sum_congr rfl hneg, Finset.sum_neg_distrib, hshift] at href
  linarith

theorem re_mul_exp (z : ℂ) (θ : ℝ) : (z * Complex.exp (θ * Complex.I)).re = z.re * cos θ - z.im * sin θ := by
  rw [Complex.mul_re, Complex.exp_ofReal_mul_I_re, Complex.exp_ofReal_mul_I_im]

theorem angle (h n N : ℕ) : (2 * π * h * n / N * Complex.I : ℂ) = ((2 * π * h * n / N : ℝ) : ℂ) * Complex.I := by push_cast; ring

/-! ### C110 -/

theorem spectrum_zero (size : ℕ) (a c : ℝ) (p : ℕ → ℂ) : spectrum size a c p 0 = 0 := by unfold spectrum; simp

/-- C110: no waveform has an offset: over a period its samples add up to zero, for any profile, size and cutoff. -/
theorem no_offset {size : ℕ} (hs : 0 < size) (he : size % 2 = 0) (amplitude cutoff : ℝ) (harmonic : ℕ → ℂ) :
    ∑ n ∈ Finset.range size, generate size amplitude cutoff harmonic n = 0 := by
  unfold generate inverseReal
  rw [Finset.sum_add_distrib, Finset.sum_add_distrib, Finset.sum_comm]
  simp only [spectrum_zero, Complex.zero_re, Finset.sum_const_zero, zero_add]
  set spec := spectrum size amplitude cutoff harmonic
  have h1 : ∀ h ∈ Finset.Ico 1 (size / 2), ∑ n ∈ Finset.range size, 2 * (spec h * Complex.exp (2 * π * h * n / size * Complex.I)).re = 0 := by
    intro h hh
    have hh := Finset.mem_Ico.mp hh
    rw [← Finset.mul_sum]
    have : ∀ n ∈ Finset.range size, (spec h * Complex.exp (2 * π * h * n / size * Complex.I)).re =
        (spec h).re * cos (2 * π * n * (h : ℤ) / size) - (spec h).im * sin (2 * π * n * (h : ℤ) / size) := by
      intro n _
      rw [angle, re_mul_exp]
      rw [show 2 * π * (h : ℝ) * n / size = 2 * π * n * ((h : ℤ) : ℝ) / size by push_cast; ring]
    rw [Finset.sum_congr rfl this, Finset.sum_sub_distrib, ← Finset.mul_sum, ← Finset.mul_sum, cos_sum hs, sin_sum hs, if_neg]
    · simp
    · intro hd
      have := Int.le_of_dvd (by omega) hd
      omega
  rw [Finset.sum_eq_zero h1, zero_add, ← Finset.mul_sum]
  obtain ⟨k, rfl⟩ : ∃ k, size = 2 * k := ⟨size / 2, by omega⟩
  have : ∑ n ∈ Finset.range (2 * k), (-1 : ℝ) ^ n = 0 := by
    rw [geom_sum_eq (by norm_num), pow_mul]; norm_num
  rw [this, mul_zero]

/-- C110: the sine is a sine of the given amplitude, in all tables (up to its sign). -/
theorem sine_exact {size : ℕ} (hs : 4 ≤ size) (amplitude : ℝ) {cutoff : ℝ} (hc : 1 / (size : ℝ) ≤ cutoff) (n : ℕ) :
    generate size amplitude cutoff sineProfile n = -amplitude * sin (2 * π * n / size) := by
  have hspec : ∀ h, spectrum size amplitude cutoff sineProfile h = if h = 1 then (amplitude * 0.5 : ℝ) * Complex.I else 0 := by
    intro h
    have hI : Complex.exp (π / 2 * Complex.I) = Complex.I := Complex.exp_pi_div_two_mul_I
    unfold spectrum sineProfile
    rw [hI]
    by_cases h1 : h = 1
    · subst h1
      rw [if_pos, if_pos rfl, if_pos rfl, mul_one]
      refine ⟨le_refl _, by omega, fun k hk hk' => ?_⟩
      have : k = 1 := by omega
      subst this
      rw [Nat.cast_one, one_mul]; exact not_lt.mpr hc
    · rw [if_neg h1, if_neg h1, mul_zero]
      split <;> rfl
  unfold generate inverseReal
  simp only [hspec]
  have h0 : (if (0 : ℕ) = 1 then ((amplitude * 0.5 : ℝ) : ℂ) * Complex.I else 0) = 0 := if_neg (by norm_num)
  have h2 : (if size / 2 = 1 then ((amplitude * 0.5 : ℝ) : ℂ) * Complex.I else 0) = 0 := if_neg (by omega)
  rw [h0, h2, Complex.zero_re, zero_add, zero_mul, add_zero, Finset.sum_eq_single 1]
  · rw [if_pos rfl, angle, re_mul_exp, Complex.re_ofReal_mul, Complex.im_ofReal_mul, Complex.I_re, Complex.I_im]
    rw [Nat.cast_one, mul_one (2 * π)]
    ring
  · intro h _ hne
    rw [if_neg hne, zero_mul, Complex.zero_re, mul_zero]
  · intro h
    exact absurd (Finset.mem_Ico.mpr ⟨le_refl _, by omega⟩) h

/-- A symmetric sum over a period, folded. -/
theorem fold_half {k : ℕ} (hk : 0 < k) (c : ℕ → ℝ) (hc : ∀ h, h ≤ 2 * k → c (2 * k - h) = c h) :
    ∑ h ∈ Finset.range (2 * k), c h = c 0 + ∑ h ∈ Finset.Ico 1 k, 2 * c h + c k := by
  have h1 : ∑ h ∈ Finset.range (2 * k), c h = ∑ h ∈ Finset.range k, c h + ∑ h ∈ Finset.range k, c (k + h) := by
    rw [two_mul, Finset.sum_range_add]
  have h2 : ∑ h ∈ Finset.range k, c h = c 0 + ∑ h ∈ Finset.Ico 1 k, c h := by
    rw [Finset.range_eq_Ico, Finset.sum_eq_sum_Ico_succ_bot hk]
  have h3 : ∑ h ∈ Finset.range k, c (k + h) = c k + ∑ h ∈ Finset.Ico 1 k, c h := by
    rw [Finset.range_eq_Ico, Finset.sum_eq_sum_Ico_succ_bot hk, Nat.add_zero]
    congr 1
    apply Finset.sum_bij (fun h _ => k - h)
    · intro h hh
      have := Finset.mem_Ico.mp hh
      exact Finset.mem_Ico.mpr ⟨by omega, by omega⟩
    · intro a ha b hb hab
      have := Finset.mem_Ico.mp ha
      have := Finset.mem_Ico.mp hb
      omega
    · intro b hb
      have := Finset.mem_Ico.mp hb
      exact ⟨k - b, Finset.mem_Ico.mpr ⟨by omega, by omega⟩, by omega⟩
    · intro h hh
      have := Finset.mem_Ico.mp hh
      rw [← hc (k - h) (by omega)]
      congr 1; omega
  rw [h1, h2, h3, ← Finset.mul_sum]
  ring

/-- C110: a wave from a file is the file. For every file with as many frames as a table has, the tables that are not cut hold
its samples, less their mean. -/
theorem file_exact {size : ℕ} (hs : 0 < size) (he : size % 2 = 0) {cutoff : ℝ} (hc : 1 / 2 ≤ cutoff) (x : ℕ → ℝ) {n : ℕ}
    (hn : n < size) :
    generate size 1 cutoff (fileProfile size x) n = x n - (∑ j ∈ Finset.range size, x j) / size := by
  obtain ⟨k, rfl⟩ : ∃ k, size = 2 * k := ⟨size / 2, by omega⟩
  have hk : 0 < k := by omega
  have hkr : (0 : ℝ) < k := by exact_mod_cast hk
  have hNr : ((2 * k : ℕ) : ℝ) ≠ 0 := by push_cast; positivity
  have hNc : ((2 * k : ℕ) : ℂ) ≠ 0 := by exact_mod_cast hNr
  have hdiv : 2 * k / 2 = k := by omega
  -- the bins
  have hspec : ∀ h, 1 ≤ h → h ≤ k → spectrum (2 * k) 1 cutoff (fileProfile (2 * k) x) h =
      (1 / (2 * k : ℕ) : ℝ) * ∑ j ∈ Finset.range (2 * k), (x j : ℂ) * Complex.exp (((-(2 * π * h * j / (2 * k : ℕ)) : ℝ) : ℂ) * Complex.I) := by
    intro h h1 h2
    unfold spectrum fileProfile
    rw [if_pos, if_neg (by omega)]
    · have hee : Complex.exp (π / 2 * Complex.I) * Complex.exp (-(π / 2 * Complex.I)) = 1 := by
        rw [← Complex.exp_add, add_neg_cancel, Complex.exp_zero]
      have hsum : ∑ j ∈ Finset.range (2 * k), (x j : ℂ) * Complex.exp (-(2 * π * h * j / (2 * k : ℕ) * Complex.I)) =
          ∑ j ∈ Finset.range (2 * k), (x j : ℂ) * Complex.exp (((-(2 * π * h * j / (2 * k : ℕ)) : ℝ) : ℂ) * Complex.I) := by
        apply Finset.sum_congr rfl
        intro j _
        congr 2; push_cast; ring
      rw [hsum]
      set S := ∑ j ∈ Finset.range (2 * k), (x j : ℂ) * Complex.exp (((-(2 * π * h * j / (2 * k : ℕ)) : ℝ) : ℂ) * Complex.I)
      have : ((1 * 0.5 : ℝ) : ℂ) * Complex.exp (π / 2 * Complex.I) * (S * (((2 / (2 * k : ℕ) : ℝ) : ℂ) * Complex.exp (-(π / 2 * Complex.I)))) =
          ((1 * 0.5 : ℝ) : ℂ) * ((2 / (2 * k : ℕ) : ℝ) : ℂ) * S * (Complex.exp (π / 2 * Complex.I) * Complex.exp (-(π / 2 * Complex.I))) := by ring
      rw [this, hee, mul_one, ← Complex.ofReal_mul]
      congr 2
      ring
    · refine ⟨h1, by omega, fun i hi hi' => not_lt.mpr ?_⟩
      have : (i : ℝ) ≤ k := by exact_mod_cast hi'.trans h2
      have h3 : (i : ℝ) * (1 / (2 * k : ℕ)) ≤ 1 / 2 := by
        rw [mul_one_div, div_le_iff₀ (by push_cast; linarith)]; push_cast; linarith
      linarith
  -- their sounds
  have hre : ∀ h, 1 ≤ h → h ≤ k → (spectrum (2 * k) 1 cutoff (fileProfile (2 * k) x) h * Complex.exp (2 * π * h * n / (2 * k : ℕ) * Complex.I)).re =
      ∑ j ∈ Finset.range (2 * k), x j / (2 * k : ℕ) * cos (2 * π * h * ((n : ℤ) - j : ℤ) / (2 * k : ℕ)) := by
    intro h h1 h2
    rw [hspec h h1 h2, angle, mul_assoc, Finset.sum_mul, Complex.re_ofReal_mul, Complex.re_sum, Finset.mul_sum]
    apply Finset.sum_congr rfl
    intro j _
    rw [mul_assoc, ← Complex.exp_add, ← add_mul, ← Complex.ofReal_add, Complex.re_ofReal_mul, Complex.exp_ofReal_mul_I_re]
    rw [show -(2 * π * (h : ℝ) * j / (2 * k : ℕ)) + 2 * π * h * n / (2 * k : ℕ) = 2 * π * h * (((n : ℤ) - j : ℤ) : ℝ) / (2 * k : ℕ) by
      push_cast; ring]
    ring
  have hny : (spectrum (2 * k) 1 cutoff (fileProfile (2 * k) x) k).re * (-1) ^ n =
      (spectrum (2 * k) 1 cutoff (fileProfile (2 * k) x) k * Complex.exp (2 * π * k * n / (2 * k : ℕ) * Complex.I)).re := by
    rw [angle, re_mul_exp]
    have : 2 * π * (k : ℝ) * n / (2 * k : ℕ) = n * π := by push_cast; field_simp
    rw [this, sin_nat_mul_pi, cos_nat_mul_pi]; ring
  unfold generate inverseReal
  rw [spectrum_zero, Complex.zero_re, zero_add, hdiv, hny, hre k hk (le_refl _)]
  have hIco : ∀ h ∈ Finset.Ico 1 k, 2 * (spectrum (2 * k) 1 cutoff (fileProfile (2 * k) x) h * Complex.exp (2 * π * h * n / (2 * k : ℕ) * Complex.I)).re =
      ∑ j ∈ Finset.range (2 * k), x j / (2 * k : ℕ) * (2 * cos (2 * π * h * ((n : ℤ) - j : ℤ) / (2 * k : ℕ))) := by
    intro h hh
    have := Finset.mem_Ico.mp hh
    rw [hre h this.1 (by omega), Finset.mul_sum]
    exact Finset.sum_congr rfl (fun j _ => by ring)
  rw [Finset.sum_congr rfl hIco, Finset.sum_comm, ← Finset.sum_add_distrib]
  have hterm : ∀ j ∈ Finset.range (2 * k),
      ∑ h ∈ Finset.Ico 1 k, x j / (2 * k : ℕ) * (2 * cos (2 * π * h * ((n : ℤ) - j : ℤ) / (2 * k : ℕ))) +
        x j / (2 * k : ℕ) * cos (2 * π * k * ((n : ℤ) - j : ℤ) / (2 * k : ℕ)) =
      (if j = n then x n else 0) - x j / (2 * k : ℕ) := by
    intro j hj
    have hj := Finset.mem_range.mp hj
    rw [← Finset.mul_sum, ← mul_add]
    have hfold := fold_half hk (fun h => cos (2 * π * h * ((n : ℤ) - j : ℤ) / (2 * k : ℕ))) (by
      intro h hh
      rw [Nat.cast_sub hh]
      have : 2 * π * (((2 * k : ℕ) : ℝ) - (h : ℝ)) * (((n : ℤ) - j : ℤ) : ℝ) / (2 * k : ℕ) =
          (((n : ℤ) - j : ℤ) : ℝ) * (2 * π) - 2 * π * h * (((n : ℤ) - j : ℤ) : ℝ) / (2 * k : ℕ) := by
        field_simp
      rw [this, cos_int_mul_two_pi_sub])
    rw [cos_sum hs] at hfold
    simp only [Nat.cast_zero, mul_zero, zero_mul, zero_div, cos_zero] at hfold
    have hb : ∑ h ∈ Finset.Ico 1 k, 2 * cos (2 * π * h * ((n : ℤ) - j : ℤ) / (2 * k : ℕ)) +
        cos (2 * π * k * ((n : ℤ) - j : ℤ) / (2 * k : ℕ)) =
        (if ((2 * k : ℕ) : ℤ) ∣ (n : ℤ) - j then ((2 * k : ℕ) : ℝ) else 0) - 1 := by linarith
    rw [hb]
    by_cases hjn : j = n
    · subst hjn
      rw [if_pos (by simp), if_pos rfl]; field_simp
    · rw [if_neg, if_neg hjn]
      · ring
      · rintro ⟨c, hc⟩
        have h1 : ((2 * k : ℕ) : ℤ) * c < (2 * k : ℕ) := by rw [← hc]; omega
        have h2 : -((2 * k : ℕ) : ℤ) < ((2 * k : ℕ) : ℤ) * c := by rw [← hc]; omega
        have hp : (0 : ℤ) < ((2 * k : ℕ) : ℤ) := by omega
        have h3 : c < 1 := by nlinarith
        have h4 : -1 < c := by nlinarith
        have : c = 0 := by omega
        subst this
        omega
  rw [Finset.sum_congr rfl hterm, Finset.sum_sub_distrib, Finset.sum_div, Finset.sum_ite_eq' (Finset.range (2 * k)) n]
  rw [if_pos (Finset.mem_range.mpr hn)]

/-- Non-vacuity: the table for the lowest notes is not cut. -/
theorem lowest_not_cut : 1 / 2 ≤ cutoffOf 1024 0 := by
  have h := maxFrequency_zero
  have h0 := maxFrequency_pos 0
  unfold cutoffOf refRate
  rw [le_div_iff₀ h0]; norm_num; linarith

example (x : ℕ → ℝ) : generate 1024 1 (cutoffOf 1024 0) (fileProfile 1024 x) 1000 =
    x 1000 - (∑ j ∈ Finset.range 1024, x j) / (1024 : ℕ) :=
  file_exact (by norm_num) (by norm_num) lowest_not_cut x (by norm_num)

/-! ### Unison -/

theorem gains_loop (m n : ℕ) (left right : ℕ → ℚ) (hn : n ≤ m - 1) : ∀ i,
    ((List.range n).foldl (fun (g : (ℕ → ℚ) × (ℕ → ℚ)) (i : ℕ) =>
      (Function.update g.1 (m - 1 - i) (1 - (i : ℚ) / ((m : ℚ) - 1)), Function.update g.2 i (1 - (i : ℚ) / ((m : ℚ) - 1))))
      (left, right)).1 i = (if m - 1 - n < i ∧ i ≤ m - 1 then 1 - ((m - 1 - i : ℕ) : ℚ) / ((m : ℚ) - 1) else left i) ∧
    ((List.range n).foldl (fun (g : (ℕ → ℚ) × (ℕ → ℚ)) (i : ℕ) =>
      (Function.update g.1 (m - 1 - i) (1 - (i : ℚ) / ((m : ℚ) - 1)), Function.update g.2 i (1 - (i : ℚ) / ((m : ℚ) - 1))))
      (left, right)).2 i = (if i < n then 1 - (i : ℚ) / ((m : ℚ) - 1) else right i) := by
  induction n with
  | zero =>
    intro i
    constructor
    · simp only [List.range_zero, List.foldl_nil]; rw [if_neg (by omega)]
    · simp
  | succ n ih =>
    intro i
    have ih := ih (by omega) i
    rw [List.range_succ, List.foldl_append]
    simp only [List.foldl_cons, List.foldl_nil]
    constructor
    · by_cases h : i = m - 1 - n
      · subst h
        rw [Function.update_self, if_pos (by omega)]
        rw [show m - 1 - (m - 1 - n) = n by omega]
      · rw [Function.update_of_ne h, ih.1]
        by_cases h' : m - 1 - n < i ∧ i ≤ m - 1
        · rw [if_pos h', if_pos (by omega)]
        · rw [if_neg h', if_neg (by omega)]
    · by_cases h : i = n
      · subst h
        rw [Function.update_self, if_pos (by omega)]
      · rw [Function.update_of_ne h, ih.2]
        by_cases h' : i < n
        · rw [if_pos h', if_pos (by omega)]
        · rw [if_neg h', if_neg (by omega)]

/-- C110: in a unison of `m` oscillators, oscillator `i` is at `i / (m - 1)` between right and left, and its gains to both sides
add up to one, whatever an earlier note left behind. -/
theorem unison_gains {m : ℕ} (hm : 3 ≤ m) (left right : ℕ → ℚ) {i : ℕ} (hi : i < m) :
    (gains m left right).1 i = i / (m - 1) ∧ (gains m left right).2 i = 1 - i / (m - 1) := by
  have hm1 : (m : ℚ) - 1 ≠ 0 := by
    have : (3 : ℚ) ≤ m := by exact_mod_cast hm
    linarith
  have h := gains_loop m (m - 1) (Function.update left 0 0) (Function.update right (m - 1) 0) (le_refl _) i
  unfold gains
  simp only at *
  rw [h.1, h.2]
  constructor
  · by_cases h0 : i = 0
    · subst h0
      rw [if_neg (by omega), Function.update_self]; simp
    · rw [if_pos (by omega), show m - 1 - i = m - (i + 1) by omega, Nat.cast_sub (by omega)]
      push_cast; field_simp; ring
  · by_cases h0 : i = m - 1
    · subst h0
      rw [if_neg (by omega), Function.update_self, Nat.cast_sub (by omega)]
      push_cast; field_simp; ring
    · rw [if_pos (by omega)]

/-- C110: with an odd number of oscillators the detunings come in pairs around the pitch of the note, so they add up to zero. -/
theorem unison_centred (d : ℚ) (n : ℕ) :
    ∑ i ∈ Finset.range (2 * n + 3), detune d i = 0 ∧ detune d (2 * n + 3) = -detune d (2 * n + 4) := by
  have hpair : ∀ n : ℕ, detune d (2 * n + 3) = -detune d (2 * n + 4) := by
    intro n
    have e1 : detune d (2 * n + 3) = d * -(1 / 4) * ((n + 1 : ℕ) : ℚ) := by
      unfold detune
      rw [if_neg (by omega), if_neg (by omega), if_neg (by omega), if_pos (by omega), show (2 * n + 3 - 1) / 2 = n + 1 by omega]
    have e2 : detune d (2 * n + 4) = d * (1 / 4) * ((n + 1 : ℕ) : ℚ) := by
      unfold detune
      rw [if_neg (by omega), if_neg (by omega), if_neg (by omega), if_neg (by omega), show (2 * n + 4 - 1) / 2 = n + 1 by omega]
    rw [e1, e2]; ring
  refine ⟨?_, hpair n⟩
  induction n with
  | zero => simp [Finset.sum_range_succ, detune]
  | succ n ih =>
    rw [show 2 * (n + 1) + 3 = 2 * n + 3 + 1 + 1 by ring, Finset.sum_range_succ, Finset.sum_range_succ, ih, hpair n]
    ring

example : (List.range 5).map (detune 100) = [0, -100, 100, -25, 25] := by decide +kernel

end Verif.Wavetable
