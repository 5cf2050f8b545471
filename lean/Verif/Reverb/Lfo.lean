import Verif.Reverb.Traj
import Mathlib.Analysis.SpecialFunctions.Trigonometric.Bounds
import Mathlib.Analysis.Real.Pi.Bounds
import Mathlib.Analysis.SpecificLimits.Normed

/-!
# The knobs and the modulation of the reverb

The smoothed knobs rise towards limits.  The modulated delays move slowly once the knobs have
settled.
-/

namespace Verif.Reverb

open Finset

/-! ## Smoothing -/

/-- A smoothed value. -/
structure Ramp (s : ℝ) (r : ℕ → ℝ) : Prop where
  zero : r 0 = 0
  step : ∀ n, r (n + 1) = smooth s (r n)

/-- The value that smoothing leads to. -/
noncomputable def limit (s : ℝ) : ℝ := s / 0.000999987

variable {s : ℝ} {r : ℕ → ℝ}

lemma Ramp.eq (h : Ramp s r) (n : ℕ) : r n = limit s * (1 - 0.999000013 ^ n) := by
  induction n with
  | zero => simp [h.zero]
  | succ n ih =>
    rw [h.step n, ih, smooth, limit]
    field_simp
    ring

lemma Ramp.le (h : Ramp s r) (hs : 0 ≤ s) (n : ℕ) : 0 ≤ r n ∧ r n ≤ limit s := by
  rw [h.eq n]
  have h1 : 0 ≤ limit s := div_nonneg hs (by norm_num)
  have h2 : (0 : ℝ) ≤ 0.999000013 ^ n := by positivity
  have h3 : (0.999000013 : ℝ) ^ n ≤ 1 := pow_le_one₀ (by norm_num) (by norm_num)
  exact ⟨mul_nonneg h1 (by linarith), by nlinarith⟩

lemma Ramp.mono (h : Ramp s r) (hs : 0 ≤ s) : Monotone r := by
  intro a b hab
  rw [h.eq a, h.eq b]
  have h1 : 0 ≤ limit s := div_nonneg hs (by norm_num)
  have h3 : (0.999000013 : ℝ) ^ b ≤ 0.999000013 ^ a :=
    pow_le_pow_of_le_one (by norm_num) (by norm_num) hab
  exact mul_le_mul_of_nonneg_left (by linarith) h1

lemma Ramp.lim (h : Ramp s r) (hs : 0 ≤ s) {e : ℝ} (he : 0 < e) :
    ∃ n₀, ∀ n, n₀ ≤ n → limit s - e ≤ r n := by
  have h1 : 0 ≤ limit s := div_nonneg hs (by norm_num)
  obtain ⟨n₀, hn₀⟩ := exists_pow_lt_of_lt_one (show 0 < e / (limit s + 1) by positivity)
    (show (0.999000013 : ℝ) < 1 by norm_num)
  refine ⟨n₀, fun n hn => ?_⟩
  rw [h.eq n]
  have h3 : (0.999000013 : ℝ) ^ n ≤ 0.999000013 ^ n₀ :=
    pow_le_pow_of_le_one (by norm_num) (by norm_num) hn
  have h4 : (0.999000013 : ℝ) ^ n ≤ e / (limit s + 1) := by linarith
  have h5 : limit s * 0.999000013 ^ n ≤ limit s * (e / (limit s + 1)) :=
    mul_le_mul_of_nonneg_left h4 h1
  have h6 : limit s * (e / (limit s + 1)) ≤ e := by
    rw [mul_div_assoc', div_le_iff₀ (by linarith)]
    nlinarith
  nlinarith

/-! ## The phase -/

lemma trunc_nonneg {x : ℝ} (h : 0 ≤ x) : trunc x = ⌊x⌋ := if_pos h

/-- The table is close to a sine. -/
lemma sine_near {ψ : ℝ} (h0 : 0 ≤ ψ) (h1 : ψ < 1) :
    |sine ⌊65536 * ψ⌋ - Real.sin (2 * Real.pi * ψ)| ≤ 1e-4 := by
  unfold sine
  refine le_trans (Real.abs_sin_sub_sin_le _ _) ?_
  have a := Int.floor_le (65536 * ψ)
  have b := Int.lt_floor_add_one (65536 * ψ)
  have c := Real.pi_gt_d6
  have d := Real.pi_lt_d6
  have e1 : 2 * Real.pi * ψ ≤ 2 * 3.141593 * ψ := by nlinarith
  have e2 : 2 * 3.141592 * ψ ≤ 2 * Real.pi * ψ := by nlinarith
  rw [abs_le]
  constructor <;> linarith

lemma abs_sine_le (i : ℤ) : |sine i| ≤ 1 := Real.abs_sin_le_one _

/-- The phase of the modulation, and the phase without wrapping. -/
lemma phase_all {fs : ℕ} {k : ℕ → Knobs} {φ : ℕ → ℝ} (h0 : φ 0 = 0)
    (hφ : ∀ n, φ (n + 1) = nextPhase fs (k n) (φ n)) (hf : ∀ n, 0 ≤ (k n).freq) (n : ℕ) :
    (0 ≤ φ n ∧ φ n < 1) ∧
      ∃ z : ℤ, φ n = (∑ i ∈ range n, 1 / (fs : ℝ) * (k i).freq) - z := by
  induction n with
  | zero => rw [h0]; exact ⟨⟨le_refl _, zero_lt_one⟩, 0, by simp⟩
  | succ n ih =>
    obtain ⟨⟨i1, i2⟩, z, i3⟩ := ih
    have hx : 0 ≤ φ n + 1 / (fs : ℝ) * (k n).freq :=
      add_nonneg i1 (mul_nonneg (by positivity) (hf n))
    have e : φ (n + 1) = (φ n + 1 / (fs : ℝ) * (k n).freq)
        - ⌊φ n + 1 / (fs : ℝ) * (k n).freq⌋ := by
      rw [hφ n, nextPhase, trunc_nonneg hx]
    have a := Int.floor_le (φ n + 1 / (fs : ℝ) * (k n).freq)
    have b := Int.lt_floor_add_one (φ n + 1 / (fs : ℝ) * (k n).freq)
    refine ⟨⟨by rw [e]; linarith, by rw [e]; linarith⟩,
      z + ⌊φ n + 1 / (fs : ℝ) * (k n).freq⌋, ?_⟩
    rw [e, sum_range_succ, i3]
    push_cast
    ring

/-- The two places of the table, and the sines there. -/
lemma places {φ Φ : ℝ} {z : ℤ} (h0 : 0 ≤ φ) (h1 : φ < 1) (h : φ = Φ - z) :
    |sine (place2 φ) - Real.sin (2 * Real.pi * Φ)| ≤ 1e-4 ∧
    |sine (place1 φ) - Real.sin (2 * Real.pi * (Φ + 0.25))| ≤ 1e-4 := by
  constructor
  · rw [place2, trunc_nonneg (by positivity)]
    have := sine_near h0 h1
    rw [h, show 2 * Real.pi * (Φ - z) = 2 * Real.pi * Φ - z * (2 * Real.pi) by ring,
      Real.sin_sub_int_mul_two_pi] at this
    rw [h]; exact this
  · have hq : (0 : ℝ) ≤ φ + 0.25 := by positivity
    have a := Int.floor_le (φ + 0.25)
    have b := Int.lt_floor_add_one (φ + 0.25)
    have e : φ + (0.25 - (trunc (φ + 0.25) : ℝ)) = φ + 0.25 - ⌊φ + 0.25⌋ := by
      rw [trunc_nonneg hq]; ring
    rw [place1, e, trunc_nonneg (by linarith)]
    have := sine_near (ψ := φ + 0.25 - ⌊φ + 0.25⌋) (by linarith) (by linarith)
    have e2 : 2 * Real.pi * (φ + 0.25 - ⌊φ + 0.25⌋)
        = 2 * Real.pi * (Φ + 0.25) - ((z + ⌊φ + 0.25⌋ : ℤ) : ℝ) * (2 * Real.pi) := by
      rw [h]; push_cast; ring
    rw [e2, Real.sin_sub_int_mul_two_pi] at this
    exact this

/-! ## The delays asked for -/

/-- A delay asked for: `c` seconds, moved by `d` times `S`. -/
noncomputable def asked (fs : ℕ) (c d S : ℝ) : ℤ := trunc (fs * (d * S + c)) - 1

lemma target1_eq (fs : ℕ) (k : Knobs) (φ : ℝ) :
    target1 fs k φ = asked fs 0.0305097271 k.depth (sine (place1 φ)) := rfl

lemma target2_eq (fs : ℕ) (k : Knobs) (φ : ℝ) :
    target2 fs k φ = asked fs 0.025603978 k.depth (sine (place2 φ)) := rfl

lemma asked_floor {fs : ℕ} {c d S : ℝ} (hc : 0.02 ≤ c) (hd : 0 ≤ d ∧ d ≤ 0.0016) (hS : |S| ≤ 1) :
    asked fs c d S = ⌊fs * (d * S + c)⌋ - 1 := by
  rw [abs_le] at hS
  unfold asked
  rw [trunc_nonneg]
  refine mul_nonneg (by positivity) ?_
  nlinarith

lemma asked_range {fs : ℕ} {c d S : ℝ} (hc : 0.02 ≤ c) (hd : 0 ≤ d ∧ d ≤ 0.0016) (hS : |S| ≤ 1) :
    ⌊fs * (c - 0.0016)⌋ - 1 ≤ asked fs c d S ∧ asked fs c d S ≤ ⌊fs * (c + 0.0016)⌋ - 1 := by
  rw [asked_floor hc hd hS]
  rw [abs_le] at hS
  have h1 : (fs : ℝ) * (c - 0.0016) ≤ fs * (d * S + c) :=
    mul_le_mul_of_nonneg_left (by nlinarith) (by positivity)
  have h2 : (fs : ℝ) * (d * S + c) ≤ fs * (c + 0.0016) :=
    mul_le_mul_of_nonneg_left (by nlinarith) (by positivity)
  have := Int.floor_le_floor h1
  have := Int.floor_le_floor h2
  omega

lemma asked_near {fs : ℕ} {c d S d' S' D δ X : ℝ} (hc : 0.02 ≤ c) (hD : D ≤ 0.0016)
    (hd : 0 ≤ d ∧ D - δ ≤ d ∧ d ≤ D) (hd' : 0 ≤ d' ∧ D - δ ≤ d' ∧ d' ≤ D) (hS : |S| ≤ 1) (hS' : |S'| ≤ 1)
    (hX : fs * (D * |S - S'| + 2 * δ) ≤ X) :
    |((asked fs c d S - asked fs c d' S' : ℤ) : ℝ)| < X + 1 := by
  rw [asked_floor hc ⟨hd.1, by linarith⟩ hS, asked_floor hc ⟨hd'.1, by linarith⟩ hS']
  set a := (fs : ℝ) * (d * S + c)
  set b := (fs : ℝ) * (d' * S' + c)
  have hab : |a - b| ≤ X := by
    refine le_trans ?_ hX
    have e : a - b = fs * (D * (S - S') - (D - d) * S + (D - d') * S') := by
      simp only [a, b]; ring
    rw [e, abs_mul, abs_of_nonneg (show (0 : ℝ) ≤ fs by positivity)]
    refine mul_le_mul_of_nonneg_left ?_ (by positivity)
    have hD0 : 0 ≤ D := by linarith
    have e1 : |D * (S - S')| = D * |S - S'| := by rw [abs_mul, abs_of_nonneg hD0]
    have e2 : |(D - d) * S| ≤ δ := by
      rw [abs_mul, abs_of_nonneg (by linarith)]
      nlinarith [abs_nonneg S]
    have e3 : |(D - d') * S'| ≤ δ := by
      rw [abs_mul, abs_of_nonneg (by linarith)]
      nlinarith [abs_nonneg S']
    have t1 := abs_add_le (D * (S - S') - (D - d) * S) ((D - d') * S')
    have t2 := abs_sub (D * (S - S')) ((D - d) * S)
    linarith
  have a1 := Int.floor_le a
  have a2 := Int.lt_floor_add_one a
  have b1 := Int.floor_le b
  have b2 := Int.lt_floor_add_one b
  rw [abs_le] at hab
  rw [abs_lt]
  push_cast
  constructor <;> linarith

/-- The length of a cross-fade in frames, against the sample rate. -/
lemma fadeLen_range {fs : ℕ} (h : 44100 ≤ fs) :
    440 ≤ fadeLen fs ∧ (0.00999999978 : ℝ) * fs < fadeLen fs + 1 := by
  constructor
  · refine Nat.le_floor ?_
    have : (44100 : ℝ) ≤ fs := by exact_mod_cast h
    push_cast
    linarith
  · exact Nat.lt_floor_add_one _

/-- How far a delay asked for can move during a cross-fade, once the knobs have settled; and between
which lengths it always is. -/
lemma asked_slow {fs : ℕ} (hfs : 44100 ≤ fs) {c D f : ℝ} (hc : 0.02 ≤ c) (hD0 : 0 ≤ D)
    (hD : D ≤ 0.001501) (hDf : D * f ≤ 1.2752e-3) {d Φ S : ℕ → ℝ} {o : ℝ}
    (hd : ∀ n, 0 ≤ d n ∧ d n ≤ D)
    (hlim : ∀ e : ℝ, 0 < e → ∃ n₀, ∀ n, n₀ ≤ n → D - e ≤ d n)
    (hΦ : ∀ n, Φ n ≤ Φ (n + 1) ∧ Φ (n + 1) ≤ Φ n + f / fs)
    (hS1 : ∀ n, |S n| ≤ 1) (hS : ∀ n, |S n - Real.sin (2 * Real.pi * (Φ n + o))| ≤ 1e-4) :
    ∃ (J n₁ : ℕ) (lo hi : ℤ),
      (∀ i j, n₁ ≤ i → i ≤ j → j ≤ i + fadeLen fs + 1 →
        |asked fs c (d i) (S i) - asked fs c (d j) (S j)| ≤ (J : ℤ)) ∧
      (∀ i, lo ≤ asked fs c (d i) (S i) ∧ asked fs c (d i) (S i) ≤ hi) ∧
      hi - lo + 2 * J ≤ fadeLen fs ∧ 1.00001 * (1 + 2 * (J : ℝ) / fadeLen fs) ≤ 1.021 := by
  obtain ⟨hN, hNf⟩ := fadeLen_range hfs
  set N := fadeLen fs with hNd
  have hfr : (44100 : ℝ) ≤ fs := by exact_mod_cast hfs
  have hf0 : (0 : ℝ) < fs := by linarith
  have hNr : (440 : ℝ) ≤ N := by exact_mod_cast hN
  obtain ⟨n₁, hn₁⟩ := hlim (0.005 / fs) (by positivity)
  set Y : ℝ := 0.0081 * (N + 1) + 1.01 with hY
  have hY0 : 0 ≤ Y := by positivity
  have hJY : ((⌊Y⌋₊ : ℕ) : ℝ) ≤ Y := Nat.floor_le hY0
  refine ⟨⌊Y⌋₊, n₁, ⌊fs * (c - 0.0016)⌋ - 1, ⌊fs * (c + 0.0016)⌋ - 1, ?_, ?_, ?_, ?_⟩
  · intro i j hi hij hj
    have hgrow : ∀ m, 0 ≤ Φ (i + m) - Φ i ∧ Φ (i + m) - Φ i ≤ m * (f / fs) := by
      intro m
      induction m with
      | zero => simp
      | succ m ih =>
        have := hΦ (i + m)
        rw [← add_assoc]
        push_cast
        constructor <;> linarith
    obtain ⟨m, rfl⟩ := Nat.exists_eq_add_of_le hij
    have hm : (m : ℝ) ≤ N + 1 := by exact_mod_cast (by omega : m ≤ N + 1)
    have hff : 0 ≤ f / fs := by have := hΦ 0; linarith
    have hdΦ : |Φ i - Φ (i + m)| ≤ (N + 1) * (f / fs) := by
      have := hgrow m
      rw [abs_sub_comm, abs_of_nonneg this.1]
      nlinarith
    have hdS : |S i - S (i + m)| ≤ 2e-4 + 2 * Real.pi * ((N + 1) * (f / fs)) := by
      have h1 := hS i
      have h2 := hS (i + m)
      have h3 := Real.abs_sin_sub_sin_le (2 * Real.pi * (Φ i + o)) (2 * Real.pi * (Φ (i + m) + o))
      have h4 : |2 * Real.pi * (Φ i + o) - 2 * Real.pi * (Φ (i + m) + o)|
          = 2 * Real.pi * |Φ i - Φ (i + m)| := by
        rw [← mul_sub, abs_mul, abs_of_pos Real.two_pi_pos]
        congr 2; ring
      have h5 : 2 * Real.pi * |Φ i - Φ (i + m)| ≤ 2 * Real.pi * ((N + 1) * (f / fs)) :=
        mul_le_mul_of_nonneg_left hdΦ Real.two_pi_pos.le
      rw [abs_le] at h1 h2
      rw [h4] at h3
      have h6 := abs_le.1 (le_trans h3 h5)
      rw [abs_le]
      norm_num at h1 h2 ⊢
      constructor <;> linarith
    have hlt := asked_near (fs := fs) (c := c) (d := d i) (S := S i) (d' := d (i + m)) (S' := S (i + m))
      (D := D) (δ := 0.005 / fs) (X := Y - 1) hc (by linarith)
      ⟨(hd i).1, hn₁ i hi, (hd i).2⟩ ⟨(hd _).1, hn₁ _ (by omega), (hd _).2⟩ (hS1 i) (hS1 _) (by
        have h1 := mul_le_mul_of_nonneg_left hdS hD0
        have e1 : (fs : ℝ) * (D * (2e-4 + 2 * Real.pi * ((N + 1) * (f / fs))) + 2 * (0.005 / fs))
            = 2e-4 * D * fs + 2 * Real.pi * (N + 1) * (D * f) + 0.01 := by
          field_simp
          ring
        have h2 : (fs : ℝ) * (D * |S i - S (i + m)| + 2 * (0.005 / fs))
            ≤ fs * (D * (2e-4 + 2 * Real.pi * ((N + 1) * (f / fs))) + 2 * (0.005 / fs)) :=
          mul_le_mul_of_nonneg_left (by linarith) hf0.le
        rw [e1] at h2
        have hpi := Real.pi_lt_d6
        have hpi0 := Real.pi_pos
        have h3 : 2e-4 * D * fs ≤ 2e-4 * 0.001501 * fs := by
          have : 2e-4 * D ≤ 2e-4 * 0.001501 := by linarith
          exact mul_le_mul_of_nonneg_right this hf0.le
        have h4 : 2 * Real.pi * (N + 1) * (D * f) ≤ 2 * Real.pi * (N + 1) * 1.2752e-3 :=
          mul_le_mul_of_nonneg_left hDf (by positivity)
        have h5 : 2 * Real.pi * ((N : ℝ) + 1) * 1.2752e-3 ≤ 2 * 3.141593 * (N + 1) * 1.2752e-3 := by
          have : 0 ≤ (N : ℝ) + 1 := by positivity
          nlinarith
        have h6 : (fs : ℝ) ≤ (N + 1) * 100.00001 := by
          norm_num at hNf ⊢
          linarith
        rw [hY]
        norm_num at h2 h3 h4 h5 h6 ⊢
        linarith)
    have hlt' : |(((asked fs c (d i) (S i) - asked fs c (d (i + m)) (S (i + m)) : ℤ)) : ℝ)| < Y := by
      linarith
    have hz : (|asked fs c (d i) (S i) - asked fs c (d (i + m)) (S (i + m))| : ℤ) ≤ ⌊Y⌋ := by
      refine Int.le_floor.2 ?_
      push_cast at hlt' ⊢
      exact hlt'.le
    have hn : ((⌊Y⌋₊ : ℕ) : ℤ) = ⌊Y⌋ := Int.natCast_floor_eq_floor hY0
    rw [hn]; exact hz
  · intro i
    exact asked_range hc ⟨(hd i).1, by linarith [(hd i).2]⟩ (hS1 i)
  · have a1 := Int.floor_le ((fs : ℝ) * (c + 0.0016))
    have a2 := Int.lt_floor_add_one ((fs : ℝ) * (c - 0.0016))
    have h : (((⌊(fs : ℝ) * (c + 0.0016)⌋ - 1 - (⌊(fs : ℝ) * (c - 0.0016)⌋ - 1) + 2 * (⌊Y⌋₊ : ℤ) : ℤ)) : ℝ)
        ≤ ((N : ℤ) : ℝ) := by
      push_cast
      have h6 : (fs : ℝ) ≤ (N + 1) * 100.00001 := by
        norm_num at hNf ⊢
        linarith
      have h7 : (fs : ℝ) * (c + 0.0016) - fs * (c - 0.0016) = 0.0032 * fs := by ring
      have h8 : 0.0032 * (fs : ℝ) ≤ 0.0032 * ((N + 1) * 100.00001) := by linarith
      linarith
    exact_mod_cast h
  · have hN0 : (0 : ℝ) < N := by linarith
    have h : 2 * ((⌊Y⌋₊ : ℕ) : ℝ) / N ≤ 0.0209 := by
      rw [div_le_iff₀ hN0]
      linarith
    linarith

end Verif.Reverb
