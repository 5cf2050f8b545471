import Verif.Wavetable.Lemmas
import Mathlib.Analysis.Convex.SpecificFunctions.Basic
import Mathlib.Analysis.SpecialFunctions.Pow.Real

/-!
# What oscillators sound

C109: the table for a frequency holds no harmonic that would alias at this frequency.
-/
namespace Verif.Wavetable

open Real

/-! ### Specification -/

/-- A harmonic that the table `m` of a multisample may hold: its bin in the spectrum is filled. -/
def Holds (size m h : ℕ) : Prop := ∃ harmonic : ℕ → ℂ, spectrum size 1 (cutoffOf size m) harmonic h ≠ 0

/-- The tables an oscillator reads for a frequency. -/
def Reads (quality : ℤ) (f : ℝ) (m : ℕ) : Prop :=
  if quality ≤ 2 then m = tableFor f else m = (pairFor f).1 ∨ m = (pairFor f).2.1

/-- The frequency at which harmonic `h` sounds when an oscillator runs at `f`, detuned by a ratio. -/
noncomputable def sounds (h : ℕ) (f ratio : ℝ) : ℝ := h * |f * ratio|

/-- The highest frequency wanted: half the reference rate, 24255 Hz. -/
noncomputable def top : ℝ := refRate / 2

/-! ### Lemmas -/

theorem log600 : 0 < log (12000 / 20 : ℝ) := log_pos (by norm_num)

theorem logB_pos : 0 < logB := div_pos log600 (by norm_num)

theorem startFrequency_pos (t : ℕ) : 0 < startFrequency t := by
  unfold startFrequency; split
  · positivity
  · norm_num

theorem maxFrequency_pos (m : ℕ) : 0 < maxFrequency m := startFrequency_pos _

theorem spectrum_eq {size : ℕ} {amplitude cutoff : ℝ} {harmonic : ℕ → ℂ} {h : ℕ} (hne : spectrum size amplitude cutoff harmonic h ≠ 0) :
    1 ≤ h ∧ h ≤ size / 2 ∧ (h : ℝ) * (1 / size) ≤ cutoff := by
  unfold spectrum at hne
  split at hne
  · rename_i hc
    exact ⟨hc.1, by omega, not_lt.mp (hc.2.2 h hc.1 (le_refl _))⟩
  · exact absurd rfl hne

/-- A harmonic that a table holds is below half the reference rate at the highest frequency of the table. -/
theorem holds_bound {size m h : ℕ} (hh : Holds size m h) : 1 ≤ h ∧ h ≤ size / 2 ∧ h * maxFrequency m ≤ top := by
  obtain ⟨harm, hne⟩ := hh
  obtain ⟨h1, h2, h3⟩ := spectrum_eq hne
  refine ⟨h1, h2, ?_⟩
  have hsz : (0 : ℝ) < size := by
    have : 0 < size := by omega
    exact_mod_cast this
  have hm := maxFrequency_pos m
  unfold cutoffOf at h3
  rw [le_div_iff₀ hm, mul_one_div, div_mul_eq_mul_div, div_le_div_iff_of_pos_right hsz] at h3
  unfold top; linarith

theorem logB_mul : logB * 23 = log (12000 / 20) := by unfold logB; field_simp

/-- The grid of `FrequencyToIndex`. -/
noncomputable def grid (i : ℕ) : ℝ := 20 + i * (1 / 1023) * (12000 - 20)

theorem lut_grid {i : ℕ} (hi : i ≤ 1023) : lut i * logB = log (grid i / 20) := by
  have hB := logB_pos
  unfold lut
  split
  · rename_i hlt
    have h20 : 20 ≤ grid i := by unfold grid; have : (0 : ℝ) ≤ i := Nat.cast_nonneg i; nlinarith
    have hmax : grid i ≤ 12000 := by
      unfold grid
      have : (i : ℝ) ≤ 1023 := by exact_mod_cast hi
      nlinarith
    unfold exactIndex
    change clamp (if grid i < 20 then 0 else log (grid i / 20) / logB) 0 23 * logB = _
    rw [if_neg (not_lt.mpr h20), clamp_id]
    · field_simp
    · exact div_nonneg (log_nonneg (by linarith)) hB.le
    · rw [div_le_iff₀ hB, mul_comm, logB_mul]
      exact log_le_log (by linarith) (by linarith)
  · have : i = 1023 := by omega
    subst this
    rw [mul_comm, logB_mul]; congr 1; unfold grid; norm_num

theorem log_div_20 {x : ℝ} (hx : 0 < x) : log (x / 20) = log x - log 20 := log_div hx.ne' (by norm_num)

/-- How far a straight line can be above the logarithm between two points. -/
theorem log_mix {a b t : ℝ} (ha : 0 < a) (hab : a ≤ b) (h0 : 0 ≤ t) (h1 : t ≤ 1) :
    log ((1 - t) * a + t * b) ≤ (1 - t) * log a + t * log b + log ((a + b) ^ 2 / (4 * a * b)) := by
  have hb : 0 < b := by linarith
  have hf : 0 < (1 - t) * a + t * b := by
    rcases eq_or_lt_of_le h0 with rfl | h
    · linarith
    · nlinarith [mul_pos h hb, mul_nonneg (sub_nonneg.mpr h1) ha.le]
  have hg : 0 < (1 - t) * (1 / a) + t * (1 / b) := by
    have := one_div_pos.mpr ha
    have := one_div_pos.mpr hb
    rcases eq_or_lt_of_le h0 with rfl | h
    · linarith
    · nlinarith [mul_pos h this, mul_nonneg (sub_nonneg.mpr h1) (one_div_pos.mpr ha).le]
  have hconc := strictConcaveOn_log_Ioi.concaveOn.2 (show (1 / a) ∈ Set.Ioi (0 : ℝ) from one_div_pos.mpr ha)
    (show (1 / b) ∈ Set.Ioi (0 : ℝ) from one_div_pos.mpr hb) (sub_nonneg.mpr h1) h0 (by ring)
  simp only [smul_eq_mul, one_div, log_inv] at hconc
  have hprod : ((1 - t) * a + t * b) * ((1 - t) * (1 / a) + t * (1 / b)) ≤ (a + b) ^ 2 / (4 * a * b) := by
    rw [le_div_iff₀ (by positivity)]
    have : ((1 - t) * a + t * b) * ((1 - t) * (1 / a) + t * (1 / b)) * (4 * a * b) =
        4 * ((1 - t) * a + t * b) * ((1 - t) * b + t * a) := by field_simp
    rw [this]
    nlinarith [sq_nonneg ((1 - 2 * t) * (a - b))]
  have hlog := log_le_log (mul_pos hf hg) hprod
  rw [log_mul hf.ne' hg.ne'] at hlog
  simp only [one_div] at hlog
  linarith

/-- A frequency in its cell of the grid. -/
theorem cell {f : ℝ} (h20 : 20 ≤ f) (h12 : f ≤ 12000) : ∃ (i : ℕ) (t : ℝ), i ≤ 1022 ∧ 0 ≤ t ∧ t ≤ 1 ∧
    f = (1 - t) * grid i + t * grid (i + 1) ∧ indexFor f = (1 - t) * lut i + t * lut (i + 1) := by
  set pos := (f - 20) * (1023 / (12000 - 20)) with hpos
  have h0 : 0 ≤ pos := by rw [hpos]; exact mul_nonneg (by linarith) (by norm_num)
  have h1 : pos ≤ 1023 := by rw [hpos]; nlinarith
  have hf0 : (0 : ℤ) ≤ ⌊pos⌋ := Int.floor_nonneg.mpr h0
  have hc : ((⌊pos⌋.toNat : ℕ) : ℝ) = (⌊pos⌋ : ℝ) := by
    exact_mod_cast congrArg (fun z : ℤ => (z : ℝ)) (Int.toNat_of_nonneg hf0)
  have hidx : indexFor f = (1 - (pos - (⌊pos⌋.toNat : ℕ))) * lut ⌊pos⌋.toNat +
      (pos - (⌊pos⌋.toNat : ℕ)) * lut (min (⌊pos⌋.toNat + 1) 1023) := by
    unfold indexFor
    simp only [← hpos, clamp_id h0 h1]
  have hle : ⌊pos⌋ ≤ 1023 := by
    have : (⌊pos⌋ : ℝ) ≤ 1023 := (Int.floor_le _).trans h1
    exact_mod_cast this
  have hf : f = 20 + pos * (1 / 1023) * (12000 - 20) := by rw [hpos]; ring
  rcases Nat.lt_or_ge ⌊pos⌋.toNat 1023 with hlt | hge
  · refine ⟨⌊pos⌋.toNat, pos - (⌊pos⌋.toNat : ℕ), by omega, ?_, ?_, ?_, ?_⟩
    · rw [hc]; linarith [Int.floor_le pos]
    · rw [hc]; linarith [Int.lt_floor_add_one pos]
    · rw [hf]; unfold grid; push_cast; ring
    · rw [hidx, min_eq_left (by omega)]
  · have hn : ⌊pos⌋.toNat = 1023 := by omega
    have hp : pos = 1023 := by
      apply le_antisymm h1
      have : ((⌊pos⌋.toNat : ℕ) : ℝ) ≤ pos := by rw [hc]; exact Int.floor_le pos
      rw [hn] at this; exact_mod_cast this
    refine ⟨1022, 1, le_refl _, by norm_num, le_refl _, ?_, ?_⟩
    · rw [hf, hp]; unfold grid; norm_num
    · rw [hidx, hn, hp]; norm_num

theorem grid_pos (i : ℕ) : 20 ≤ grid i := by
  unfold grid; have : (0 : ℝ) ≤ i := Nat.cast_nonneg i; nlinarith

theorem grid_step (i : ℕ) : grid (i + 1) = grid i + 11980 / 1023 := by unfold grid; push_cast; ring

theorem top_eq : top = 24255 := by unfold top refRate; norm_num

theorem maxFrequency_lt {m : ℕ} (hm : m < 23) : maxFrequency m = exp (((m : ℝ) + 1) * logB) * 20 := by
  unfold maxFrequency startFrequency
  rw [min_eq_left (by omega), if_pos (by omega)]; push_cast; rfl

theorem maxFrequency_last : maxFrequency 23 = 22050 := by
  unfold maxFrequency startFrequency; norm_num

/-- The frequency is at most 1.44% above those its table is meant for, apart from the lowest ones. -/
theorem table_range {f : ℝ} (hlo : 20 + 2 * (11980 / 1023) ≤ f) (hhi : f ≤ 22050) :
    f ≤ 1.0144 * maxFrequency (tableFor f) := by
  rcases le_or_gt f 12000 with h12 | h12
  · obtain ⟨i, t, hi, h0, h1, hf, hidx⟩ := cell (by linarith) h12
    have hmem := indexFor_mem f
    have ht : ((tableFor f : ℕ) : ℝ) = ⌊indexFor f⌋ := by
      unfold tableFor
      rw [trunc_nonneg hmem.1]
      exact_mod_cast congrArg (fun z : ℤ => (z : ℝ)) (Int.toNat_of_nonneg (Int.floor_nonneg.mpr hmem.1))
    rcases Nat.lt_or_ge (tableFor f) 23 with hm | hm
    · rw [maxFrequency_lt hm, ht]
      have hlt := Int.lt_floor_add_one (indexFor f)
      have hB := logB_pos
      have h20 := grid_pos i
      have hstep := grid_step i
      have h20' := grid_pos (i + 1)
      have hL : indexFor f * logB = (1 - t) * log (grid i) + t * log (grid (i + 1)) - log 20 := by
        rw [hidx, add_mul, mul_assoc, mul_assoc, lut_grid (by omega), lut_grid (by omega), log_div_20 (by linarith),
          log_div_20 (by linarith)]
        ring
      have hmix := log_mix (a := grid i) (b := grid (i + 1)) (by linarith) (by rw [hstep]; norm_num) h0 h1
      rw [← hf] at hmix
      have hi2 : 2 ≤ i ∨ (i = 1 ∧ t = 1) := by
        rcases Nat.lt_or_ge i 2 with h | h
        · right
          have hle : grid (i + 1) ≤ 20 + 2 * (11980 / 1023) := by
            unfold grid
            have : ((i + 1 : ℕ) : ℝ) ≤ 2 := by exact_mod_cast h
            nlinarith
          have hge : (1 - t) * (grid (i + 1) - grid i) ≤ 0 := by nlinarith
          rw [hstep] at hge
          have ht1 : t = 1 := by nlinarith
          refine ⟨?_, ht1⟩
          by_contra hne
          have : i = 0 := by omega
          subst this
          rw [ht1] at hf
          unfold grid at hf
          norm_num at hf
          linarith
        · left; exact h
      have hC : log f ≤ (1 - t) * log (grid i) + t * log (grid (i + 1)) + log 1.0144 := by
        rcases hi2 with h2 | ⟨-, h⟩
        · have hge : 20 + 2 * (11980 / 1023) ≤ grid i := by
            unfold grid
            have : (2 : ℝ) ≤ i := by exact_mod_cast h2
            nlinarith
          have : (grid i + grid (i + 1)) ^ 2 / (4 * grid i * grid (i + 1)) ≤ 1.0144 := by
            rw [div_le_iff₀ (by positivity), hstep]
            nlinarith
          have := log_le_log (by positivity) this
          linarith
        · have hl : 0 ≤ log (1.0144 : ℝ) := log_nonneg (by norm_num)
          rw [hf, h]
          simp only [sub_self, zero_mul, one_mul, zero_add]
          linarith
      have hfin : log f ≤ log (1.0144 * (exp (((⌊indexFor f⌋ : ℝ) + 1) * logB) * 20)) := by
        rw [log_mul (by norm_num) (by positivity), log_mul (exp_pos _).ne' (by norm_num), log_exp]
        have : indexFor f * logB ≤ ((⌊indexFor f⌋ : ℝ) + 1) * logB := mul_le_mul_of_nonneg_right hlt.le hB.le
        linarith
      exact (log_le_log_iff (by linarith) (by positivity)).mp hfin
    · have : tableFor f = 23 := by have := tableFor_lt f; omega
      rw [this, maxFrequency_last]; linarith
  · have hpos : clamp ((f - 20) * (1023 / (12000 - 20))) 0 1023 = 1023 := by
      apply clamp_high _ (by norm_num)
      nlinarith
    have hidx : indexFor f = 23 := by
      unfold indexFor
      simp only [hpos]
      have : ⌊(1023 : ℝ)⌋ = 1023 := by norm_num
      rw [this]
      simp [lut]
    have : tableFor f = 23 := by
      unfold tableFor
      rw [hidx, trunc_nonneg (by norm_num)]
      have : ⌊(23 : ℝ)⌋ = 23 := by norm_num
      rw [this]; rfl
    rw [this, maxFrequency_last]; linarith

theorem startFrequency_mono {m : ℕ} (hm : m < 23) : maxFrequency m ≤ maxFrequency (m + 1) := by
  rw [maxFrequency_lt hm]
  rcases Nat.lt_or_ge (m + 1) 23 with h | h
  · rw [maxFrequency_lt h]
    have hB := logB_pos
    have : exp (((m : ℝ) + 1) * logB) ≤ exp ((((m + 1 : ℕ) : ℝ) + 1) * logB) := exp_le_exp.mpr (by push_cast; nlinarith)
    linarith
  · have : m = 22 := by omega
    subst this
    rw [maxFrequency_last]
    have : (((22 : ℕ) : ℝ) + 1) * logB = log (12000 / 20) := by rw [← logB_mul]; norm_num; ring
    rw [this, exp_log (by norm_num)]; norm_num

/-- All tables that are read are meant for at least the frequencies of the first one. -/
theorem reads_max {quality : ℤ} {f : ℝ} {m : ℕ} (h : Reads quality f m) : maxFrequency (tableFor f) ≤ maxFrequency m := by
  unfold Reads at h
  rw [pairFor_fst, pairFor_snd] at h
  have key : m = tableFor f ∨ m = min (tableFor f + 1) 23 := by split at h <;> simp_all
  rcases key with rfl | rfl
  · exact le_refl _
  · have := tableFor_lt f
    rcases Nat.lt_or_ge (tableFor f) 23 with h | h
    · rw [min_eq_left (by omega)]; exact startFrequency_mono h
    · rw [min_eq_right (by omega), show tableFor f = 23 by omega]

/-! ### C109 -/

/-- C109 (partial): for every frequency up to 22050 Hz and every quality, no harmonic of the tables that are read sounds above
1.0144 times half the reference rate, 24605 Hz. Missing: exactly half the reference rate, `reference_violated`; detuned
oscillators, `detune_violated`; the negative frequencies of frequency modulation, `negative_violated`. -/
theorem no_alias_partial {quality : ℤ} {f : ℝ} (h0 : 0 ≤ f) (hf : f ≤ 22050) {m h : ℕ} (hm : Reads quality f m)
    (hh : Holds 1024 m h) : sounds h f 1 ≤ 1.0144 * top := by
  obtain ⟨h1, h2, h3⟩ := holds_bound hh
  unfold sounds
  rw [mul_one, abs_of_nonneg h0]
  have hn : (0 : ℝ) ≤ h := Nat.cast_nonneg h
  rcases le_or_gt (20 + 2 * (11980 / 1023)) f with hlo | hlo
  · have hr := (table_range hlo hf).trans (mul_le_mul_of_nonneg_left (reads_max hm) (by norm_num))
    calc (h : ℝ) * f ≤ h * (1.0144 * maxFrequency m) := mul_le_mul_of_nonneg_left hr hn
      _ = 1.0144 * (h * maxFrequency m) := by ring
      _ ≤ 1.0144 * top := mul_le_mul_of_nonneg_left h3 (by norm_num)
  · have : (h : ℝ) ≤ 512 := by exact_mod_cast h2
    rw [top_eq]
    nlinarith

/-- The harmonics that a table holds: exactly those up to half of its size that are not above half the reference rate at the
highest frequency of the table. -/
theorem holds_iff {size m h : ℕ} : Holds size m h ↔ 1 ≤ h ∧ h ≤ size / 2 ∧ h * maxFrequency m ≤ top := by
  refine ⟨holds_bound, fun ⟨h1, h2, h3⟩ => ⟨fun _ => 1, ?_⟩⟩
  unfold spectrum
  rw [if_pos]
  · norm_num
  · refine ⟨h1, by omega, fun k hk hk' => not_lt.mpr ?_⟩
    have hsz : (0 : ℝ) < size := by
      have : 0 < size := by omega
      exact_mod_cast this
    have hm := maxFrequency_pos m
    have hkh : (k : ℝ) ≤ h := by exact_mod_cast hk'
    unfold cutoffOf
    rw [le_div_iff₀ hm, mul_one_div, div_mul_eq_mul_div, div_le_div_iff_of_pos_right hsz]
    have : (k : ℝ) * maxFrequency m ≤ h * maxFrequency m := mul_le_mul_of_nonneg_right hkh hm.le
    unfold top at h3; linarith

/-- C109: conversely no table is empty: the fundamental is in all of them. -/
theorem fundamental_kept {m : ℕ} (hm : m < 24) : Holds 1024 m 1 := by
  rw [holds_iff]
  refine ⟨le_refl _, by norm_num, ?_⟩
  rw [top_eq, Nat.cast_one, one_mul]
  have h23 : ∀ k, k ≤ 23 → maxFrequency (23 - k) ≤ 22050 := by
    intro k
    induction k with
    | zero => intro _; exact maxFrequency_last.le
    | succ k ih =>
      intro hk
      have := startFrequency_mono (m := 23 - (k + 1)) (by omega)
      rw [show 23 - (k + 1) + 1 = 23 - k by omega] at this
      exact this.trans (ih (by omega))
  have := h23 (23 - m) (by omega)
  rw [show 23 - (23 - m) = m by omega] at this
  linarith

theorem indexFor_low {f : ℝ} (h : f ≤ 20) : tableFor f = 0 := by
  have hpos : clamp ((f - 20) * (1023 / (12000 - 20))) 0 1023 = 0 := by
    apply clamp_low _ (by norm_num)
    nlinarith
  have hidx : indexFor f = 0 := by
    unfold indexFor
    simp only [hpos]
    have : exactIndex 20 = 0 := by unfold exactIndex; simp [clamp]
    have h0 : lut 0 = 0 := by unfold lut; norm_num [this]
    simp [h0]
  unfold tableFor
  rw [hidx, trunc_nonneg (le_refl _)]; simp

theorem maxFrequency_zero : maxFrequency 0 ≤ 40 := by
  rw [maxFrequency_lt (by norm_num)]
  have : exp ((((0 : ℕ) : ℝ) + 1) * logB) ≤ 2 := by
    rw [← log_le_log_iff (exp_pos _) (by norm_num), log_exp]
    have h1 : log (12000 / 20 : ℝ) ≤ 23 * log 2 := by
      have : log ((2 : ℝ) ^ 23) = 23 * log 2 := by rw [log_pow]; norm_num
      rw [← this]; exact log_le_log (by norm_num) (by norm_num)
    have := logB_mul
    push_cast; linarith
  linarith

/-- Non-vacuity: at A4 the table that is read holds harmonics 1 to 2 at least. -/
example : Reads 1 440 (tableFor 440) ∧ Holds 1024 (tableFor 440) 1 :=
  ⟨by simp [Reads], fundamental_kept (tableFor_lt _)⟩

/-- C109 is violated exactly at half the reference rate: the index of the table is interpolated, and the frequencies just above
the border of two tables still read the lower one. -/
theorem reference_violated : ∃ f : ℝ, 0 ≤ f ∧ f ≤ 22050 ∧ ∃ m h, Reads 1 f m ∧ Holds 1024 m h ∧ top < sounds h f 1 := by
  set f : ℝ := 20 + 3.5 * (11980 / 1023) with hfdef
  have hpos : clamp ((f - 20) * (1023 / (12000 - 20))) 0 1023 = 3.5 := by
    have : (f - 20) * (1023 / (12000 - 20)) = 3.5 := by rw [hfdef]; norm_num
    rw [this]; exact clamp_id (by norm_num) (by norm_num)
  have hB := logB_pos
  have hidx : indexFor f * logB = 1 / 2 * log (grid 3 / 20) + 1 / 2 * log (grid 4 / 20) := by
    have hi : indexFor f = 1 / 2 * lut 3 + 1 / 2 * lut 4 := by
      unfold indexFor
      simp only [hpos]
      have : ⌊(3.5 : ℝ)⌋ = 3 := by rw [Int.floor_eq_iff]; norm_num
      rw [this, show Int.toNat 3 = 3 from rfl]
      norm_num
    rw [hi, add_mul, mul_assoc, mul_assoc, lut_grid (by norm_num), lut_grid (by norm_num)]
  have hsum : 2 * (indexFor f * logB) = log (grid 3 / 20 * (grid 4 / 20)) := by
    have h3 := grid_pos 3
    have h4 := grid_pos 4
    rw [hidx, log_mul (by positivity) (by positivity)]; ring
  have h600 : ∀ n : ℕ, (n : ℝ) * logB * 23 = log ((12000 / 20) ^ n) := by
    intro n; rw [log_pow, mul_assoc, logB_mul]
  have hprod : grid 3 / 20 * (grid 4 / 20) = (20 + 3 * (11980 / 1023)) * (20 + 4 * (11980 / 1023)) / 400 := by
    unfold grid; push_cast; ring
  have hlt : indexFor f < 4 := by
    have h8 := h600 8
    have : 23 * log (grid 3 / 20 * (grid 4 / 20)) < log ((12000 / 20) ^ 8) := by
      have hp : log ((grid 3 / 20 * (grid 4 / 20)) ^ 23) = 23 * log (grid 3 / 20 * (grid 4 / 20)) := by
        rw [log_pow]; norm_num
      rw [← hp, hprod]
      exact log_lt_log (by norm_num) (by norm_num)
    rw [← hsum, ← h8] at this
    push_cast at this
    nlinarith
  have hge : 3 ≤ indexFor f := by
    have h6 := h600 6
    have : log ((12000 / 20) ^ 6) ≤ 23 * log (grid 3 / 20 * (grid 4 / 20)) := by
      have hp : log ((grid 3 / 20 * (grid 4 / 20)) ^ 23) = 23 * log (grid 3 / 20 * (grid 4 / 20)) := by
        rw [log_pow]; norm_num
      rw [← hp, hprod]
      exact log_le_log (by norm_num) (by norm_num)
    rw [← hsum, ← h6] at this
    push_cast at this
    nlinarith
  have ht : tableFor f = 3 := by
    unfold tableFor
    rw [trunc_nonneg (by linarith)]
    have : ⌊indexFor f⌋ = 3 := by rw [Int.floor_eq_iff]; push_cast; constructor <;> linarith
    rw [this]; rfl
  refine ⟨f, by rw [hfdef]; norm_num, by rw [hfdef]; norm_num, 3, 398, by simp [Reads, ht], ?_, ?_⟩
  · rw [holds_iff]
    refine ⟨by norm_num, by norm_num, ?_⟩
    rw [top_eq, maxFrequency_lt (by norm_num)]
    have h4 : exp ((((3 : ℕ) : ℝ) + 1) * logB) ≤ 3.047 := by
      rw [← log_le_log_iff (exp_pos _) (by norm_num), log_exp]
      have h := h600 4
      have hp : log ((3.047 : ℝ) ^ 23) = 23 * log 3.047 := by rw [log_pow]; norm_num
      have hle : log ((12000 / 20 : ℝ) ^ 4) ≤ log ((3.047 : ℝ) ^ 23) := log_le_log (by norm_num) (by norm_num)
      rw [← h, hp] at hle
      push_cast at hle ⊢
      linarith
    generalize exp ((((3 : ℕ) : ℝ) + 1) * logB) = x at h4 ⊢
    push_cast
    linarith
  · unfold sounds
    rw [top_eq, mul_one, abs_of_nonneg (by rw [hfdef]; norm_num), hfdef]; norm_num

/-- C109 is violated for negative frequencies, which frequency modulation makes: they read the table for the lowest notes, with
all its harmonics; at -10 kHz the 500th of them would sound at 5 MHz. -/
theorem negative_violated : ∃ f : ℝ, |f| ≤ 22050 ∧ ∃ m h, Reads 1 f m ∧ Holds 1024 m h ∧ 200 * top < sounds h f 1 := by
  refine ⟨-10000, by norm_num [abs_of_neg], 0, 500, ?_, ?_, ?_⟩
  · simp [Reads, indexFor_low (show (-10000 : ℝ) ≤ 20 by norm_num)]
  · rw [holds_iff]
    refine ⟨by norm_num, by norm_num, ?_⟩
    have := maxFrequency_zero
    rw [top_eq]; push_cast; linarith
  · unfold sounds
    rw [top_eq, mul_one, abs_of_neg (by norm_num)]; norm_num

/-- C109 is violated by detuned oscillators: the table is chosen without the detuning. With a note
at 20 Hz and an oscillator that is detuned to 2 kHz (`oscillator_detune` goes up to 12000 cents), harmonic 500 would sound at
1 MHz. -/
theorem detune_violated : ∃ f ratio : ℝ, 0 ≤ f ∧ f * ratio ≤ 22050 ∧ ∃ m h, Reads 1 f m ∧ Holds 1024 m h ∧
    40 * top < sounds h f ratio := by
  refine ⟨20, 100, by norm_num, by norm_num, 0, 500, ?_, ?_, ?_⟩
  · simp [Reads, indexFor_low (show (20 : ℝ) ≤ 20 by norm_num)]
  · rw [holds_iff]
    refine ⟨by norm_num, by norm_num, ?_⟩
    have := maxFrequency_zero
    rw [top_eq]; push_cast; linarith
  · unfold sounds
    rw [top_eq, abs_of_pos (by norm_num)]; norm_num

end Verif.Wavetable
