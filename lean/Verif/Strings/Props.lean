import Verif.Strings.Lemmas

/-!
# What the strings do

`W` is the number of lanes of the array in use: 1 for the plain one, 4 with SSE, 8 with AVX.
-/

namespace Verif.Strings

open Val _root_.Filter Topology

/-- **Packs are as good as single strings when they are full.**  If the number of strings is a
multiple of the number of lanes, the packed array gives what the plain array gives, for every input,
whether its values are numbers or not. -/
theorem packs_agree_partial (W : ℕ) (hW : 0 < W) (fs : ℝ) (ps : List Par) (h : W ∣ ps.length)
    (x : ℕ → Val) (n : ℕ) : packed W fs ps x n = scalar fs ps x n := by
  rw [packed_sum, lanes_eq W _ hW h, scalar_sum]
  have e : ps.map (fun p => out (setup fs p) x n) =
      (List.range ps.length).map fun i => out (setup fs ((ps[i]?).getD padding)) x n := by
    apply List.ext_getElem
    · simp
    · intro i h1 h2
      simp at h1
      simp [h1]
  rw [e, range_sum]

example : 8 ∣ (pars 48000 88).length := by simp [pars]

/-- **A pack that is not full is not a number.**  If the number of strings is not a multiple of the
number of lanes, everything after the first frame is not a number, for every sample rate, every set
of strings and every input, silence included. -/
theorem packs_violated (W : ℕ) (hW : 0 < W) (fs : ℝ) (hfs : 0 < fs) (ps : List Par)
    (h : ¬ W ∣ ps.length) (x : ℕ → Val) (n : ℕ) : packed W fs ps x (n + 1) = nan := by
  rw [packed_sum]
  refine sum_nan _ _ ps.length (Finset.mem_range.mpr (lanes_lt W _ hW h)) ?_
  rw [List.getElem?_eq_none (le_refl _), Option.getD_none]
  exact padding_out hfs x n

/-- **C117, violated**: with 10 strings and 4 or 8 lanes, both channels are not a number from the second
frame on, for every sample rate, every input and every amount, 0 included. -/
theorem strings_violated (W : ℕ) (hW : W = 4 ∨ W = 8) (fs : ℝ) (hfs : 0 < fs) (wet : ℝ)
    (left right own : ℕ → ℝ) (n : ℕ) : effect W fs 10 wet left right own (n + 1) = nan := by
  have h : ¬ W ∣ (pars fs 10).length := by
    have e : (pars fs 10).length = 10 := by simp [pars]
    rw [e]
    rcases hW with rfl | rfl <;> decide
  have hW0 : 0 < W := by rcases hW with rfl | rfl <;> decide
  rw [effect]
  rw [packs_violated W hW0 fs hfs (pars fs 10) h]
  simp

/-- One string that lies between 0 and half the sample rate is always a number, and is bounded by a
fixed multiple of the bound of its input. -/
theorem string_bounded (fs : ℝ) (p : Par) (h : Audible fs p) :
    ∃ K, 0 ≤ K ∧ ∀ (x : ℕ → ℝ) (X : ℝ), (∀ n, |x n| ≤ X) →
      ∀ n, ∃ y, out (setup fs p) (fun k => fin (x k)) n = fin y ∧ |y| ≤ K * X := by
  obtain ⟨K, hK, g⟩ := string_gain h
  refine ⟨|p.gain| * K, by positivity, fun x X hx n => ⟨_, out_eq h x n, ?_⟩⟩
  rw [abs_mul, mul_assoc]
  exact mul_le_mul_of_nonneg_left (g x X hx (n + 1)) (abs_nonneg _)

/-! ## The strings of the effect -/

theorem pitch_bounds (i : ℕ) (hi : i < 88) :
    27 < 440 * (2 : ℝ) ^ (((i : ℝ) + 24 - 69) * (1 / 12)) ∧
      440 * (2 : ℝ) ^ (((i : ℝ) + 24 - 69) * (1 / 12)) < 4990 := by
  have hi' : (i : ℝ) ≤ 87 := by exact_mod_cast (by omega : i ≤ 87)
  have hi0 : (0 : ℝ) ≤ i := Nat.cast_nonneg i
  constructor
  · have h : (2 : ℝ) ^ (-4 : ℝ) ≤ (2 : ℝ) ^ (((i : ℝ) + 24 - 69) * (1 / 12)) :=
      Real.rpow_le_rpow_of_exponent_le (by norm_num) (by linarith)
    have e : (2 : ℝ) ^ (-4 : ℝ) = 1 / 16 := by
      rw [Real.rpow_neg (by norm_num), show (4 : ℝ) = ((4 : ℕ) : ℝ) by norm_num, Real.rpow_natCast]
      norm_num
    rw [e] at h
    linarith
  · have h : (2 : ℝ) ^ (((i : ℝ) + 24 - 69) * (1 / 12)) ≤ (2 : ℝ) ^ (7 / 2 : ℝ) :=
      Real.rpow_le_rpow_of_exponent_le (by norm_num) (by linarith)
    have hp : 0 < (2 : ℝ) ^ (7 / 2 : ℝ) := by positivity
    have e : ((2 : ℝ) ^ (7 / 2 : ℝ)) ^ 2 = 128 := by
      rw [← Real.rpow_natCast, ← Real.rpow_mul (by norm_num)]
      rw [show (7 / 2 : ℝ) * ((2 : ℕ) : ℝ) = ((7 : ℕ) : ℝ) by norm_num, Real.rpow_natCast]
      norm_num
    have : (2 : ℝ) ^ (7 / 2 : ℝ) < 1132 / 100 := by nlinarith
    linarith

/-- At 10 kHz or more, every string of the effect lies between 0 and half the sample rate. -/
theorem par_audible (fs : ℝ) (hfs : 10000 ≤ fs) (i : ℕ) (hi : i < 88) : Audible fs (par fs i) := by
  obtain ⟨h1, h2⟩ := pitch_bounds i hi
  have hpos : 0 < fs := by linarith
  refine ⟨by simp [par], ?_, ?_, ?_, ?_⟩
  · simp only [par]; linarith
  · simp only [par]; linarith
  · exact (Real.exp_pos _).le
  · simp only [par]
    rw [Real.exp_lt_one_iff]
    apply div_neg_of_neg_of_pos (by norm_num) (by positivity)

theorem source_eq (left right : ℕ → ℝ) :
    (fun k => fin (Real.sqrt (1 / 2)) * fin (left k) + fin (Real.sqrt (1 / 2)) * fin (right k)) =
      fun k => fin (Real.sqrt (1 / 2) * left k + Real.sqrt (1 / 2) * right k) := rfl

theorem pars_length (fs : ℝ) (number : ℕ) : (pars fs number).length = number := by simp [pars]

/-- What the effect does, in real numbers: each channel receives the strings, which hear the sum of both. -/
theorem effect_eq (W : ℕ) (hW : 0 < W) (fs : ℝ) (hfs : 10000 ≤ fs) (number : ℕ) (hn : number ≤ 88)
    (hd : W ∣ number) (wet : ℝ) (left right own : ℕ → ℝ) (n : ℕ) :
    effect W fs number wet left right own n = fin (own n + wet * ∑ i ∈ Finset.range number,
      (par fs i).gain * (rmem fs (par fs i)
        (fun k => Real.sqrt (1 / 2) * left k + Real.sqrt (1 / 2) * right k) (n + 1)).r0) := by
  rw [effect, source_eq]
  rw [packs_agree_partial W hW fs _ (by rw [pars_length]; exact hd), scalar_sum, pars, List.map_map,
    range_sum]
  have : ∀ i ∈ Finset.range number, ((fun p => out (setup fs p)
      (fun k => fin (Real.sqrt (1 / 2) * left k + Real.sqrt (1 / 2) * right k)) n) ∘ par fs) i
      = fin ((par fs i).gain * (rmem fs (par fs i)
        (fun k => Real.sqrt (1 / 2) * left k + Real.sqrt (1 / 2) * right k) (n + 1)).r0) := by
    intro i hi
    exact out_eq (par_audible fs hfs i (by have := Finset.mem_range.mp hi; omega)) _ n
  rw [Finset.sum_congr rfl this, sum_fin, fin_mul, fin_add]

/-- **C117: strings stay bounded.**  For every sample rate from 10 kHz, every number of strings the effect
accepts that fills its packs, and every amount, there is a factor such that for every stereo input
bounded by `X`, each channel is a number within `X` times that factor at every frame.
Missing: numbers of strings that do not fill the packs (`strings_violated`). -/
theorem strings_bounded_partial (W : ℕ) (hW : 0 < W) (fs : ℝ) (hfs : 10000 ≤ fs) (number : ℕ)
    (hn : number ≤ 88) (hd : W ∣ number) (wet : ℝ) :
    ∃ K, ∀ (left right own : ℕ → ℝ) (X : ℝ), (∀ n, |left n| ≤ X) → (∀ n, |right n| ≤ X) →
      (∀ n, |own n| ≤ X) →
      ∀ n, ∃ y, effect W fs number wet left right own n = fin y ∧ |y| ≤ K * X := by
  have hk : ∀ i : ℕ, ∃ K, i < number → 0 ≤ K ∧ ∀ (x : ℕ → ℝ) (X : ℝ), (∀ n, |x n| ≤ X) →
      ∀ n, |(rmem fs (par fs i) x n).r0| ≤ K * X := by
    intro i
    by_cases hi : i < number
    · obtain ⟨K, h⟩ := string_gain (par_audible fs hfs i (by omega))
      exact ⟨K, fun _ => h⟩
    · exact ⟨0, fun h => absurd h hi⟩
  choose K hK using hk
  have hg : 0 ≤ (1 / 1000 : ℝ) := by norm_num
  refine ⟨1 + |wet| * ∑ i ∈ Finset.range number, 1 / 1000 * (K i * 2), ?_⟩
  intro left right own X hl hr ho n
  refine ⟨_, effect_eq W hW fs hfs number hn hd wet left right own n, ?_⟩
  have hX : 0 ≤ X := (abs_nonneg _).trans (ho 0)
  have hsq0 : 0 ≤ Real.sqrt (1 / 2) := Real.sqrt_nonneg _
  have hsq1 : Real.sqrt (1 / 2) ≤ 1 := by
    rw [Real.sqrt_le_left (by norm_num)]; norm_num
  have hs : ∀ k, |Real.sqrt (1 / 2) * left k + Real.sqrt (1 / 2) * right k| ≤ 2 * X := by
    intro k
    rw [← mul_add, abs_mul, abs_of_nonneg hsq0]
    have h1 := abs_add_le (left k) (right k)
    have h2 := hl k
    have h3 := hr k
    calc Real.sqrt (1 / 2) * |left k + right k| ≤ 1 * |left k + right k| :=
          mul_le_mul_of_nonneg_right hsq1 (abs_nonneg _)
      _ ≤ 2 * X := by linarith
  have hsum : |∑ i ∈ Finset.range number, (par fs i).gain * (rmem fs (par fs i)
        (fun k => Real.sqrt (1 / 2) * left k + Real.sqrt (1 / 2) * right k) (n + 1)).r0|
      ≤ (∑ i ∈ Finset.range number, 1 / 1000 * (K i * 2)) * X := by
    refine (Finset.abs_sum_le_sum_abs _ _).trans ?_
    rw [Finset.sum_mul]
    apply Finset.sum_le_sum
    intro i hi
    obtain ⟨-, h⟩ := hK i (Finset.mem_range.mp hi)
    have := h _ _ hs (n + 1)
    rw [abs_mul]
    have hgi : (par fs i).gain = 1 / 1000 := rfl
    rw [hgi, abs_of_nonneg hg, mul_assoc, mul_assoc]
    apply mul_le_mul_of_nonneg_left _ hg
    exact this
  have h1 := abs_add_le (own n) (wet * ∑ i ∈ Finset.range number, (par fs i).gain *
    (rmem fs (par fs i) (fun k => Real.sqrt (1 / 2) * left k + Real.sqrt (1 / 2) * right k)
      (n + 1)).r0)
  rw [abs_mul] at h1
  have h2 := mul_le_mul_of_nonneg_left hsum (abs_nonneg wet)
  have h3 := ho n
  calc _ ≤ _ := h1
    _ ≤ X + |wet| * ((∑ i ∈ Finset.range number, 1 / 1000 * (K i * 2)) * X) := add_le_add h3 h2
    _ = _ := by ring

/-- **C117: strings die out.**  When both channels die out, so does what the strings add to a channel.
Missing: numbers of strings that do not fill the packs (`strings_violated`). -/
theorem strings_fade_partial (W : ℕ) (hW : 0 < W) (fs : ℝ) (hfs : 10000 ≤ fs) (number : ℕ)
    (hn : number ≤ 88) (hd : W ∣ number) (wet : ℝ) (left right own : ℕ → ℝ)
    (hl : Tendsto left atTop (𝓝 0)) (hr : Tendsto right atTop (𝓝 0)) :
    ∃ y : ℕ → ℝ, (∀ n, effect W fs number wet left right own n = fin (y n)) ∧
      Tendsto (fun n => y n - own n) atTop (𝓝 0) := by
  refine ⟨_, fun n => effect_eq W hW fs hfs number hn hd wet left right own n, ?_⟩
  simp only [add_sub_cancel_left]
  have hx : Tendsto (fun k => Real.sqrt (1 / 2) * left k + Real.sqrt (1 / 2) * right k) atTop
      (𝓝 0) := by
    have := (hl.const_mul (Real.sqrt (1 / 2))).add (hr.const_mul (Real.sqrt (1 / 2)))
    simpa using this
  have hi : ∀ i ∈ Finset.range number, Tendsto (fun n => (par fs i).gain * (rmem fs (par fs i)
      (fun k => Real.sqrt (1 / 2) * left k + Real.sqrt (1 / 2) * right k) (n + 1)).r0) atTop
      (𝓝 0) := by
    intro i hi
    have h := string_vanish (par_audible fs hfs i (by have := Finset.mem_range.mp hi; omega)) _ hx
    have := ((tendsto_add_atTop_iff_nat 1).mpr h).const_mul (par fs i).gain
    simpa using this
  have := (tendsto_finset_sum _ hi).const_mul wet
  simpa using this

/-- Non-vacuity: the default 88 strings at 48 kHz with AVX. -/
example : 0 < 8 ∧ (10000 : ℝ) ≤ 48000 ∧ 88 ≤ 88 ∧ 8 ∣ 88 := by norm_num

/-- Strings are linear in what they hear: they add nothing to silence. -/
theorem strings_silence (W : ℕ) (hW : 0 < W) (fs : ℝ) (hfs : 10000 ≤ fs) (number : ℕ)
    (hn : number ≤ 88) (hd : W ∣ number) (wet : ℝ) (n : ℕ) :
    effect W fs number wet (fun _ => 0) (fun _ => 0) (fun _ => 0) n = fin 0 := by
  obtain ⟨K, h⟩ := strings_bounded_partial W hW fs hfs number hn hd wet
  obtain ⟨y, hy, hb⟩ := h (fun _ => 0) (fun _ => 0) (fun _ => 0) 0 (by simp) (by simp) (by simp) n
  rw [hy]
  rw [mul_zero] at hb
  rw [abs_nonpos_iff.mp hb]

end Verif.Strings
