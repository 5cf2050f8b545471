import Verif.Filter.Section

/-!
# Stability and landmark gains of the second-order filters

C95: bounded sound in, bounded sound out, for every setting; this holds while the cutoff is
below half the sample rate and fails above it.
C96: what the filters do to the sounds their documentation names: constants, the highest
representable frequency, and a sine at the filter's own frequency.
-/

namespace Verif.Filter

open _root_.Filter Topology Real

/-- The cutoff is below half the sample rate, or the sample rate is so high that every cutoff
is (the engine limits cutoffs to 20 kHz). -/
def Below (fs : ℝ) (p : Ctl) : Prop := 2 < fs ∧ (2 * p.cutoff < fs ∨ 40000 < fs)

lemma Below.clamp {fs : ℝ} {p : Ctl} (h : Below fs p) : 0 < fs ∧ 2 * clampHz p.cutoff < fs := by
  obtain ⟨h1, h2⟩ := h
  refine ⟨by linarith, ?_⟩
  rcases h2 with h2 | h2
  · have : clampHz p.cutoff ≤ max 1 p.cutoff := min_le_right _ _
    rcases max_cases 1 p.cutoff with ⟨e, _⟩ | ⟨e, _⟩ <;> rw [e] at this <;> linarith
  · have := clampHz_le p.cutoff; linarith

lemma Below.stable {fs : ℝ} {p : Ctl} (h : Below fs p) (k : Shape) :
    Stable (target k fs p).a1 (target k fs p).a2 :=
  target_stable k (angle_pos h.clamp.1) (angle_lt h.clamp.1 h.clamp.2)

/-- C95, the part that holds: every second-order filter and equalizer band, with any number of
sections, any resonance, gain and bandwidth, multiplies the peak of the sound by at most a
constant, as long as the cutoff is below half the sample rate.  Missing: see
`second_order_stable_violated`. -/
theorem second_order_stable_partial (k : Shape) (m : ℕ) (fs : ℝ) (p : Ctl) (h : Below fs p) :
    ∃ G, ∀ (x : ℕ → ℝ) (X : ℝ), (∀ n, |x n| ≤ X) → ∀ n, |out (biquad k m fs) p x n| ≤ G * X := by
  obtain ⟨G, -, hG⟩ := iterate_gain (h.stable k) m
  exact ⟨G, fun x X hx n => by rw [out_biquad]; exact hG x X hx n⟩

/-- Non-vacuity: a 6-pole low-pass at 20 kHz and 60 dB of resonance, at 48 kHz. -/
example : Below 48000 ⟨20000, 60, 0⟩ := ⟨by norm_num, Or.inr (by norm_num)⟩

/-- A single sample of height 1. -/
def click (n : ℕ) : ℝ := if n = 0 then 1 else 0

lemma click_unbounded {c : Coefs} (ha : 1 < |c.a2|)
    (hd : sec c click 3 * sec c click 1 - sec c click 2 ^ 2 ≠ 0) :
    ¬ ∃ B, ∀ n, |sec c click n| ≤ B :=
  (sec_rec2 c click).unbounded ha (N := 1) (fun n hn => by
    have h0 : n ≠ 0 := by omega
    simp [click, h0]) hd

/-- The determinant that decides whether the poles show in the response to a click: it is minus
the resultant of numerator and denominator. -/
lemma click_det (c : Coefs) :
    sec c click 3 * sec c click 1 - sec c click 2 ^ 2
      = -((c.b2 - c.a2 * c.b0) ^ 2 - (c.b1 - c.a1 * c.b0) * (c.a1 * c.b2 - c.a2 * c.b1)) := by
  have e3 := sec_rec c click 1
  have e2 := sec_rec c click 0
  have e1 := sec_one c click
  have e0 := sec_zero c click
  simp only [click] at e0 e1 e2 e3
  norm_num at e0 e1 e2 e3
  rw [e3, e2, e1, e0]; ring

lemma rbj_explodes {al : ℝ} (h0 : al < 0) (h1 : al ≠ -1) : 1 < |(1 - al) / (al + 1)| := by
  have hp : al + 1 ≠ 0 := by intro h; apply h1; linarith
  rw [abs_div, one_lt_div (abs_pos.mpr hp)]
  rw [abs_of_pos (by linarith : (0 : ℝ) < 1 - al), abs_lt]
  constructor <;> linarith

/-- C95, refuted above half the sample rate: a low-pass whose cutoff lies between half the
sample rate and the sample rate answers one click with a sound that grows beyond every bound,
for every resonance (other than the one value that makes the code divide by zero). -/
theorem lowpass_unstable (fs : ℝ) (p : Ctl) (h1 : clampHz p.cutoff < fs)
    (h2 : fs < 2 * clampHz p.cutoff)
    (h3 : 1 / 2 * (sin (angle fs p.cutoff) / linQ p.q) ≠ -1) :
    ¬ ∃ B, ∀ n, |out (biquad .lpf 1 fs) p click n| ≤ B := by
  have hc := clampHz_ge p.cutoff
  have hfs : 0 < fs := by linarith
  have hπ := pi_pos
  have hw1 : π < angle fs p.cutoff := by
    rw [angle_eq, div_mul_eq_mul_div, lt_div_iff₀ hfs]; nlinarith
  have hw2 : angle fs p.cutoff < 2 * π := by
    rw [angle_eq, div_mul_eq_mul_div, div_lt_iff₀ hfs]; nlinarith
  have hs : sin (angle fs p.cutoff) < 0 := by
    have := sin_pos_of_pos_of_lt_pi (x := angle fs p.cutoff - π) (by linarith) (by linarith)
    rw [sin_sub_pi] at this; linarith
  have hsq := sin_sq_add_cos_sq (angle fs p.cutoff)
  have hcos : cos (angle fs p.cutoff) < 1 ∧ -1 < cos (angle fs p.cutoff) := by
    constructor <;> nlinarith
  have hal : 1 / 2 * (sin (angle fs p.cutoff) / linQ p.q) < 0 := by
    have := div_neg_of_neg_of_pos hs (linQ_pos p.q); linarith
  have hp : 1 / 2 * (sin (angle fs p.cutoff) / linQ p.q) + 1 ≠ 0 := by
    intro h; apply h3; linarith
  rw [out_biquad]
  simp only [Function.iterate_one, target, max_linQ]
  apply click_unbounded
  · exact rbj_explodes hal h3
  · rw [click_det]
    simp only [lpfCoefs]
    generalize 1 / 2 * (sin (angle fs p.cutoff) / linQ p.q) = al at hal hp
    generalize cos (angle fs p.cutoff) = c at hcos
    have e : -((1 / 2 * ((1 - c) / (al + 1)) - (1 - al) / (al + 1) * (1 / 2 * ((1 - c) / (al + 1)))) ^ 2
        - ((1 - c) / (al + 1) - (0 - 2 * c) / (al + 1) * (1 / 2 * ((1 - c) / (al + 1))))
          * ((0 - 2 * c) / (al + 1) * (1 / 2 * ((1 - c) / (al + 1)))
            - (1 - al) / (al + 1) * ((1 - c) / (al + 1))))
        = -((1 - c) * (1 + c) / (al + 1) ^ 2) ^ 2 := by
      field_simp; ring
    rw [e]
    have : (1 - c) * (1 + c) / (al + 1) ^ 2 ≠ 0 :=
      div_ne_zero (mul_ne_zero (by linarith [hcos.1]) (by linarith [hcos.2])) (pow_ne_zero 2 hp)
    exact neg_ne_zero.mpr (pow_ne_zero 2 this)

lemma linQ_zero : linQ 0 = 1 := by simp [linQ]

/-- C95 is violated: at a sample rate of 24 kHz a two-pole low-pass at 18 kHz, which the engine
accepts, turns a single click into an unbounded sound. -/
theorem second_order_stable_violated :
    ∃ (k : Shape) (m : ℕ) (fs : ℝ) (p : Ctl) (x : ℕ → ℝ), 0 < fs ∧ p.cutoff ≤ 20000 ∧
      (∀ n, |x n| ≤ 1) ∧ ¬ ∃ B, ∀ n, |out (biquad k m fs) p x n| ≤ B := by
  refine ⟨.lpf, 1, 24000, ⟨18000, 0, 0⟩, click, by norm_num, by norm_num, fun n => ?_, ?_⟩
  · unfold click; split <;> norm_num
  · have hc : clampHz 18000 = 18000 := clampHz_id (by norm_num) (by norm_num)
    apply lowpass_unstable
    · simp only [hc]; norm_num
    · simp only [hc]; norm_num
    · have ha : angle 24000 18000 = π / 2 + π := by rw [angle_eq, hc]; ring
      simp only [ha, linQ_zero, sin_add_pi, sin_pi_div_two]; norm_num

/-! ### C96: landmark gains -/

/-- `Approach x y` for a constant `y` is convergence. -/
lemma approach_const {x : ℕ → ℝ} {c : ℝ} :
    Approach x (fun _ => c) ↔ Tendsto x atTop (𝓝 c) := by
  unfold Approach
  constructor
  · intro h; simpa using h.add_const c
  · intro h; simpa using h.sub_const c

/-- The gain in amplitude of `g` decibels, limited to the range −120..60 the filters allow. -/
noncomputable def decibels (g : ℝ) : ℝ := (10 : ℝ) ^ (min 60 (max (-120) g) / 20)

lemma ampl_sq (g : ℝ) : ampl g ^ 2 = decibels g := by
  rw [ampl, decibels, ← Real.rpow_natCast, ← Real.rpow_mul (by norm_num)]
  congr 1; push_cast; ring

/-- The documented gain for constants. -/
noncomputable def dcGain (k : Shape) (p : Ctl) : ℝ :=
  match k with
  | .lpf | .brf | .peq | .eqPeak | .hsh | .eqHshelf => 1
  | .hpf | .bpf => 0
  | .lsh | .eqLshelf => decibels p.gain

/-- The documented gain for the highest frequency, a signal that changes sign every sample. -/
noncomputable def topGain (k : Shape) (p : Ctl) : ℝ :=
  match k with
  | .hpf | .brf | .peq | .eqPeak | .lsh | .eqLshelf => 1
  | .lpf | .bpf => 0
  | .hsh | .eqHshelf => decibels p.gain

lemma lsh_den {w Q A : ℝ} (hw : 0 < w) (hwπ : w < π) (hQ : 0 < Q) (hA : 0 < A) :
    (A + ((A + -1) * cos w + √A * sin w / Q)) + 1 ≠ 0 := by
  have hs : 0 < sin w := sin_pos_of_pos_of_lt_pi hw hwπ
  obtain ⟨c1, c2⟩ := cos_lt hw hwπ
  have ht : 0 < (√A * sin w) / Q := by positivity
  have hm : 0 < (A + 1) + (A + -1) * cos w := by nlinarith
  intro h; linarith

lemma hsh_den {w Q A : ℝ} (hw : 0 < w) (hwπ : w < π) (hQ : 0 < Q) (hA : 0 < A) :
    (A + √A * sin w / Q) + (1 - (A + -1) * cos w) ≠ 0 := by
  have hs : 0 < sin w := sin_pos_of_pos_of_lt_pi hw hwπ
  obtain ⟨c1, c2⟩ := cos_lt hw hwπ
  have ht : 0 < (√A * sin w) / Q := by positivity
  have hm : 0 < (A + 1) - (A + -1) * cos w := by nlinarith
  intro h; linarith

lemma lsh_dc {w Q A : ℝ} (hd : (A + ((A + -1) * cos w + √A * sin w / Q)) + 1 ≠ 0) :
    (lshCoefs w Q A).b0 + (lshCoefs w Q A).b1 + (lshCoefs w Q A).b2
      = A ^ 2 * (1 + (lshCoefs w Q A).a1 + (lshCoefs w Q A).a2) := by
  simp only [lshCoefs]
  generalize √A * sin w / Q = t at hd
  field_simp
  ring

lemma lsh_top {w Q A : ℝ} (hd : (A + ((A + -1) * cos w + √A * sin w / Q)) + 1 ≠ 0) :
    (lshCoefs w Q A).b0 - (lshCoefs w Q A).b1 + (lshCoefs w Q A).b2
      = 1 * (1 - (lshCoefs w Q A).a1 + (lshCoefs w Q A).a2) := by
  simp only [lshCoefs]
  generalize √A * sin w / Q = t at hd
  field_simp
  ring

lemma hsh_dc {w Q A : ℝ} (hd : (A + √A * sin w / Q) + (1 - (A + -1) * cos w) ≠ 0) :
    (hshCoefs w Q A).b0 + (hshCoefs w Q A).b1 + (hshCoefs w Q A).b2
      = 1 * (1 + (hshCoefs w Q A).a1 + (hshCoefs w Q A).a2) := by
  simp only [hshCoefs]
  generalize √A * sin w / Q = t at hd
  field_simp
  ring

lemma hsh_top {w Q A : ℝ} (hd : (A + √A * sin w / Q) + (1 - (A + -1) * cos w) ≠ 0) :
    (hshCoefs w Q A).b0 - (hshCoefs w Q A).b1 + (hshCoefs w Q A).b2
      = A ^ 2 * (1 - (hshCoefs w Q A).a1 + (hshCoefs w Q A).a2) := by
  simp only [hshCoefs]
  generalize √A * sin w / Q = t at hd
  field_simp
  ring

lemma target_dc (k : Shape) {fs : ℝ} {p : Ctl} (h : Below fs p) :
    (target k fs p).b0 + (target k fs p).b1 + (target k fs p).b2
      = dcGain k p * (1 + (target k fs p).a1 + (target k fs p).a2) := by
  have h0 := angle_pos (f := p.cutoff) h.clamp.1
  have hπ := angle_lt h.clamp.1 h.clamp.2
  have hs : 0 < sin (angle fs p.cutoff) := sin_pos_of_pos_of_lt_pi h0 hπ
  have hQ : 0 < max (1 / 1000) (linQ p.q) := lt_max_of_lt_left (by norm_num)
  have hB := bandQ_pos fs p.cutoff p.q
  have hA := ampl_pos p.gain
  have n1 : 1 / 2 * (sin (angle fs p.cutoff) / max (1 / 1000) (linQ p.q)) + 1 ≠ 0 := by positivity
  have n2 : 1 / 2 * (sin (angle fs p.cutoff) / (max (1 / 1000) (linQ p.q) * ampl p.gain)) + 1
      ≠ 0 := by positivity
  have n3 : 1 / 2 * (sin (angle fs p.cutoff) / (bandQ fs p.cutoff p.q * ampl p.gain)) + 1
      ≠ 0 := by positivity
  cases k with
  | lpf =>
    simp only [target, dcGain, lpfCoefs]
    generalize 1 / 2 * (sin (angle fs p.cutoff) / max (1 / 1000) (linQ p.q)) = al at n1
    field_simp; ring
  | hpf =>
    simp only [target, dcGain, hpfCoefs]
    generalize 1 / 2 * (sin (angle fs p.cutoff) / max (1 / 1000) (linQ p.q)) = al at n1
    field_simp; ring
  | bpf =>
    simp only [target, dcGain, bpfCoefs]; ring
  | brf =>
    simp only [target, dcGain, brfCoefs]
    generalize 1 / 2 * (sin (angle fs p.cutoff) / max (1 / 1000) (linQ p.q)) = al at n1
    field_simp; ring
  | peq =>
    simp only [target, dcGain, peqCoefs]
    generalize 1 / 2 * (sin (angle fs p.cutoff) / (max (1 / 1000) (linQ p.q) * ampl p.gain)) = al
      at n2
    generalize 1 / 2 * (ampl p.gain * sin (angle fs p.cutoff) / max (1 / 1000) (linQ p.q)) = be
    field_simp; ring
  | eqPeak =>
    simp only [target, dcGain, peqCoefs]
    generalize 1 / 2 * (sin (angle fs p.cutoff) / (bandQ fs p.cutoff p.q * ampl p.gain)) = al
      at n3
    generalize 1 / 2 * (ampl p.gain * sin (angle fs p.cutoff) / bandQ fs p.cutoff p.q) = be
    field_simp; ring
  | lsh => simp only [target, dcGain, ← ampl_sq]; exact lsh_dc (lsh_den h0 hπ hQ hA)
  | hsh => simp only [target, dcGain]; exact hsh_dc (hsh_den h0 hπ hQ hA)
  | eqLshelf => simp only [target, dcGain, ← ampl_sq]; exact lsh_dc (lsh_den h0 hπ hB hA)
  | eqHshelf => simp only [target, dcGain]; exact hsh_dc (hsh_den h0 hπ hB hA)

lemma target_top (k : Shape) {fs : ℝ} {p : Ctl} (h : Below fs p) :
    (target k fs p).b0 - (target k fs p).b1 + (target k fs p).b2
      = topGain k p * (1 - (target k fs p).a1 + (target k fs p).a2) := by
  have h0 := angle_pos (f := p.cutoff) h.clamp.1
  have hπ := angle_lt h.clamp.1 h.clamp.2
  have hs : 0 < sin (angle fs p.cutoff) := sin_pos_of_pos_of_lt_pi h0 hπ
  have hQ : 0 < max (1 / 1000) (linQ p.q) := lt_max_of_lt_left (by norm_num)
  have hB := bandQ_pos fs p.cutoff p.q
  have hA := ampl_pos p.gain
  have n1 : 1 / 2 * (sin (angle fs p.cutoff) / max (1 / 1000) (linQ p.q)) + 1 ≠ 0 := by positivity
  have n2 : 1 / 2 * (sin (angle fs p.cutoff) / (max (1 / 1000) (linQ p.q) * ampl p.gain)) + 1
      ≠ 0 := by positivity
  have n3 : 1 / 2 * (sin (angle fs p.cutoff) / (bandQ fs p.cutoff p.q * ampl p.gain)) + 1
      ≠ 0 := by positivity
  cases k with
  | lpf =>
    simp only [target, topGain, lpfCoefs]
    generalize 1 / 2 * (sin (angle fs p.cutoff) / max (1 / 1000) (linQ p.q)) = al at n1
    field_simp; ring
  | hpf =>
    simp only [target, topGain, hpfCoefs]
    generalize 1 / 2 * (sin (angle fs p.cutoff) / max (1 / 1000) (linQ p.q)) = al at n1
    field_simp; ring
  | bpf =>
    simp only [target, topGain, bpfCoefs]; ring
  | brf =>
    simp only [target, topGain, brfCoefs]
    generalize 1 / 2 * (sin (angle fs p.cutoff) / max (1 / 1000) (linQ p.q)) = al at n1
    field_simp; ring
  | peq =>
    simp only [target, topGain, peqCoefs]
    generalize 1 / 2 * (sin (angle fs p.cutoff) / (max (1 / 1000) (linQ p.q) * ampl p.gain)) = al
      at n2
    generalize 1 / 2 * (ampl p.gain * sin (angle fs p.cutoff) / max (1 / 1000) (linQ p.q)) = be
    field_simp; ring
  | eqPeak =>
    simp only [target, topGain, peqCoefs]
    generalize 1 / 2 * (sin (angle fs p.cutoff) / (bandQ fs p.cutoff p.q * ampl p.gain)) = al
      at n3
    generalize 1 / 2 * (ampl p.gain * sin (angle fs p.cutoff) / bandQ fs p.cutoff p.q) = be
    field_simp; ring
  | lsh => simp only [target, topGain]; exact lsh_top (lsh_den h0 hπ hQ hA)
  | hsh => simp only [target, topGain, ← ampl_sq]; exact hsh_top (hsh_den h0 hπ hQ hA)
  | eqLshelf => simp only [target, topGain]; exact lsh_top (lsh_den h0 hπ hB hA)
  | eqHshelf => simp only [target, topGain, ← ampl_sq]; exact hsh_top (hsh_den h0 hπ hB hA)

/-- C96, constants: a sound that settles at `c` comes out settling at `c` times the documented
gain: 1 for low-pass, band-reject, peak and high-shelf, 0 for high-pass and band-pass, the
shelf gain in dB for low-shelf; once for each section. -/
theorem constant_gain (k : Shape) (m : ℕ) (fs : ℝ) (p : Ctl) (h : Below fs p) (x : ℕ → ℝ)
    (c : ℝ) (hx : Tendsto x atTop (𝓝 c)) :
    Tendsto (out (biquad k m fs) p x) atTop (𝓝 (dcGain k p ^ m * c)) := by
  rw [out_biquad, ← approach_const]
  refine iterate_approach (h.stable k) (Y := fun i _ => dcGain k p ^ i * c) ?_ (fun i n => ?_) m
  · simpa [approach_const] using hx
  · have e := target_dc k h
    simp only [pow_succ]
    linear_combination (-(dcGain k p ^ i * c)) * e

/-- C96, top of the spectrum: a sound that settles into `c, -c, c, -c, …` comes out settling
into the same alternation times the documented gain. -/
theorem top_gain (k : Shape) (m : ℕ) (fs : ℝ) (p : Ctl) (h : Below fs p) (x : ℕ → ℝ) (c : ℝ)
    (hx : Approach x (fun n => c * (-1) ^ n)) :
    Approach (out (biquad k m fs) p x) (fun n => topGain k p ^ m * c * (-1) ^ n) := by
  rw [out_biquad]
  refine iterate_approach (h.stable k) (Y := fun i n => topGain k p ^ i * c * (-1) ^ n) ?_
    (fun i n => ?_) m
  · simpa using hx
  · have e := target_top k h
    simp only [pow_succ]
    linear_combination (-(topGain k p ^ i * c) * (-1) ^ n) * e

/-- A sine of frequency `f` Hz sampled at `fs`, amplitude 1, phase `φ`. -/
noncomputable def tone (fs f φ : ℝ) (n : ℕ) : ℝ := cos (2 * π * f / fs * n + φ)

lemma tone_steps (w φ : ℝ) (n : ℕ) :
    cos (w * ((n + 2 : ℕ) : ℝ) + φ)
        = cos (w * ((n + 1 : ℕ) : ℝ) + φ) * cos w - sin (w * ((n + 1 : ℕ) : ℝ) + φ) * sin w ∧
      cos (w * (n : ℝ) + φ)
        = cos (w * ((n + 1 : ℕ) : ℝ) + φ) * cos w + sin (w * ((n + 1 : ℕ) : ℝ) + φ) * sin w := by
  constructor
  · rw [← cos_add]; congr 1; push_cast; ring
  · rw [← cos_sub]; congr 1; push_cast; ring

lemma tone_lag (w φ : ℝ) (t : ℝ) : cos (w * t + (φ - π / 2)) = sin (w * t + φ) := by
  rw [← add_sub_assoc, cos_sub_pi_div_two]

lemma tone_lead (w φ : ℝ) (t : ℝ) : cos (w * t + (φ + π / 2)) = -sin (w * t + φ) := by
  rw [← add_assoc, cos_add_pi_div_two]

lemma tone_steps_sin (w φ : ℝ) (n : ℕ) :
    sin (w * ((n + 2 : ℕ) : ℝ) + φ)
        = sin (w * ((n + 1 : ℕ) : ℝ) + φ) * cos w + cos (w * ((n + 1 : ℕ) : ℝ) + φ) * sin w ∧
      sin (w * (n : ℝ) + φ)
        = sin (w * ((n + 1 : ℕ) : ℝ) + φ) * cos w - cos (w * ((n + 1 : ℕ) : ℝ) + φ) * sin w := by
  constructor
  · rw [← sin_add]; congr 1; push_cast; ring
  · rw [← sin_sub]; congr 1; push_cast; ring

/-- A filter frequency the engine takes as it is, below half the sample rate. -/
def Centre (fs : ℝ) (p : Ctl) : Prop :=
  1 ≤ p.cutoff ∧ p.cutoff ≤ 20000 ∧ 2 * p.cutoff < fs

lemma Centre.below {fs : ℝ} {p : Ctl} (h : Centre fs p) : Below fs p :=
  ⟨by linarith [h.1, h.2.2], Or.inl h.2.2⟩

lemma Centre.angle {fs : ℝ} {p : Ctl} (h : Centre fs p) :
    angle fs p.cutoff = 2 * π * p.cutoff / fs := by
  rw [angle_eq, clampHz_id h.1 h.2.1]; ring

/-- The low-pass law at its own frequency for any phase. -/
lemma lpf_answers {w Q : ℝ} (hs : 0 < sin w) (hQ : 0 < Q) (φ a : ℝ) :
    Answers (lpfCoefs w Q) (fun n => a * cos (w * n + φ))
      (fun n => Q * a * cos (w * n + (φ - π / 2))) := by
  intro n
  have n1 : 1 / 2 * (sin w / Q) + 1 ≠ 0 := by positivity
  have n2 : sin w + 2 * Q ≠ 0 := by positivity
  simp only [tone_lag, lpfCoefs]
  obtain ⟨s1, s2⟩ := tone_steps w φ n
  obtain ⟨s3, s4⟩ := tone_steps_sin w φ n
  rw [s1, s2, s3, s4]
  generalize cos (w * ((n + 1 : ℕ) : ℝ) + φ) = C
  generalize sin (w * ((n + 1 : ℕ) : ℝ) + φ) = S
  have hq := sin_sq_add_cos_sq w
  field_simp
  linear_combination (2 * C * a) * hq

/-- The high-pass law at its own frequency. -/
lemma hpf_answers {w Q : ℝ} (hs : 0 < sin w) (hQ : 0 < Q) (φ a : ℝ) :
    Answers (hpfCoefs w Q) (fun n => a * cos (w * n + φ))
      (fun n => Q * a * cos (w * n + (φ + π / 2))) := by
  intro n
  have n1 : 1 / 2 * (sin w / Q) + 1 ≠ 0 := by positivity
  have n2 : sin w + 2 * Q ≠ 0 := by positivity
  simp only [tone_lead, hpfCoefs]
  obtain ⟨s1, s2⟩ := tone_steps w φ n
  obtain ⟨s3, s4⟩ := tone_steps_sin w φ n
  rw [s1, s2, s3, s4]
  generalize cos (w * ((n + 1 : ℕ) : ℝ) + φ) = C
  generalize sin (w * ((n + 1 : ℕ) : ℝ) + φ) = S
  have hq := sin_sq_add_cos_sq w
  field_simp
  linear_combination (-2 * C * a) * hq

/-- The band-pass law at its own frequency. -/
lemma bpf_answers {w Q : ℝ} (hs : 0 < sin w) (hQ : 0 < Q) (φ : ℝ) :
    Answers (bpfCoefs w Q) (fun n => cos (w * n + φ)) (fun n => cos (w * n + φ)) := by
  intro n
  have n1 : 1 / 2 * (sin w / Q) + 1 ≠ 0 := by positivity
  have n2 : sin w + 2 * Q ≠ 0 := by positivity
  simp only [bpfCoefs]
  obtain ⟨s1, s2⟩ := tone_steps w φ n
  rw [s1, s2]
  generalize cos (w * ((n + 1 : ℕ) : ℝ) + φ) = C
  generalize sin (w * ((n + 1 : ℕ) : ℝ) + φ) = S
  field_simp
  ring

/-- The band-reject law at its own frequency. -/
lemma brf_answers {w Q : ℝ} (φ : ℝ) :
    Answers (brfCoefs w Q) (fun n => cos (w * n + φ)) (fun _ => 0) := by
  intro n
  simp only [brfCoefs]
  obtain ⟨s1, s2⟩ := tone_steps w φ n
  rw [s1, s2]
  ring

/-- The peak law at its own frequency. -/
lemma peq_answers {w Q A : ℝ} (hs : 0 < sin w) (hQ : 0 < Q) (hA : 0 < A) (φ : ℝ) :
    Answers (peqCoefs w Q A) (fun n => cos (w * n + φ)) (fun n => A ^ 2 * cos (w * n + φ)) := by
  intro n
  have n1 : 1 / 2 * (sin w / (Q * A)) + 1 ≠ 0 := by positivity
  have n2 : sin w + 2 * (Q * A) ≠ 0 := by positivity
  have n3 : sin w + 2 * Q * A ≠ 0 := by positivity
  simp only [peqCoefs]
  obtain ⟨s1, s2⟩ := tone_steps w φ n
  rw [s1, s2]
  generalize cos (w * ((n + 1 : ℕ) : ℝ) + φ) = C
  generalize sin (w * ((n + 1 : ℕ) : ℝ) + φ) = S
  field_simp
  ring

lemma approach_refl (x : ℕ → ℝ) : Approach x x := by simp [Approach]

lemma Centre.sin_pos {fs : ℝ} {p : Ctl} (h : Centre fs p) : 0 < sin (Filter.angle fs p.cutoff) :=
  sin_pos_of_pos_of_lt_pi (angle_pos h.below.clamp.1)
    (angle_lt h.below.clamp.1 h.below.clamp.2)

/-- C96, low-pass at its cutoff: a sine at the cutoff comes out with its amplitude multiplied
by the resonance in dB for each section, a quarter period late for each section. -/
theorem lowpass_cutoff (m : ℕ) (fs : ℝ) (p : Ctl) (h : Centre fs p) (φ : ℝ) :
    Approach (out (biquad .lpf m fs) p (tone fs p.cutoff φ))
      (fun n => linQ p.q ^ m * tone fs p.cutoff (φ - m * (π / 2)) n) := by
  have hs := h.sin_pos
  have hst := h.below.stable .lpf
  rw [out_biquad]
  simp only [target, max_linQ] at hst ⊢
  unfold tone
  rw [← h.angle]
  have := iterate_approach hst (x := fun n => cos (Filter.angle fs p.cutoff * n + φ))
    (Y := fun i n => linQ p.q ^ i * cos (Filter.angle fs p.cutoff * n + (φ - i * (π / 2))))
    (by simpa using approach_refl _) (fun i => ?_) m
  · exact this
  · have := lpf_answers hs (linQ_pos p.q) (φ - i * (π / 2)) (linQ p.q ^ i)
    have e : ∀ n : ℕ, linQ p.q ^ (i + 1)
          * cos (Filter.angle fs p.cutoff * n + (φ - ((i + 1 : ℕ) : ℝ) * (π / 2)))
        = linQ p.q * linQ p.q ^ i
          * cos (Filter.angle fs p.cutoff * n + (φ - i * (π / 2) - π / 2)) := by
      intro n; rw [pow_succ']; congr 2; push_cast; ring
    intro n
    simp only [e]
    exact this n

/-- C96, high-pass at its cutoff: amplitude multiplied by the resonance, a quarter period early
for each section. -/
theorem highpass_cutoff (m : ℕ) (fs : ℝ) (p : Ctl) (h : Centre fs p) (φ : ℝ) :
    Approach (out (biquad .hpf m fs) p (tone fs p.cutoff φ))
      (fun n => linQ p.q ^ m * tone fs p.cutoff (φ + m * (π / 2)) n) := by
  have hs := h.sin_pos
  have hst := h.below.stable .hpf
  rw [out_biquad]
  simp only [target, max_linQ] at hst ⊢
  unfold tone
  rw [← h.angle]
  have := iterate_approach hst (x := fun n => cos (Filter.angle fs p.cutoff * n + φ))
    (Y := fun i n => linQ p.q ^ i * cos (Filter.angle fs p.cutoff * n + (φ + i * (π / 2))))
    (by simpa using approach_refl _) (fun i => ?_) m
  · exact this
  · have := hpf_answers hs (linQ_pos p.q) (φ + i * (π / 2)) (linQ p.q ^ i)
    have e : ∀ n : ℕ, linQ p.q ^ (i + 1)
          * cos (Filter.angle fs p.cutoff * n + (φ + ((i + 1 : ℕ) : ℝ) * (π / 2)))
        = linQ p.q * linQ p.q ^ i
          * cos (Filter.angle fs p.cutoff * n + (φ + i * (π / 2) + π / 2)) := by
      intro n; rw [pow_succ']; congr 2; push_cast; ring
    intro n
    simp only [e]
    exact this n

/-- C96, band-pass: a sine at the filter's frequency passes unchanged, whatever the resonance
and the number of sections. -/
theorem bandpass_centre (m : ℕ) (fs : ℝ) (p : Ctl) (h : Centre fs p) (φ : ℝ) :
    Approach (out (biquad .bpf m fs) p (tone fs p.cutoff φ)) (tone fs p.cutoff φ) := by
  have hs := h.sin_pos
  have hst := h.below.stable .bpf
  rw [out_biquad]
  simp only [target, max_linQ] at hst ⊢
  unfold tone
  rw [← h.angle]
  exact iterate_approach hst (Y := fun _ n => cos (Filter.angle fs p.cutoff * n + φ))
    (approach_refl _) (fun i => bpf_answers hs (linQ_pos p.q) φ) m

/-- C96, band-reject: a sine at the filter's frequency is removed. -/
theorem notch_centre (fs : ℝ) (p : Ctl) (h : Centre fs p) (φ : ℝ) :
    Tendsto (out (biquad .brf 1 fs) p (tone fs p.cutoff φ)) atTop (𝓝 0) := by
  have hst := h.below.stable .brf
  rw [out_biquad, ← approach_const]
  simp only [target, Function.iterate_one] at hst ⊢
  unfold tone
  rw [← h.angle]
  exact sec_approach hst (approach_refl _) (brf_answers φ)

/-- C96, peak filter and equalizer band: a sine at the centre is changed by exactly the gain in
dB, whatever the resonance or bandwidth. -/
theorem peak_centre (k : Shape) (hk : k = .peq ∨ k = .eqPeak) (fs : ℝ) (p : Ctl)
    (h : Centre fs p) (φ : ℝ) :
    Approach (out (biquad k 1 fs) p (tone fs p.cutoff φ))
      (fun n => decibels p.gain * tone fs p.cutoff φ n) := by
  have hs := h.sin_pos
  have hst := h.below.stable k
  rw [out_biquad]
  unfold tone
  rw [← h.angle, ← ampl_sq]
  rcases hk with rfl | rfl
  · simp only [target, Function.iterate_one, max_linQ] at hst ⊢
    exact sec_approach hst (approach_refl _) (peq_answers hs (linQ_pos _) (ampl_pos _) φ)
  · simp only [target, Function.iterate_one] at hst ⊢
    exact sec_approach hst (approach_refl _) (peq_answers hs (bandQ_pos _ _ _) (ampl_pos _) φ)

/-- Non-vacuity: an equalizer band at 1 kHz with +20 dB multiplies a 1 kHz sine by 10. -/
example (φ : ℝ) : Approach (out (biquad .eqPeak 1 48000) ⟨1000, 1, 20⟩ (tone 48000 1000 φ))
    (fun n => 10 * tone 48000 1000 φ n) := by
  have h := peak_centre .eqPeak (Or.inr rfl) 48000 ⟨1000, 1, 20⟩
    ⟨by norm_num, by norm_num, by norm_num⟩ φ
  have e : decibels 20 = 10 := by norm_num [decibels]
  simpa only [e] using h

/-! ### 0 dB means no change -/

/-- The coefficients of a peak, shelf or equalizer band at 0 dB: the two halves of the filter
are equal. -/
lemma target_flat (k : Shape) (hk : k ∈ [Shape.peq, .lsh, .hsh, .eqPeak, .eqLshelf, .eqHshelf])
    {fs : ℝ} {p : Ctl} (h : Below fs p) (hg : p.gain = 0) :
    (target k fs p).b0 = 1 ∧ (target k fs p).b1 = (target k fs p).a1 ∧
      (target k fs p).b2 = (target k fs p).a2 := by
  have h0 := angle_pos (f := p.cutoff) h.clamp.1
  have hπ := angle_lt h.clamp.1 h.clamp.2
  have hs : 0 < sin (angle fs p.cutoff) := sin_pos_of_pos_of_lt_pi h0 hπ
  have hQ : 0 < max (1 / 1000) (linQ p.q) := lt_max_of_lt_left (by norm_num)
  have hB := bandQ_pos fs p.cutoff p.q
  have hA : ampl p.gain = 1 := by simp [ampl, hg]
  have peak : ∀ Q, 0 < Q → (peqCoefs (angle fs p.cutoff) Q 1).b0 = 1 ∧
      (peqCoefs (angle fs p.cutoff) Q 1).b1 = (peqCoefs (angle fs p.cutoff) Q 1).a1 ∧
      (peqCoefs (angle fs p.cutoff) Q 1).b2 = (peqCoefs (angle fs p.cutoff) Q 1).a2 := by
    intro Q hQ
    have n1 : 1 / 2 * (sin (angle fs p.cutoff) / Q) + 1 ≠ 0 := by positivity
    refine ⟨?_, rfl, ?_⟩
    · simp only [peqCoefs, mul_one, one_mul]; exact div_self n1
    · simp only [peqCoefs, mul_one, one_mul]
  have low : ∀ Q, 0 < Q → (lshCoefs (angle fs p.cutoff) Q 1).b0 = 1 ∧
      (lshCoefs (angle fs p.cutoff) Q 1).b1 = (lshCoefs (angle fs p.cutoff) Q 1).a1 ∧
      (lshCoefs (angle fs p.cutoff) Q 1).b2 = (lshCoefs (angle fs p.cutoff) Q 1).a2 := by
    intro Q hQ
    have n1 := lsh_den h0 hπ hQ one_pos
    refine ⟨?_, ?_, ?_⟩
    · simp only [lshCoefs]; rw [div_eq_one_iff_eq n1]; ring
    · simp only [lshCoefs]; ring
    · simp only [lshCoefs]; ring
  have high : ∀ Q, 0 < Q → (hshCoefs (angle fs p.cutoff) Q 1).b0 = 1 ∧
      (hshCoefs (angle fs p.cutoff) Q 1).b1 = (hshCoefs (angle fs p.cutoff) Q 1).a1 ∧
      (hshCoefs (angle fs p.cutoff) Q 1).b2 = (hshCoefs (angle fs p.cutoff) Q 1).a2 := by
    intro Q hQ
    have n1 := hsh_den h0 hπ hQ one_pos
    refine ⟨?_, ?_, ?_⟩
    · simp only [hshCoefs]; rw [div_eq_one_iff_eq n1]; ring
    · simp only [hshCoefs]; ring
    · simp only [hshCoefs]; ring
  simp only [List.mem_cons, List.not_mem_nil, or_false] at hk
  rcases hk with rfl | rfl | rfl | rfl | rfl | rfl <;> simp only [target, hA]
  · exact peak _ hQ
  · exact low _ hQ
  · exact high _ hQ
  · exact peak _ hB
  · exact low _ hB
  · exact high _ hB

/-- A section whose two halves are equal changes nothing. -/
lemma sec_flat {c : Coefs} (h0 : c.b0 = 1) (h1 : c.b1 = c.a1) (h2 : c.b2 = c.a2) (x : ℕ → ℝ) :
    sec c x = x := by
  have key : ∀ n, sec c x n = x n ∧ sec c x (n + 1) = x (n + 1) := by
    intro n
    induction n with
    | zero =>
      have e0 : sec c x 0 = x 0 := by rw [sec_zero, h0, one_mul]
      refine ⟨e0, ?_⟩
      rw [show 0 + 1 = 1 from rfl, sec_one, e0, h0, h1]; ring
    | succ n ih =>
      refine ⟨ih.2, ?_⟩
      rw [show n + 1 + 1 = n + 2 from rfl, sec_rec, ih.1, ih.2, h0, h1, h2]; ring
  exact funext fun n => (key n).1

/-- C97, the part that holds: a peak filter, shelf or equalizer band at 0 dB passes every sound
through unchanged, sample for sample, while its frequency and bandwidth stand still.
Missing: see `flat_band_violated`. -/
theorem flat_band_partial (k : Shape)
    (hk : k ∈ [Shape.peq, .lsh, .hsh, .eqPeak, .eqLshelf, .eqHshelf]) (fs : ℝ) (p : Ctl)
    (h : Below fs p) (hg : p.gain = 0) (x : ℕ → ℝ) : out (biquad k 1 fs) p x = x := by
  obtain ⟨h0, h1, h2⟩ := target_flat k hk h hg
  rw [out_biquad, Function.iterate_one]
  exact sec_flat h0 h1 h2 x

end Verif.Filter
