import Verif.Filter.Props
import Mathlib.Analysis.SpecialFunctions.Complex.Arg
import Mathlib.Analysis.Real.Pi.Bounds

/-!
# First-order and state-variable filters

C100: the one-pole types (`lpf_1p`, `hpf_1p`, `bpf_1p`, `apf_1p`, `brf_1p`): stability and gains.
C101: the state-variable types (`lpf_2p_sv`, `hpf_2p_sv`, `bpf_2p_sv`, `brf_2p_sv`).

Each of them, while its controls stand still, is one second-order section with certain
coefficients; that is proved first, from the loop bodies of the generated code.
-/

namespace Verif.Filter

open _root_.Filter Topology Real

lemma sec_unique (c : Coefs) (x y : ℕ → ℝ) (h0 : y 0 = c.b0 * x 0)
    (h1 : y 1 = c.b0 * x 1 + c.b1 * x 0 - c.a1 * y 0)
    (h : ∀ n, y (n + 2) = c.b0 * x (n + 2) + c.b1 * x (n + 1) + c.b2 * x n
      - c.a1 * y (n + 1) - c.a2 * y n) : y = sec c x := by
  have key : ∀ n, y n = sec c x n ∧ y (n + 1) = sec c x (n + 1) := by
    intro n
    induction n with
    | zero =>
      have e0 : y 0 = sec c x 0 := by rw [sec_zero, h0]
      refine ⟨e0, ?_⟩
      rw [show 0 + 1 = 1 from rfl, sec_one, ← e0, h1]
    | succ n ih =>
      refine ⟨ih.2, ?_⟩
      rw [show n + 1 + 1 = n + 2 from rfl, sec_rec, ← ih.1, ← ih.2, h]
  exact funext fun n => (key n).1

/-! ### One pole -/

/-- The section a one-pole filter amounts to. -/
noncomputable def poleSec (k : Pole) (a : ℝ) : Coefs :=
  match k with
  | .lpf1p => ⟨1 - a, 0, 0, -a, 0⟩
  | .hpf1p => ⟨(1 + a) / 2, -((1 + a) / 2), 0, -a, 0⟩
  | .bpf1p => ⟨(1 - a) * (1 + a) / 2, -((1 - a) * (1 + a) / 2), 0, -(2 * a), a ^ 2⟩
  | .apf1p => ⟨a, 1, 0, a, 0⟩
  | .brf1p => ⟨1 + a ^ 2, 4 * a, 1 + a ^ 2, 2 * a, a ^ 2⟩

lemma settled_pole (k : Pole) (fs : ℝ) (p : Ctl) :
    settled (onePole k fs) p = poleTarget k fs p := by
  simp [settled, onePole, Filter.mix]

lemma mem_pole (k : Pole) (fs : ℝ) (p : Ctl) (x : ℕ → ℝ) (n : ℕ) :
    mem (onePole k fs) p x (n + 1)
      = (poleRun k (poleTarget k fs p) (mem (onePole k fs) p x n) (x n)).1 := by
  rw [← settled_pole]; rfl

lemma out_pole_step (k : Pole) (fs : ℝ) (p : Ctl) (x : ℕ → ℝ) (n : ℕ) :
    out (onePole k fs) p x n
      = (poleRun k (poleTarget k fs p) (mem (onePole k fs) p x n) (x n)).2 := by
  rw [← settled_pole]; rfl

lemma out_pole (k : Pole) (fs : ℝ) (p : Ctl) (x : ℕ → ℝ) :
    out (onePole k fs) p x = sec (poleSec k (poleTarget k fs p)) x := by
  apply sec_unique
  · simp only [out, mem, settled_pole]
    cases k <;> simp only [onePole, poleRun, poleSec] <;> ring
  · simp only [out, mem, settled_pole]
    cases k <;> simp only [onePole, poleRun, poleSec] <;> ring
  · intro n
    simp only [out, mem, settled_pole]
    cases k <;> simp only [onePole, poleRun, poleSec] <;> ring

lemma exp_pole {fs : ℝ} (h : 0 < fs) (f : ℝ) :
    0 < exp (1 / fs * (0 - 2 * π * clampHz f)) ∧ exp (1 / fs * (0 - 2 * π * clampHz f)) < 1 := by
  refine ⟨exp_pos _, ?_⟩
  rw [exp_lt_one_iff]
  have := clampHz_ge f
  have := pi_pos
  have h1 : 0 < 2 * π * clampHz f := by positivity
  have h2 : 0 < 1 / fs := by positivity
  nlinarith

/-- The settings under which a one-pole filter is in order: any for low-, high- and band-pass;
a cutoff below the sample rate over π for all-pass and band-reject. -/
def PoleOk (k : Pole) (fs : ℝ) (p : Ctl) : Prop :=
  match k with
  | .lpf1p | .hpf1p | .bpf1p => 0 < fs
  | .apf1p | .brf1p => 0 < fs ∧ π * clampHz p.cutoff < fs

lemma PoleOk.lt {k : Pole} {fs : ℝ} {p : Ctl} (h : PoleOk k fs p) :
    -1 < poleTarget k fs p ∧ poleTarget k fs p < 1 := by
  have ap : 0 < fs → π * clampHz p.cutoff < fs → -1 < 2 * π / fs * clampHz p.cutoff + -1 ∧
      2 * π / fs * clampHz p.cutoff + -1 < 1 := by
    intro h0 h1
    have hc := clampHz_ge p.cutoff
    have hp := pi_pos
    have : 0 < 2 * π / fs * clampHz p.cutoff := by positivity
    refine ⟨by linarith, ?_⟩
    have : 2 * π / fs * clampHz p.cutoff < 2 := by
      rw [div_mul_eq_mul_div, div_lt_iff₀ h0]; linarith
    linarith
  cases k with
  | lpf1p => exact ⟨by have := (exp_pole h p.cutoff).1; simp only [poleTarget]; linarith,
      (exp_pole h p.cutoff).2⟩
  | hpf1p => exact ⟨by have := (exp_pole h p.cutoff).1; simp only [poleTarget]; linarith,
      (exp_pole h p.cutoff).2⟩
  | bpf1p => exact ⟨by have := (exp_pole h p.cutoff).1; simp only [poleTarget]; linarith,
      (exp_pole h p.cutoff).2⟩
  | apf1p => exact ap h.1 h.2
  | brf1p => exact ap h.1 h.2

lemma poleSec_stable (k : Pole) {a : ℝ} (h1 : -1 < a) (h2 : a < 1) :
    Stable (poleSec k a).a1 (poleSec k a).a2 := by
  have hsq : a ^ 2 < 1 := by nlinarith
  have hsq0 : 0 ≤ a ^ 2 := sq_nonneg a
  cases k <;> simp only [poleSec, Stable, abs_lt] <;>
    refine ⟨⟨?_, ?_⟩, ?_, ?_⟩ <;> nlinarith

/-- C100, the part that holds: the one-pole filters multiply the peak of a sound by at most a
constant; the all-pass and the band-reject only while the cutoff is below the sample rate
over π.  Missing: see `first_order_stable_violated`. -/
theorem first_order_stable_partial (k : Pole) (fs : ℝ) (p : Ctl) (h : PoleOk k fs p) :
    ∃ G, ∀ (x : ℕ → ℝ) (X : ℝ), (∀ n, |x n| ≤ X) → ∀ n, |out (onePole k fs) p x n| ≤ G * X := by
  obtain ⟨G, -, hG⟩ := sec_gain (poleSec_stable k h.lt.1 h.lt.2)
  exact ⟨G, fun x X hx n => by rw [out_pole]; exact hG x X hx n⟩

/-- Non-vacuity: a one-pole low-pass at 20 kHz works even at 8 kHz, an all-pass at 10 kHz works
at 48 kHz. -/
example : PoleOk .lpf1p 8000 ⟨20000, 0, 0⟩ ∧ PoleOk .apf1p 48000 ⟨10000, 0, 0⟩ := by
  refine ⟨by norm_num [PoleOk], by norm_num [PoleOk], ?_⟩
  simp only [clampHz_id (show (1 : ℝ) ≤ 10000 by norm_num) (by norm_num)]
  nlinarith [pi_lt_d2]

/-- C100: the one-pole low-pass never raises the peak of a sound. -/
theorem lowpass_peak (fs : ℝ) (hfs : 0 < fs) (p : Ctl) (x : ℕ → ℝ) (X : ℝ)
    (hx : ∀ n, |x n| ≤ X) (n : ℕ) : |out (onePole .lpf1p fs) p x n| ≤ X := by
  have h : PoleOk .lpf1p fs p := hfs
  have ha0 : 0 < poleTarget .lpf1p fs p := (exp_pole hfs p.cutoff).1
  have ha1 := h.lt.2
  have hX : 0 ≤ X := (abs_nonneg _).trans (hx 0)
  set a := poleTarget .lpf1p fs p with had
  have hm : ∀ n, |(mem (onePole .lpf1p fs) p x n).r| * (1 - a) ≤ X := by
    intro n
    induction n with
    | zero => simpa [mem, onePole] using hX
    | succ n ih =>
      rw [mem_pole, ← had]
      simp only [poleRun]
      have t := abs_add_le (x n) (a * (mem (onePole .lpf1p fs) p x n).r)
      rw [abs_mul, abs_of_pos ha0] at t
      have := hx n
      nlinarith
  have := hm (n + 1)
  rw [mem_pole, ← had] at this
  rw [out_pole_step, ← had]
  simp only [poleRun] at this ⊢
  rw [abs_mul, abs_of_pos (by linarith : (0 : ℝ) < 1 - a)]
  exact this

/-- The gain for constants (note the 2 for band-reject). -/
def poleDc : Pole → ℝ
  | .lpf1p => 1
  | .hpf1p => 0
  | .bpf1p => 0
  | .apf1p => 1
  | .brf1p => 2

/-- C100, constants: low-pass and all-pass keep them, high-pass and band-pass remove them, the
band-reject *doubles* them. -/
theorem first_order_constant (k : Pole) (fs : ℝ) (p : Ctl) (h : PoleOk k fs p) (x : ℕ → ℝ)
    (c : ℝ) (hx : Tendsto x atTop (𝓝 c)) :
    Tendsto (out (onePole k fs) p x) atTop (𝓝 (poleDc k * c)) := by
  rw [out_pole, ← approach_const]
  refine sec_approach (poleSec_stable k h.lt.1 h.lt.2) (approach_const.mpr hx) (fun n => ?_)
  cases k <;> simp only [poleSec, poleDc] <;> ring

/-- A click through the all-pass: `a`, then `(1 - a²)(-a)ⁿ`. -/
lemma allpass_click (a : ℝ) (n : ℕ) :
    sec (poleSec .apf1p a) click (n + 1) = (1 - a ^ 2) * (-a) ^ n := by
  induction n with
  | zero => rw [show 0 + 1 = 1 from rfl, sec_one, sec_zero]; simp [poleSec, click]; ring
  | succ n ih =>
    rw [show n + 1 + 1 = n + 2 from rfl, sec_rec, ih]
    simp only [poleSec, click]
    have h1 : n + 2 ≠ 0 := by omega
    have h2 : n + 1 ≠ 0 := by omega
    simp only [h1, h2, if_false]
    rw [pow_succ]; ring

lemma pow_unbounded {a b : ℝ} (ha : 1 < |a|) (hb : b ≠ 0) : ¬ ∃ B, ∀ n : ℕ, |b * a ^ n| ≤ B := by
  rintro ⟨B, hB⟩
  have hb' : 0 < |b| := abs_pos.mpr hb
  have hbig := tendsto_pow_atTop_atTop_of_one_lt ha
  obtain ⟨n, hn⟩ := (hbig.eventually_gt_atTop (B / |b|)).exists
  have := hB n
  rw [abs_mul, abs_pow] at this
  rw [div_lt_iff₀ hb'] at hn
  linarith

/-- C100, refuted: an all-pass whose cutoff is above the sample rate over π answers a click with
a sound that grows beyond every bound. -/
theorem allpass_unstable (fs : ℝ) (hfs : 0 < fs) (p : Ctl) (h : fs < π * clampHz p.cutoff) :
    ¬ ∃ B, ∀ n, |out (onePole .apf1p fs) p click n| ≤ B := by
  have ha : 1 < poleTarget .apf1p fs p := by
    simp only [poleTarget]
    have : 2 < 2 * π / fs * clampHz p.cutoff := by
      rw [div_mul_eq_mul_div, lt_div_iff₀ hfs]; linarith
    linarith
  rintro ⟨B, hB⟩
  refine pow_unbounded (a := -poleTarget .apf1p fs p) (b := 1 - poleTarget .apf1p fs p ^ 2)
    ?_ ?_ ⟨B, fun n => ?_⟩
  · rw [abs_neg]; exact lt_of_lt_of_le ha (le_abs_self _)
  · nlinarith
  · rw [← allpass_click, ← out_pole]; exact hB _

/-- C100, refuted for the band-reject as well. -/
theorem bandreject_unstable (fs : ℝ) (hfs : 0 < fs) (p : Ctl) (h : fs < π * clampHz p.cutoff) :
    ¬ ∃ B, ∀ n, |out (onePole .brf1p fs) p click n| ≤ B := by
  have ha : 1 < poleTarget .brf1p fs p := by
    simp only [poleTarget]
    have : 2 < 2 * π / fs * clampHz p.cutoff := by
      rw [div_mul_eq_mul_div, lt_div_iff₀ hfs]; linarith
    linarith
  rw [out_pole]
  apply click_unbounded
  · simp only [poleSec]
    rw [abs_of_pos (by positivity)]; nlinarith
  · rw [click_det]
    simp only [poleSec]
    generalize poleTarget .brf1p fs p = a at ha
    have e : -((1 + a ^ 2 - a ^ 2 * (1 + a ^ 2)) ^ 2
        - (4 * a - 2 * a * (1 + a ^ 2)) * (2 * a * (1 + a ^ 2) - a ^ 2 * (4 * a)))
        = -((1 - a ^ 2) ^ 2) ^ 2 := by ring
    rw [e]
    exact neg_ne_zero.mpr (pow_ne_zero 2 (pow_ne_zero 2 (by nlinarith)))

/-- C100 is violated: at 48 kHz an all-pass and a band-reject at 20 kHz, ordinary settings well
below half the sample rate, turn a single click into an unbounded sound. -/
theorem first_order_stable_violated :
    ∃ (fs : ℝ) (p : Ctl) (x : ℕ → ℝ), 2 * p.cutoff < fs ∧ p.cutoff ≤ 20000 ∧
      (∀ n, |x n| ≤ 1) ∧ (¬ ∃ B, ∀ n, |out (onePole .apf1p fs) p x n| ≤ B) ∧
      ¬ ∃ B, ∀ n, |out (onePole .brf1p fs) p x n| ≤ B := by
  have hc : clampHz 20000 = 20000 := clampHz_id (by norm_num) (by norm_num)
  have h : (48000 : ℝ) < π * clampHz 20000 := by rw [hc]; nlinarith [pi_gt_three]
  refine ⟨48000, ⟨20000, 0, 0⟩, click, by norm_num, by norm_num, fun n => ?_,
    allpass_unstable 48000 (by norm_num) _ h, bandreject_unstable 48000 (by norm_num) _ h⟩
  unfold click; split <;> norm_num

/-- The energy of the first `n` samples. -/
def energy (x : ℕ → ℝ) (n : ℕ) : ℝ := ∑ i ∈ Finset.range n, x i ^ 2

lemma allpass_balance (fs : ℝ) (p : Ctl) (x : ℕ → ℝ) (n : ℕ) :
    energy (out (onePole .apf1p fs) p x) n
      + (1 - poleTarget .apf1p fs p ^ 2) * (mem (onePole .apf1p fs) p x n).r ^ 2
      = energy x n := by
  induction n with
  | zero => simp [energy, mem, onePole]
  | succ n ih =>
    simp only [energy, Finset.sum_range_succ] at ih ⊢
    rw [← ih, mem_pole, out_pole_step]
    simp only [poleRun]
    ring

/-- C100: the all-pass never puts out more energy than it was given… -/
theorem allpass_energy_le (fs : ℝ) (p : Ctl) (h : PoleOk .apf1p fs p) (x : ℕ → ℝ) (n : ℕ) :
    energy (out (onePole .apf1p fs) p x) n ≤ energy x n := by
  have hb := allpass_balance fs p x n
  have h1 := h.lt
  have : 0 ≤ (1 - poleTarget .apf1p fs p ^ 2) * (mem (onePole .apf1p fs) p x n).r ^ 2 :=
    mul_nonneg (by nlinarith) (sq_nonneg _)
  linarith

/-- …and in the end it puts out all of it: for a sound that ends, the energy of the output
tends to the energy of the sound. -/
theorem allpass_energy (fs : ℝ) (p : Ctl) (h : PoleOk .apf1p fs p) (x : ℕ → ℝ) (N : ℕ)
    (hx : ∀ n, N ≤ n → x n = 0) :
    Tendsto (energy (out (onePole .apf1p fs) p x)) atTop (𝓝 (energy x N)) := by
  obtain ⟨h1, h2⟩ := h.lt
  have hr : ∀ k, (mem (onePole .apf1p fs) p x (N + k)).r
      = (-poleTarget .apf1p fs p) ^ k * (mem (onePole .apf1p fs) p x N).r := by
    intro k
    induction k with
    | zero => simp
    | succ k ih =>
      have e : mem (onePole .apf1p fs) p x (N + (k + 1))
        = (poleRun .apf1p (poleTarget .apf1p fs p) (mem (onePole .apf1p fs) p x (N + k))
            (x (N + k))).1 := by
        rw [← settled_pole]; rfl
      rw [e]
      simp only [poleRun]
      rw [ih, hx _ (Nat.le_add_right N k), pow_succ]; ring
  have hr0 : Tendsto (fun n => (mem (onePole .apf1p fs) p x n).r) atTop (𝓝 0) := by
    rw [← tendsto_add_atTop_iff_nat N]
    have t := (tendsto_pow_atTop_nhds_zero_of_abs_lt_one
      (show |(-poleTarget .apf1p fs p)| < 1 by rw [abs_neg, abs_lt]; exact ⟨h1, h2⟩)).mul_const
      ((mem (onePole .apf1p fs) p x N).r)
    rw [zero_mul] at t
    exact t.congr fun k => by rw [Nat.add_comm k N, hr k]
  have hE : ∀ n, N ≤ n → energy x n = energy x N := by
    intro n hn
    obtain ⟨k, rfl⟩ := Nat.exists_eq_add_of_le hn
    simp only [energy, Finset.sum_range_add]
    rw [add_eq_left]
    exact Finset.sum_eq_zero fun i _ => by rw [hx _ (Nat.le_add_right N i)]; simp
  have t := ((hr0.pow 2).const_mul (1 - poleTarget .apf1p fs p ^ 2)).const_sub (energy x N)
  simp only [ne_eq, OfNat.ofNat_ne_zero, not_false_eq_true, zero_pow, mul_zero, sub_zero] at t
  refine t.congr' ?_
  filter_upwards [eventually_ge_atTop N] with n hn
  have := allpass_balance fs p x n
  rw [hE n hn] at this
  linarith

/-- C100: the all-pass keeps the amplitude of every sine, of any frequency; it shifts its phase
by an amount that depends on the frequency only. -/
theorem allpass_tone (fs : ℝ) (p : Ctl) (h : PoleOk .apf1p fs p) (f : ℝ) :
    ∃ ψ, ∀ φ, Approach (out (onePole .apf1p fs) p (tone fs f φ)) (tone fs f (φ + ψ)) := by
  obtain ⟨h1, h2⟩ := h.lt
  set a := poleTarget .apf1p fs p with had
  set w := 2 * π * f / fs with hw
  -- the response on the unit circle
  have hd : 1 + a * cos w ≠ 0 ∨ a * sin w ≠ 0 := by
    by_contra hc
    push Not at hc
    have := sin_sq_add_cos_sq w
    have e : a ^ 2 = 1 := by
      have e1 : a * cos w = -1 := by linarith [hc.1]
      have : a ^ 2 = (a * cos w) ^ 2 + (a * sin w) ^ 2 := by
        linear_combination (-a ^ 2) * this
      rw [this, e1, hc.2]; norm_num
    nlinarith
  have hD : 0 < (1 + a * cos w) ^ 2 + (a * sin w) ^ 2 := by
    rcases hd with hd | hd
    · have := sq_nonneg (a * sin w); positivity
    · have := sq_nonneg (1 + a * cos w); positivity
  set D := (1 + a * cos w) ^ 2 + (a * sin w) ^ 2 with hDd
  have hq := sin_sq_add_cos_sq w
  let X := ((a + cos w) * (1 + a * cos w) + sin w * (a * sin w)) / D
  let Y := ((a + cos w) * (a * sin w) - sin w * (1 + a * cos w)) / D
  have hXY : X ^ 2 + Y ^ 2 = 1 := by
    have hD' : D ≠ 0 := hD.ne'
    have hn : ((a + cos w) * (1 + a * cos w) + sin w * (a * sin w)) ^ 2
        + ((a + cos w) * (a * sin w) - sin w * (1 + a * cos w)) ^ 2 = D ^ 2 := by
      have e1 : (a + cos w) ^ 2 + sin w ^ 2 = D := by
        rw [hDd]; linear_combination (1 - a ^ 2) * hq
      have e2 : ((a + cos w) * (1 + a * cos w) + sin w * (a * sin w)) ^ 2
        + ((a + cos w) * (a * sin w) - sin w * (1 + a * cos w)) ^ 2
        = ((a + cos w) ^ 2 + sin w ^ 2) * ((1 + a * cos w) ^ 2 + (a * sin w) ^ 2) := by ring
      rw [e2, e1, ← hDd]; ring
    have : X ^ 2 + Y ^ 2 = D ^ 2 / D ^ 2 := by
      rw [← hn]; simp only [X, Y]; rw [div_pow, div_pow, ← add_div, hn]
    rw [this, div_self (pow_ne_zero 2 hD')]
  -- an angle with this cosine and sine
  have hnorm : ‖(⟨X, Y⟩ : ℂ)‖ = 1 := by
    rw [Complex.norm_def, Complex.normSq_mk, ← pow_two, ← pow_two, hXY, Real.sqrt_one]
  have hne : (⟨X, Y⟩ : ℂ) ≠ 0 := by
    intro h0; rw [h0] at hnorm; simp at hnorm
  refine ⟨Complex.arg ⟨X, Y⟩, fun φ => ?_⟩
  have hc : cos (Complex.arg ⟨X, Y⟩) = X := by rw [Complex.cos_arg hne, hnorm, div_one]
  have hs : sin (Complex.arg ⟨X, Y⟩) = Y := by rw [Complex.sin_arg, hnorm, div_one]
  generalize Complex.arg ⟨X, Y⟩ = ψ at hc hs
  have r1 : cos ψ * (1 + a * cos w) + sin ψ * (a * sin w) = a + cos w := by
    rw [hc, hs]
    simp only [X, Y]
    field_simp
    rw [hDd]; ring
  have r2 : sin ψ * (1 + a * cos w) - cos ψ * (a * sin w) = -sin w := by
    rw [hc, hs]
    simp only [X, Y]
    field_simp
    rw [hDd]; ring
  rw [out_pole]
  refine sec_approach (poleSec_stable .apf1p h1 h2) (approach_refl _) (fun n => ?_)
  simp only [poleSec, tone, ← had, ← hw]
  have e1 : w * ((n + 1 : ℕ) : ℝ) + φ = (w * ((n + 2 : ℕ) : ℝ) + φ) - w := by push_cast; ring
  have e2 : w * ((n + 2 : ℕ) : ℝ) + (φ + ψ) = (w * ((n + 2 : ℕ) : ℝ) + φ) + ψ := by ring
  have e3 : w * ((n + 1 : ℕ) : ℝ) + (φ + ψ) = ((w * ((n + 2 : ℕ) : ℝ) + φ) + ψ) - w := by
    push_cast; ring
  rw [e1, e2, e3]
  generalize w * ((n + 2 : ℕ) : ℝ) + φ = θ
  rw [cos_sub (θ + ψ), cos_add θ ψ, sin_add θ ψ, cos_sub θ w]
  linear_combination (cos θ) * r1 - (sin θ) * r2

/-! ### State variable -/

/-- The gain `g = tan(π f / fs)`. -/
noncomputable def svG (fs : ℝ) (p : Ctl) : ℝ := tan (π / fs * clampHz p.cutoff)

/-- The section a state-variable filter amounts to. -/
noncomputable def svSec (k : SvKind) (g r : ℝ) : Coefs :=
  let D := g * (r + g) + 1
  let a1 := 2 * (g ^ 2 - 1) / D
  let a2 := (1 - r * g + g ^ 2) / D
  match k with
  | .lpf => ⟨2 * g ^ 2 / D, 0, 2 * g ^ 2 / D, a1, a2⟩
  | .hpf => ⟨1 / D, -2 / D, 1 / D, a1, a2⟩
  | .bpf => ⟨g / D, 0, -g / D, a1, a2⟩
  | .brf => ⟨(2 * g ^ 2 + 1) / D, -2 / D, (2 * g ^ 2 + 1) / D, a1, a2⟩

lemma settled_sv (k : SvKind) (fs : ℝ) (p : Ctl) :
    settled (stateVar k fs) p = ⟨svG fs p, 1 / (svG fs p * (1 / linQ p.q + svG fs p) + 1),
      1 / linQ p.q + svG fs p⟩ := by
  simp [settled, stateVar, svAdapt, Filter.mix, svG]

lemma svRun_sec (k : SvKind) {g r : ℝ} (hD : g * (r + g) + 1 ≠ 0) (x : ℕ → ℝ) (m : ℕ → SvMem)
    (h0 : m 0 = ⟨0, 0⟩)
    (hm : ∀ n, m (n + 1) = (svRun k ⟨g, 1 / (g * (r + g) + 1), r + g⟩ (m n) (x n)).1) :
    (fun n => (svRun k ⟨g, 1 / (g * (r + g) + 1), r + g⟩ (m n) (x n)).2) = sec (svSec k g r) x := by
  apply sec_unique
  · rw [h0]; cases k <;> simp only [svRun, svSec] <;> field_simp <;> ring
  · simp only [hm 0, h0]; cases k <;> simp only [svRun, svSec] <;> field_simp <;> ring
  · intro n
    simp only [hm (n + 1), hm n]
    generalize m n = d
    cases k <;> simp only [svRun, svSec] <;> field_simp <;> ring

lemma sv_pos {fs : ℝ} {p : Ctl} (h : Below fs p) : 0 < svG fs p := by
  obtain ⟨h1, h2⟩ := h.clamp
  have hc := clampHz_ge p.cutoff
  have hp := pi_pos
  apply tan_pos_of_pos_of_lt_pi_div_two
  · positivity
  · rw [div_mul_eq_mul_div, div_lt_iff₀ h1]; nlinarith

lemma out_sv (k : SvKind) {fs : ℝ} {p : Ctl} (h : Below fs p) (x : ℕ → ℝ) :
    out (stateVar k fs) p x = sec (svSec k (svG fs p) (1 / linQ p.q)) x := by
  have hg := sv_pos h
  have hq := linQ_pos p.q
  have hD : svG fs p * (1 / linQ p.q + svG fs p) + 1 ≠ 0 := by positivity
  rw [← svRun_sec k hD x (mem (stateVar k fs) p x) rfl (fun n => by
    rw [← settled_sv k fs p]; rfl)]
  funext n
  simp only [out, settled_sv]
  rfl

lemma svSec_stable (k : SvKind) {g r : ℝ} (hg : 0 < g) (hr : 0 < r) :
    Stable (svSec k g r).a1 (svSec k g r).a2 := by
  have h : Stable (2 * (g ^ 2 - 1) / (g * (r + g) + 1)) ((1 - r * g + g ^ 2) / (g * (r + g) + 1)) := by
    have := mul_pos hg hr
    have := sq_nonneg g
    apply stable_of <;> nlinarith
  cases k <;> exact h

/-- C101: every state-variable filter multiplies the peak of a sound by at most a constant,
while the cutoff is below half the sample rate. -/
theorem state_variable_stable (k : SvKind) (fs : ℝ) (p : Ctl) (h : Below fs p) :
    ∃ G, ∀ (x : ℕ → ℝ) (X : ℝ), (∀ n, |x n| ≤ X) → ∀ n, |out (stateVar k fs) p x n| ≤ G * X := by
  have hr : 0 < 1 / linQ p.q := one_div_pos.mpr (linQ_pos _)
  obtain ⟨G, -, hG⟩ := sec_gain (svSec_stable k (sv_pos h) hr)
  exact ⟨G, fun x X hx n => by rw [out_sv k h]; exact hG x X hx n⟩

/-- The gain for constants a user expects. -/
def svDc : SvKind → ℝ
  | .lpf | .brf => 1
  | .hpf | .bpf => 0

/-- C101, constants: kept by low-pass and band-reject, removed by high-pass and band-pass. -/
theorem state_variable_constant (k : SvKind) (fs : ℝ) (p : Ctl) (h : Below fs p) (x : ℕ → ℝ)
    (c : ℝ) (hx : Tendsto x atTop (𝓝 c)) :
    Tendsto (out (stateVar k fs) p x) atTop (𝓝 (svDc k * c)) := by
  have hg := sv_pos h
  have hr : 0 < 1 / linQ p.q := one_div_pos.mpr (linQ_pos _)
  rw [out_sv k h, ← approach_const]
  refine sec_approach (svSec_stable k hg hr) (approach_const.mpr hx) (fun n => ?_)
  generalize svG fs p = g at hg
  generalize 1 / linQ p.q = r at hr
  have hD : g * (r + g) + 1 ≠ 0 := by positivity
  cases k <;> simp only [svSec, svDc] <;> field_simp <;> ring

/-- The gain of the code at the top of the spectrum. -/
def svTop (g : ℝ) : SvKind → ℝ
  | .lpf => g ^ 2
  | .hpf => 1
  | .bpf => 0
  | .brf => 1 + g ^ 2

/-- C101, top of the spectrum, as the code has it: the high-pass keeps it and the band-pass
removes it, but the low-pass passes `tan²(π f / fs)` of it, and the band-reject raises it by
as much. -/
theorem state_variable_top (k : SvKind) (fs : ℝ) (p : Ctl) (h : Below fs p) (x : ℕ → ℝ) (c : ℝ)
    (hx : Approach x (fun n => c * (-1) ^ n)) :
    Approach (out (stateVar k fs) p x) (fun n => svTop (svG fs p) k * c * (-1) ^ n) := by
  have hg := sv_pos h
  have hr : 0 < 1 / linQ p.q := one_div_pos.mpr (linQ_pos _)
  rw [out_sv k h]
  refine sec_approach (svSec_stable k hg hr) hx (fun n => ?_)
  generalize svG fs p = g at hg
  generalize 1 / linQ p.q = r at hr
  have hD : g * (r + g) + 1 ≠ 0 := by positivity
  have e1 : (-1 : ℝ) ^ (n + 1) = -(-1) ^ n := by rw [pow_succ]; ring
  have e2 : (-1 : ℝ) ^ (n + 2) = (-1) ^ n := by rw [pow_succ, pow_succ]; ring
  simp only [e1, e2]
  cases k <;> simp only [svSec, svTop] <;> field_simp <;> ring

lemma half_angle {g w : ℝ} (hw : g = tan (w / 2)) (hc : cos (w / 2) ≠ 0) :
    cos w * (1 + g ^ 2) = 1 - g ^ 2 ∧ sin w * (1 + g ^ 2) = 2 * g := by
  have hq := sin_sq_add_cos_sq (w / 2)
  have e1 : cos w = 2 * cos (w / 2) ^ 2 - 1 := by
    rw [← cos_two_mul]; congr 1; ring
  have e2 : sin w = 2 * sin (w / 2) * cos (w / 2) := by
    rw [← sin_two_mul]; congr 1; ring
  have e3 : g * cos (w / 2) = sin (w / 2) := by
    rw [hw, tan_eq_sin_div_cos]; field_simp
  have e4 : (1 + g ^ 2) * cos (w / 2) ^ 2 = 1 := by
    have : (1 + g ^ 2) * cos (w / 2) ^ 2 = cos (w / 2) ^ 2 + (g * cos (w / 2)) ^ 2 := by ring
    rw [this, e3]; linarith
  constructor
  · rw [e1]; linear_combination 2 * e4
  · rw [e2, ← e3]; linear_combination (2 * g) * e4

lemma Centre.half {fs : ℝ} {p : Ctl} (h : Centre fs p) :
    svG fs p = tan ((2 * π * p.cutoff / fs) / 2) ∧ cos ((2 * π * p.cutoff / fs) / 2) ≠ 0 := by
  obtain ⟨h1, h2, h3⟩ := h
  have hfs : 0 < fs := by linarith
  have hp := pi_pos
  constructor
  · unfold svG; rw [clampHz_id h1 h2]; congr 1; ring
  · apply (cos_pos_of_mem_Ioo ⟨?_, ?_⟩).ne'
    · have : 0 < 2 * π * p.cutoff / fs / 2 := by positivity
      linarith
    · rw [div_div, div_lt_iff₀ (by positivity)]; nlinarith

/-- The answer of a state-variable filter to a sine at its own frequency: a multiple of the
sine and a multiple of its quarter-period lead. -/
lemma sv_answers (k : SvKind) {g r w : ℝ} (hg : 0 < g) (hr : 0 < r)
    (hc : cos w * (1 + g ^ 2) = 1 - g ^ 2) (hs : sin w * (1 + g ^ 2) = 2 * g) (φ : ℝ) :
    Answers (svSec k g r) (fun n => cos (w * n + φ))
      (fun n => match k with
        | .lpf => 1 / r * (1 - g ^ 2) * cos (w * n + (φ - π / 2))
        | .hpf => 1 / r * cos (w * n + (φ + π / 2))
        | .bpf => 1 / r * cos (w * n + φ)
        | .brf => 1 / r * g ^ 2 * cos (w * n + (φ + π / 2))) := by
  intro n
  have hD : g * (r + g) + 1 ≠ 0 := by positivity
  have hG : (1 + g ^ 2) ≠ 0 := by positivity
  have hc' : cos w = (1 - g ^ 2) / (1 + g ^ 2) := by rw [eq_div_iff hG]; exact hc
  have hs' : sin w = 2 * g / (1 + g ^ 2) := by rw [eq_div_iff hG]; exact hs
  obtain ⟨s1, s2⟩ := tone_steps w φ n
  obtain ⟨s3, s4⟩ := tone_steps_sin w φ n
  cases k <;> simp only [tone_lag, tone_lead, svSec] <;> rw [s1, s2] <;> (try rw [s3, s4]) <;>
    generalize cos (w * ((n + 1 : ℕ) : ℝ) + φ) = C <;>
    generalize sin (w * ((n + 1 : ℕ) : ℝ) + φ) = S <;>
    rw [hc', hs'] <;> field_simp <;> ring

/-- C101, high-pass at its cutoff: amplitude multiplied by the resonance, a quarter period
early, as for the ordinary high-pass. -/
theorem sv_highpass_cutoff (fs : ℝ) (p : Ctl) (h : Centre fs p) (φ : ℝ) :
    Approach (out (stateVar .hpf fs) p (tone fs p.cutoff φ))
      (fun n => linQ p.q * tone fs p.cutoff (φ + π / 2) n) := by
  have hg := sv_pos h.below
  have hr : 0 < 1 / linQ p.q := one_div_pos.mpr (linQ_pos _)
  obtain ⟨c, s⟩ := half_angle h.half.1 h.half.2
  rw [out_sv _ h.below]
  have := sec_approach (svSec_stable .hpf hg hr) (approach_refl _) (sv_answers .hpf hg hr c s φ)
  simp only [one_div_one_div] at this
  exact this

/-- C101, band-pass at its centre: amplitude multiplied by the resonance. -/
theorem sv_bandpass_centre (fs : ℝ) (p : Ctl) (h : Centre fs p) (φ : ℝ) :
    Approach (out (stateVar .bpf fs) p (tone fs p.cutoff φ))
      (fun n => linQ p.q * tone fs p.cutoff φ n) := by
  have hg := sv_pos h.below
  have hr : 0 < 1 / linQ p.q := one_div_pos.mpr (linQ_pos _)
  obtain ⟨c, s⟩ := half_angle h.half.1 h.half.2
  rw [out_sv _ h.below]
  have := sec_approach (svSec_stable .bpf hg hr) (approach_refl _) (sv_answers .bpf hg hr c s φ)
  simp only [one_div_one_div] at this
  exact this

/-- C101, low-pass at its cutoff, as the code has it: the resonance times `1 - tan²(π f / fs)`
instead of the resonance. -/
theorem sv_lowpass_cutoff_partial (fs : ℝ) (p : Ctl) (h : Centre fs p) (φ : ℝ) :
    Approach (out (stateVar .lpf fs) p (tone fs p.cutoff φ))
      (fun n => linQ p.q * (1 - svG fs p ^ 2) * tone fs p.cutoff (φ - π / 2) n) := by
  have hg := sv_pos h.below
  have hr : 0 < 1 / linQ p.q := one_div_pos.mpr (linQ_pos _)
  obtain ⟨c, s⟩ := half_angle h.half.1 h.half.2
  rw [out_sv _ h.below]
  have := sec_approach (svSec_stable .lpf hg hr) (approach_refl _) (sv_answers .lpf hg hr c s φ)
  simp only [one_div_one_div] at this
  exact this

/-- C101, band-reject at its centre, as the code has it: `tan²(π f / fs)` times the resonance is
left, instead of nothing. -/
theorem sv_notch_centre_partial (fs : ℝ) (p : Ctl) (h : Centre fs p) (φ : ℝ) :
    Approach (out (stateVar .brf fs) p (tone fs p.cutoff φ))
      (fun n => linQ p.q * svG fs p ^ 2 * tone fs p.cutoff (φ + π / 2) n) := by
  have hg := sv_pos h.below
  have hr : 0 < 1 / linQ p.q := one_div_pos.mpr (linQ_pos _)
  obtain ⟨c, s⟩ := half_angle h.half.1 h.half.2
  rw [out_sv _ h.below]
  have := sec_approach (svSec_stable .brf hg hr) (approach_refl _) (sv_answers .brf hg hr c s φ)
  simp only [one_div_one_div] at this
  exact this

lemma svG_quarter : svG 48000 ⟨12000, 0, 0⟩ = 1 := by
  unfold svG
  rw [clampHz_id (by norm_num) (by norm_num), show π / 48000 * 12000 = π / 4 by ring,
    tan_pi_div_four]

lemma centre_quarter : Centre 48000 ⟨12000, 0, 0⟩ := ⟨by norm_num, by norm_num, by norm_num⟩

/-- C101 is violated for the band-reject: at 48 kHz and 12 kHz a sine at the filter's frequency
is not removed: it comes out with its amplitude unchanged. -/
theorem sv_notch_violated : ∃ (fs : ℝ) (p : Ctl), Centre fs p ∧
    ¬ Tendsto (out (stateVar .brf fs) p (tone fs p.cutoff 0)) atTop (𝓝 0) ∧
    Approach (out (stateVar .brf fs) p (tone fs p.cutoff 0)) (tone fs p.cutoff (π / 2)) := by
  have ha : Approach (out (stateVar .brf 48000) ⟨12000, 0, 0⟩ (tone 48000 12000 0))
      (tone 48000 12000 (π / 2)) := by
    have := sv_notch_centre_partial 48000 ⟨12000, 0, 0⟩ centre_quarter 0
    simpa [svG_quarter, linQ_zero] using this
  refine ⟨48000, ⟨12000, 0, 0⟩, centre_quarter, fun ht => ?_, ha⟩
  have h0 : Tendsto (tone 48000 12000 (π / 2)) atTop (𝓝 0) := by
    have := ht.sub ha
    simpa using this
  have h1 := h0.comp (tendsto_atTop_mono (fun n : ℕ => (by omega : n ≤ 4 * n + 1)) tendsto_id)
  have e : ∀ n : ℕ, tone 48000 12000 (π / 2) (4 * n + 1) = -1 := by
    intro n
    unfold tone
    have : 2 * π * 12000 / 48000 * ((4 * n + 1 : ℕ) : ℝ) + π / 2 = π + n * (2 * π) := by
      push_cast; ring
    rw [this, cos_add_nat_mul_two_pi, cos_pi]
  have h2 : Tendsto (fun _ : ℕ => (-1 : ℝ)) atTop (𝓝 0) :=
    h1.congr fun n => e n
  have := tendsto_nhds_unique h2 tendsto_const_nhds
  norm_num at this

/-- C101 is violated for the low-pass: at 48 kHz and 12 kHz a sine at the cutoff vanishes, and
the highest frequency, which a low-pass should remove, passes at full amplitude. -/
theorem sv_lowpass_violated : ∃ (fs : ℝ) (p : Ctl), Centre fs p ∧
    Tendsto (out (stateVar .lpf fs) p (tone fs p.cutoff 0)) atTop (𝓝 0) ∧
    Approach (out (stateVar .lpf fs) p (fun n => (-1) ^ n)) (fun n => (-1) ^ n) := by
  refine ⟨48000, ⟨12000, 0, 0⟩, centre_quarter, ?_, ?_⟩
  · have := sv_lowpass_cutoff_partial 48000 ⟨12000, 0, 0⟩ centre_quarter 0
    simp only [svG_quarter] at this
    rw [← approach_const]
    simpa using this
  · have := state_variable_top .lpf 48000 ⟨12000, 0, 0⟩ centre_quarter.below (fun n => (-1) ^ n) 1
      (by simpa using approach_refl _)
    simpa [svTop, svG_quarter] using this

end Verif.Filter
