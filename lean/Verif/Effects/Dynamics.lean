import Verif.Effects.Props
import Mathlib.Analysis.SpecialFunctions.Log.Base
import Mathlib.Analysis.SpecialFunctions.Pow.Continuity
import Mathlib.Analysis.SpecificLimits.Basic

/-!
The detectors of the compressor (C85) and of the gate (C88), the limiter (C89), linked channels (C90). The detectors are
modelled over the real numbers.
-/
namespace Verif.Effects
open Filter Topology

/-! ### Models -/

/-- The sliders of `faustCompressor` and `fConst0`, the duration of a sample (compressor.hxx:54-72, 151-165). -/
structure Comp where
  attack : ℝ
  release : ℝ
  ratio : ℝ
  threshold : ℝ
  period : ℝ

/-- The value the code takes for a time of zero. -/
noncomputable def tiny : ℝ := 11920929 / 10 ^ 14

/-- The coefficient of a smoothing over time `t`: `fSlow3`, `fSlow6`, `fSlow9` (compressor.hxx:121-128, gate.hxx:131, 136, 138). -/
noncomputable def coef (period t : ℝ) : ℝ := if |t| < tiny then 0 else Real.exp (0 - period / t)

/-- The memories `fRec1` (= `fRec2`) and `fRec0`. -/
structure CompState where
  level : ℝ
  gain : ℝ

/-- `max(20 * log10(level) - threshold, 0)`; the logarithm of zero is minus infinity. -/
noncomputable def excess (threshold level : ℝ) : ℝ :=
  if level = 0 then 0 else max (20 * Real.logb 10 level - threshold) 0

/-- One sample of `faustCompressor::compute` (compressor.hxx:116-144): the gain. `0.0500000007f` is taken as 1/20. -/
noncomputable def Comp.step (p : Comp) (s : CompState) (x : ℝ) : CompState × ℝ :=
  let k := if s.level > |x| then coef p.period p.release else coef p.period p.attack
  let level := s.level * k + |x| * (1 - k)
  let k3 := coef p.period (1 / 2 * p.attack)
  let gain := k3 * s.gain + (1 / max tiny p.ratio - 1) * (excess p.threshold level * (1 - k3))
  (⟨level, gain⟩, (10 : ℝ) ^ (1 / 20 * gain))

/-- The sliders of `faustGate`, with `hold` in samples (`iSlow7`; gate.hxx:133). -/
structure GateParams where
  attack : ℝ
  release : ℝ
  threshold : ℝ
  hold : ℤ
  period : ℝ

/-- The memories `fRec3`, `iVec0`, `iRec4`, `fRec0` (= `fRec1`). -/
structure GateState where
  level : ℝ
  over : Bool
  count : ℤ
  gain : ℝ

/-- One sample of `faustGate::compute` (gate.hxx:121-157). -/
noncomputable def GateParams.step (p : GateParams) (s : GateState) (x : ℝ) : GateState × ℝ :=
  let k4 := coef p.period (min p.attack p.release)
  let level := s.level * k4 + |x| * (1 - k4)
  let over := decide (level > (10 : ℝ) ^ (1 / 20 * p.threshold))
  let count := max (p.hold * (if over = false ∧ s.over = true then 1 else 0)) (s.count + -1)
  let target : ℝ := |max (if over then 1 else 0) (if count > 0 then 1 else 0)|
  let k := if s.gain > target then coef p.period p.release else coef p.period p.attack
  let gain := s.gain * k + target * (1 - k)
  (⟨level, over, count, gain⟩, gain)

/-- `instanceClear` (compressor.hxx:81-94, gate.hxx:83-104). -/
noncomputable def CompState.clear : CompState := ⟨0, 0⟩
noncomputable def GateState.clear : GateState := ⟨0, false, 0, 0⟩

/-! ### C85: the compressor -/

/-- The gains of a compressor over a signal from its start. -/
noncomputable def Comp.gains (p : Comp) (xs : List ℝ) : List ℝ := (mapAccum p.step .clear xs).2

/-- The settings the opcodes can give (Defaults.cpp: `compAttack`, `compRelease`, `compRatio`), at any sample rate. -/
structure Comp.Valid (p : Comp) : Prop where
  attack : 0 ≤ p.attack
  release : 0 ≤ p.release
  ratio : 1 ≤ p.ratio
  period : 0 < p.period

/-- The gain in decibels of a compressor of the given threshold and ratio at a steady level above the threshold. -/
noncomputable def staticGain (threshold ratio level : ℝ) : ℝ := (1 / ratio - 1) * (level - threshold)

/-- Decibels to a factor. -/
noncomputable def factor (dB : ℝ) : ℝ := (10 : ℝ) ^ (dB / 20)

theorem tiny_pos : 0 < tiny := by unfold tiny; norm_num

theorem coef_bounds {period t : ℝ} (hp : 0 < period) (ht : 0 ≤ t) : 0 ≤ coef period t ∧ coef period t < 1 := by
  unfold coef
  split
  · norm_num
  · rename_i h
    have : 0 < t := by
      rcases ht.lt_or_eq with h' | h'
      · exact h'
      · subst h'; exact absurd (by simpa using tiny_pos) h
    refine ⟨(Real.exp_pos _).le, ?_⟩
    rw [Real.exp_lt_one_iff]
    have : 0 < period / t := by positivity
    linarith

theorem factor_pos (d : ℝ) : 0 < factor d := Real.rpow_pos_of_pos (by norm_num) _

theorem logb_le {a d : ℝ} (ha : 0 < a) (h : a ≤ factor d) : 20 * Real.logb 10 a ≤ d := by
  have h1 : Real.logb 10 a ≤ Real.logb 10 (factor d) := Real.logb_le_logb_of_le (by norm_num) ha h
  rw [factor, Real.logb_rpow (by norm_num) (by norm_num)] at h1
  linarith

theorem excess_nonneg (t l : ℝ) : 0 ≤ excess t l := by
  unfold excess
  split
  · exact le_rfl
  · exact le_max_right _ _

theorem excess_le {t l d : ℝ} (h0 : 0 ≤ l) (h : l ≤ factor d) (hd : t ≤ d) : excess t l ≤ d - t := by
  unfold excess
  split
  · linarith
  · rename_i hl
    have := logb_le (lt_of_le_of_ne h0 (Ne.symm hl)) h
    exact max_le (by linarith) (by linarith)

theorem ratio_max {p : Comp} (h : p.Valid) : max tiny p.ratio = p.ratio := by
  apply max_eq_right
  have := h.ratio
  have : tiny ≤ 1 := by unfold tiny; norm_num
  linarith

theorem ratio_slope {p : Comp} (h : p.Valid) : -1 < 1 / p.ratio - 1 ∧ 1 / p.ratio - 1 ≤ 0 := by
  have := h.ratio
  have h1 : 0 < 1 / p.ratio := by positivity
  have h2 : 1 / p.ratio ≤ 1 := by rw [div_le_one (by linarith)]; exact this
  constructor <;> linarith

/-- A property of states kept by every sample holds of every later one. -/
theorem mapAccum_forall {σ α β : Type} (step : σ → α → σ × β) (P : σ → Prop) (Q : α → Prop) (R : β → Prop)
    (h : ∀ s x, P s → Q x → P (step s x).1 ∧ R (step s x).2) (xs : List α) (hx : ∀ x ∈ xs, Q x) (s : σ) (hs : P s) :
    P (mapAccum step s xs).1 ∧ ∀ y ∈ (mapAccum step s xs).2, R y := by
  induction xs generalizing s with
  | nil => exact ⟨hs, by simp [mapAccum]⟩
  | cons x xs ih =>
    have h1 := h s x hs (hx x (by simp))
    have h2 := ih (fun y hy => hx y (by simp [hy])) _ h1.1
    refine ⟨h2.1, ?_⟩
    intro y hy
    simp only [mapAccum, List.mem_cons] at hy
    rcases hy with rfl | hy
    · exact h1.2
    · exact h2.2 y hy

theorem comp_inv {p : Comp} (h : p.Valid) {d : ℝ} (hd : p.threshold ≤ d) (s : CompState) (x : ℝ)
    (hs : 0 ≤ s.level ∧ s.level ≤ factor d ∧ staticGain p.threshold p.ratio d ≤ s.gain ∧ s.gain ≤ 0) (hx : |x| ≤ factor d) :
    (0 ≤ (p.step s x).1.level ∧ (p.step s x).1.level ≤ factor d ∧
      staticGain p.threshold p.ratio d ≤ (p.step s x).1.gain ∧ (p.step s x).1.gain ≤ 0) := by
  obtain ⟨s1, s2, s3, s4⟩ := hs
  simp only [Comp.step, ratio_max h]
  have hk : ∃ k : ℝ, (if s.level > |x| then coef p.period p.release else coef p.period p.attack) = k ∧ 0 ≤ k ∧ k < 1 := by
    split
    · exact ⟨_, rfl, coef_bounds h.period h.release⟩
    · exact ⟨_, rfl, coef_bounds h.period h.attack⟩
  obtain ⟨k, hk, k0, k1⟩ := hk
  rw [hk]
  obtain ⟨c0, c1⟩ := coef_bounds h.period (show (0 : ℝ) ≤ 1 / 2 * p.attack by have := h.attack; linarith)
  generalize coef p.period (1 / 2 * p.attack) = c at c0 c1
  have l0 : 0 ≤ s.level * k + |x| * (1 - k) := by
    have := abs_nonneg x
    have := mul_nonneg s1 k0
    have := mul_nonneg (abs_nonneg x) (show 0 ≤ 1 - k by linarith)
    linarith
  have l1 : s.level * k + |x| * (1 - k) ≤ factor d := by
    nlinarith [mul_le_mul_of_nonneg_right s2 k0, mul_le_mul_of_nonneg_right hx (show 0 ≤ 1 - k by linarith)]
  generalize s.level * k + |x| * (1 - k) = l at l0 l1
  have e0 := excess_nonneg p.threshold l
  have e1 := excess_le l0 l1 hd
  obtain ⟨_, r1⟩ := ratio_slope h
  refine ⟨l0, l1, ?_, ?_⟩
  · have : (1 / p.ratio - 1) * (d - p.threshold) ≤ (1 / p.ratio - 1) * excess p.threshold l :=
      mul_le_mul_of_nonpos_left e1 r1
    have h1 := mul_le_mul_of_nonneg_right this (show 0 ≤ 1 - c by linarith)
    have h2 := mul_le_mul_of_nonneg_left s3 c0
    unfold staticGain at h2 ⊢
    nlinarith
  · have h1 := mul_nonneg e0 (show 0 ≤ 1 - c by linarith)
    have h2 := mul_nonpos_of_nonpos_of_nonneg r1 h1
    have h3 := mul_nonpos_of_nonneg_of_nonpos c0 s4
    linarith

theorem static_nonpos {p : Comp} (h : p.Valid) {d : ℝ} (hd : p.threshold ≤ d) : staticGain p.threshold p.ratio d ≤ 0 :=
  mul_nonpos_of_nonpos_of_nonneg (ratio_slope h).2 (by linarith)

/-- C85: for every signal that stays under a level, every gain lies between the one the ratio asks for at this level and 1. So a
compressor never amplifies, and never compresses more than it was told to. -/
theorem compressor_bounds {p : Comp} (h : p.Valid) (xs : List ℝ) {d : ℝ} (hd : p.threshold ≤ d)
    (hx : ∀ x ∈ xs, |x| ≤ factor d) :
    ∀ g ∈ p.gains xs, factor (staticGain p.threshold p.ratio d) ≤ g ∧ g ≤ 1 := by
  refine (mapAccum_forall p.step (fun s => 0 ≤ s.level ∧ s.level ≤ factor d ∧
    staticGain p.threshold p.ratio d ≤ s.gain ∧ s.gain ≤ 0) (fun x => |x| ≤ factor d) _ ?_ xs hx _ ?_).2
  · intro s x hs hq
    have h1 := comp_inv h hd s x hs hq
    refine ⟨h1, ?_⟩
    have e : (p.step s x).2 = (10 : ℝ) ^ (1 / 20 * (p.step s x).1.gain) := rfl
    rw [e]
    constructor
    · unfold factor
      exact Real.rpow_le_rpow_of_exponent_le (by norm_num) (by linarith [h1.2.2.1])
    · apply Real.rpow_le_one_of_one_le_of_nonpos (by norm_num)
      linarith [h1.2.2.2]
  · exact ⟨le_rfl, (factor_pos d).le, static_nonpos h hd, le_rfl⟩

/-- C85: a signal that stays under the threshold is left exactly as it is. -/
theorem compressor_below {p : Comp} (h : p.Valid) (xs : List ℝ) (hx : ∀ x ∈ xs, |x| ≤ factor p.threshold) :
    ∀ g ∈ p.gains xs, g = 1 := by
  intro g hg
  have h1 := compressor_bounds h xs le_rfl hx g hg
  have e : factor (staticGain p.threshold p.ratio p.threshold) = 1 := by simp [staticGain, factor]
  rw [e] at h1
  linarith

/-- C85: a ratio of 1 never changes anything. -/
theorem compressor_ratio_one {p : Comp} (h : p.Valid) (h1 : p.ratio = 1) (xs : List ℝ) : ∀ g ∈ p.gains xs, g = 1 := by
  refine (mapAccum_forall p.step (fun s => s.gain = 0) (fun _ => True) (· = 1) ?_ xs (fun _ _ => trivial) _ rfl).2
  intro s x hs _
  have e : (p.step s x).1.gain = 0 := by
    simp only [Comp.step, ratio_max h, hs]
    simp [h1]
  have e' : (p.step s x).2 = (10 : ℝ) ^ (1 / 20 * (p.step s x).1.gain) := rfl
  exact ⟨e, by rw [e', e]; simp⟩

/-- A value drawn towards a converging one converges to the same. -/
theorem smoothed_tendsto {k : ℝ} (k0 : 0 ≤ k) (k1 : k < 1) (u g : ℕ → ℝ) (a : ℝ) (hu : Tendsto u atTop (𝓝 a))
    (hg : ∀ n, g (n + 1) = k * g n + u n * (1 - k)) : Tendsto g atTop (𝓝 a) := by
  rw [Metric.tendsto_atTop] at hu ⊢
  intro ε hε
  obtain ⟨N, hN⟩ := hu (ε / 2) (by linarith)
  have step : ∀ m, |g (N + m) - a| ≤ k ^ m * |g N - a| + ε / 2 := by
    intro m
    induction m with
    | zero => simp; linarith
    | succ m ih =>
      have e : g (N + (m + 1)) - a = k * (g (N + m) - a) + (u (N + m) - a) * (1 - k) := by
        rw [← add_assoc, hg]; ring
      have h1 : |u (N + m) - a| < ε / 2 := by
        have := hN (N + m) (by omega)
        rwa [Real.dist_eq] at this
      rw [e]
      calc |k * (g (N + m) - a) + (u (N + m) - a) * (1 - k)|
          ≤ |k * (g (N + m) - a)| + |(u (N + m) - a) * (1 - k)| := abs_add_le _ _
        _ = k * |g (N + m) - a| + |u (N + m) - a| * (1 - k) := by
            rw [abs_mul, abs_mul, abs_of_nonneg k0, abs_of_nonneg (show 0 ≤ 1 - k by linarith)]
        _ ≤ k * (k ^ m * |g N - a| + ε / 2) + ε / 2 * (1 - k) := by
            have := mul_le_mul_of_nonneg_left ih k0
            have := mul_le_mul_of_nonneg_right h1.le (show 0 ≤ 1 - k by linarith)
            linarith
        _ = k ^ (m + 1) * |g N - a| + ε / 2 := by ring
  have hk : Tendsto (fun m => k ^ m * |g N - a|) atTop (𝓝 0) := by
    have := (tendsto_pow_atTop_nhds_zero_of_lt_one k0 k1).mul_const (|g N - a|)
    simpa using this
  rw [Metric.tendsto_atTop] at hk
  obtain ⟨M, hM⟩ := hk (ε / 2) (by linarith)
  refine ⟨N + M, fun n hn => ?_⟩
  obtain ⟨m, rfl⟩ : ∃ m, n = N + m := ⟨n - N, by omega⟩
  have h1 := step m
  have h2 := hM m (by omega)
  rw [Real.dist_eq, sub_zero, abs_of_nonneg (by positivity)] at h2
  rw [Real.dist_eq]
  linarith

/-- The state after `n` samples of a constant. -/
noncomputable def Comp.after (p : Comp) (x : ℝ) (n : Nat) : CompState := (mapAccum p.step .clear (List.replicate n x)).1

theorem mapAccum_snoc {σ α β : Type} (step : σ → α → σ × β) (s : σ) (xs : List α) (x : α) :
    mapAccum step s (xs ++ [x]) =
      ((step (mapAccum step s xs).1 x).1, (mapAccum step s xs).2 ++ [(step (mapAccum step s xs).1 x).2]) := by
  induction xs generalizing s with
  | nil => rfl
  | cons y ys ih => simp only [List.cons_append, mapAccum, ih]

theorem after_succ (p : Comp) (x : ℝ) (n : Nat) : p.after x (n + 1) = (p.step (p.after x n) x).1 := by
  simp only [Comp.after]
  rw [List.replicate_succ', mapAccum_snoc]

theorem after_level {p : Comp} (h : p.Valid) (x : ℝ) (n : Nat) :
    (p.after x n).level = |x| * (1 - coef p.period p.attack ^ n) := by
  obtain ⟨a0, a1⟩ := coef_bounds h.period h.attack
  induction n with
  | zero => simp [Comp.after, mapAccum, CompState.clear]
  | succ n ih =>
    have hle : ¬ (p.after x n).level > |x| := by
      rw [ih, not_lt]
      nlinarith [abs_nonneg x, mul_nonneg (abs_nonneg x) (pow_nonneg a0 n)]
    rw [after_succ]
    simp only [Comp.step, if_neg hle]
    rw [ih]
    ring

/-- C85: on a signal of constant level above the threshold the gain tends to the one of the ratio: the output level is
`threshold + (level - threshold) / ratio`. -/
theorem compressor_steady {p : Comp} (h : p.Valid) {x d : ℝ} (hx : |x| = factor d) (hd : p.threshold ≤ d) :
    Tendsto (fun n => (p.gains (List.replicate (n + 1) x)).getLastD 0) atTop
      (𝓝 (factor (p.threshold + (d - p.threshold) / p.ratio) / |x|)) := by
  obtain ⟨a0, a1⟩ := coef_bounds h.period h.attack
  have hx0 : 0 < |x| := hx ▸ factor_pos d
  have hlev : Tendsto (fun n => (p.after x n).level) atTop (𝓝 |x|) := by
    have : Tendsto (fun n => |x| * (1 - coef p.period p.attack ^ n)) atTop (𝓝 (|x| * (1 - 0))) :=
      ((tendsto_const_nhds).sub (tendsto_pow_atTop_nhds_zero_of_lt_one a0 a1)).const_mul _
    simpa [after_level h] using this
  have hlog : Real.logb 10 |x| = d / 20 := by rw [hx, factor, Real.logb_rpow (by norm_num) (by norm_num)]
  have hexc : Tendsto (fun n => excess p.threshold (p.after x n).level) atTop (𝓝 (d - p.threshold)) := by
    have h1 : Tendsto (fun n => max (20 * Real.logb 10 (p.after x n).level - p.threshold) 0) atTop
        (𝓝 (max (20 * Real.logb 10 |x| - p.threshold) 0)) := by
      apply Tendsto.max _ tendsto_const_nhds
      apply Tendsto.sub _ tendsto_const_nhds
      apply Tendsto.const_mul
      exact ((Real.continuousAt_logb hx0.ne').tendsto).comp hlev
    rw [hlog, show 20 * (d / 20) = d by ring, max_eq_left (by linarith)] at h1
    apply h1.congr'
    have : ∀ᶠ n in atTop, 0 < (p.after x n).level := hlev.eventually (lt_mem_nhds hx0)
    filter_upwards [this] with n hn
    rw [excess, if_neg hn.ne']
  have hgain : Tendsto (fun n => (p.after x n).gain) atTop (𝓝 (staticGain p.threshold p.ratio d)) := by
    obtain ⟨c0, c1⟩ := coef_bounds h.period (show (0 : ℝ) ≤ 1 / 2 * p.attack by have := h.attack; linarith)
    apply smoothed_tendsto c0 c1 (fun n => (1 / p.ratio - 1) * excess p.threshold (p.after x (n + 1)).level)
    · exact ((tendsto_add_atTop_iff_nat 1).mpr hexc).const_mul _
    · intro n
      have e : (p.after x (n + 1)).gain = coef p.period (1 / 2 * p.attack) * (p.after x n).gain +
          (1 / max tiny p.ratio - 1) * (excess p.threshold (p.after x (n + 1)).level *
            (1 - coef p.period (1 / 2 * p.attack))) := by
        rw [after_succ]
        rfl
      rw [e, ratio_max h]
      ring
  have hout : ∀ n, (p.gains (List.replicate (n + 1) x)).getLastD 0 = (10 : ℝ) ^ (1 / 20 * (p.after x (n + 1)).gain) := by
    intro n
    rw [Comp.gains, List.replicate_succ', mapAccum_snoc, after_succ]
    simp only [List.getLastD_concat]
    rfl
  have hfin : factor (p.threshold + (d - p.threshold) / p.ratio) / |x| =
      (10 : ℝ) ^ (1 / 20 * staticGain p.threshold p.ratio d) := by
    rw [hx, factor, factor, ← Real.rpow_sub (by norm_num)]
    congr 1
    rw [staticGain]
    ring
  rw [hfin]
  have h2 : Tendsto (fun n => (10 : ℝ) ^ (1 / 20 * (p.after x (n + 1)).gain)) atTop
      (𝓝 ((10 : ℝ) ^ (1 / 20 * staticGain p.threshold p.ratio d))) := by
    exact ((Real.continuousAt_const_rpow (by norm_num)).tendsto).comp (((tendsto_add_atTop_iff_nat 1).mpr hgain).const_mul _)
  exact h2.congr (fun n => (hout n).symm)

/-- A compressor as the opcodes may set it: threshold -20 dB, ratio 4, attack 10 ms, release 100 ms at twice 48 kHz; a full scale
signal ends at -15 dB. -/
noncomputable def someComp : Comp := ⟨1 / 100, 1 / 10, 4, -20, 1 / 96000⟩

theorem someComp_valid : someComp.Valid := by constructor <;> norm_num [someComp]

example : Tendsto (fun n => (someComp.gains (List.replicate (n + 1) 1)).getLastD 0) atTop (𝓝 (factor (-15))) := by
  have h := compressor_steady someComp_valid (x := 1) (d := 0) (by simp [factor]) (by norm_num [someComp])
  have e : someComp.threshold + (0 - someComp.threshold) / someComp.ratio = -15 := by norm_num [someComp]
  rw [e] at h
  simpa using h

example : ∀ g ∈ someComp.gains [1 / 100, -(1 / 10), 1 / 20], g = 1 := by
  apply compressor_below someComp_valid
  have e : factor someComp.threshold = 1 / 10 := by
    have : someComp.threshold / 20 = -1 := by norm_num [someComp]
    rw [factor, this, Real.rpow_neg_one]; norm_num
  rw [e]
  intro x hx
  simp only [List.mem_cons, List.not_mem_nil, or_false] at hx
  rcases hx with rfl | rfl | rfl <;> rw [abs_le] <;> norm_num

/-! ### C88: the gate -/

/-- The gains of a gate over a signal from its start. -/
noncomputable def GateParams.gains (p : GateParams) (xs : List ℝ) : List ℝ := (mapAccum p.step .clear xs).2

/-- The settings the opcodes can give. -/
structure GateParams.Valid (p : GateParams) : Prop where
  attack : 0 ≤ p.attack
  release : 0 ≤ p.release
  hold : 0 ≤ p.hold
  period : 0 < p.period

/-- The target of the gain: 0 or 1. -/
theorem gate_target (a b : Bool) :
    |max (if a then (1 : ℝ) else 0) (if b then 1 else 0)| = if a || b then 1 else 0 := by
  cases a <;> cases b <;> simp

/-- The gain moves from the last one to the target. -/
theorem gate_gain (p : GateParams) (s : GateState) (x : ℝ) :
    (p.step s x).2 = (p.step s x).1.gain ∧
    (p.step s x).1.gain =
      s.gain * (if s.gain > (if (p.step s x).1.over || decide ((p.step s x).1.count > 0) then 1 else 0) then coef p.period p.release
        else coef p.period p.attack) +
      (if (p.step s x).1.over || decide ((p.step s x).1.count > 0) then 1 else 0) *
        (1 - (if s.gain > (if (p.step s x).1.over || decide ((p.step s x).1.count > 0) then 1 else 0) then coef p.period p.release
          else coef p.period p.attack)) := by
  refine ⟨rfl, ?_⟩
  rw [← gate_target]
  simp only [GateParams.step, decide_eq_true_eq]

/-- C88: the gain of a gate lies between 0 and 1, whatever the signal. -/
theorem gate_bounds {p : GateParams} (h : p.Valid) (xs : List ℝ) : ∀ g ∈ p.gains xs, 0 ≤ g ∧ g ≤ 1 := by
  refine (mapAccum_forall p.step (fun s => 0 ≤ s.gain ∧ s.gain ≤ 1) (fun _ => True) (fun g => 0 ≤ g ∧ g ≤ 1) ?_ xs
    (fun _ _ => trivial) _ ⟨le_rfl, zero_le_one⟩).2
  intro s x hs _
  obtain ⟨e1, e2⟩ := gate_gain p s x
  rw [e1, and_self, e2]
  have hk : ∀ c : Prop, [Decidable c] → ∃ k : ℝ, (if c then coef p.period p.release else coef p.period p.attack) = k ∧ 0 ≤ k ∧ k < 1 := by
    intro c _
    split
    · exact ⟨_, rfl, coef_bounds h.period h.release⟩
    · exact ⟨_, rfl, coef_bounds h.period h.attack⟩
  obtain ⟨k, hk, k0, k1⟩ := hk (s.gain > (if (p.step s x).1.over || decide ((p.step s x).1.count > 0) then 1 else 0))
  rw [hk]
  obtain ⟨h0, h1⟩ := hs
  split <;> constructor <;> nlinarith

/-- C88: a signal that never rises above the threshold does not pass at all. -/
theorem gate_shut {p : GateParams} (h : p.Valid) (xs : List ℝ) (hx : ∀ x ∈ xs, |x| ≤ factor p.threshold) :
    ∀ g ∈ p.gains xs, g = 0 := by
  obtain ⟨c0, c1⟩ := coef_bounds h.period (show 0 ≤ min p.attack p.release from le_min h.attack h.release)
  refine (mapAccum_forall p.step (fun s => 0 ≤ s.level ∧ s.level ≤ factor p.threshold ∧ s.over = false ∧ s.count ≤ 0 ∧ s.gain = 0)
    (fun x => |x| ≤ factor p.threshold) (· = 0) ?_ xs hx _ ⟨le_rfl, (factor_pos _).le, rfl, le_rfl, rfl⟩).2
  intro s x ⟨h0, h1, h2, h3, h4⟩ hq
  have l0 : 0 ≤ (p.step s x).1.level := by
    simp only [GateParams.step]
    have := mul_nonneg h0 c0
    have := mul_nonneg (abs_nonneg x) (show 0 ≤ 1 - coef p.period (min p.attack p.release) by linarith)
    linarith
  have l1 : (p.step s x).1.level ≤ factor p.threshold := by
    simp only [GateParams.step]
    nlinarith [mul_le_mul_of_nonneg_right h1 c0,
      mul_le_mul_of_nonneg_right hq (show 0 ≤ 1 - coef p.period (min p.attack p.release) by linarith)]
  have o : (p.step s x).1.over = false := by
    have e : (p.step s x).1.over = decide ((p.step s x).1.level > (10 : ℝ) ^ (1 / 20 * p.threshold)) := rfl
    rw [e, decide_eq_false_iff_not, not_lt]
    have : (1 : ℝ) / 20 * p.threshold = p.threshold / 20 := by ring
    rw [this]
    exact l1
  have c : (p.step s x).1.count ≤ 0 := by
    simp only [GateParams.step, h2]
    apply max_le
    · simp
    · omega
  obtain ⟨e1, e2⟩ := gate_gain p s x
  have g : (p.step s x).1.gain = 0 := by
    rw [e2, o, h4]
    have : ¬ (p.step s x).1.count > 0 := by omega
    simp [this]
  exact ⟨⟨l0, l1, o, c, g⟩, by rw [e1, g]⟩

/-- For how many samples the signal has not been above the threshold, the latest sample first; `none` if it never was. -/
noncomputable def since (threshold : ℝ) : List ℝ → Option ℕ
  | [] => none
  | x :: xs => if |x| > factor threshold then some 0 else (since threshold xs).map (· + 1)

theorem coef_zero (period : ℝ) : coef period 0 = 0 := by simp [coef, tiny_pos]

/-- What the memories of an instant gate hold. -/
def GateInv (p : GateParams) (past : List ℝ) (s : GateState) : Prop :=
  match since p.threshold past with
  | none => s.over = false ∧ s.count = 0
  | some 0 => s.over = true ∧ 0 ≤ s.count ∧ s.count ≤ p.hold
  | some (m + 1) => s.over = false ∧ s.count = max 0 (p.hold - m)

theorem gateInv_step {p : GateParams} (h : p.Valid) (ha : p.attack = 0) (hr : p.release = 0) (past : List ℝ) (s : GateState)
    (hs : GateInv p past s) (x : ℝ) : GateInv p (x :: past) (p.step s x).1 := by
  have hh := h.hold
  have o : (p.step s x).1.over = decide (|x| > factor p.threshold) := by
    simp only [GateParams.step, ha, hr, min_self, coef_zero, mul_zero, sub_zero, mul_one, zero_add, factor]
    congr 3
    ring
  have c : (p.step s x).1.count =
      max (p.hold * (if (p.step s x).1.over = false ∧ s.over = true then 1 else 0)) (s.count + -1) := rfl
  unfold GateInv at hs ⊢
  by_cases hx : |x| > factor p.threshold
  · have ho : (p.step s x).1.over = true := by rw [o]; simpa using hx
    rw [ho] at c
    simp only [since, if_pos hx]
    refine ⟨ho, ?_⟩
    rw [c]
    simp only [Bool.true_eq_false, false_and, if_false, mul_zero]
    rcases hm : since p.threshold past with _ | _ | m <;> rw [hm] at hs <;> simp only at hs <;> omega
  · have ho : (p.step s x).1.over = false := by rw [o]; simpa using hx
    rw [ho] at c
    simp only [since, if_neg hx]
    rcases hm : since p.threshold past with _ | _ | m <;> rw [hm] at hs <;> simp only at hs <;>
      simp only [hs.1, true_and, if_true, mul_one, and_false, Bool.false_eq_true, if_false, mul_zero] at c <;>
      simp only [Option.map_none, Option.map_some] <;> refine ⟨ho, ?_⟩ <;> rw [c]
    · omega
    · simp only [Nat.cast_zero]
      omega
    · push_cast
      omega

theorem gate_open {p : GateParams} (h : p.Valid) (past : List ℝ) (s : GateState) (hs : GateInv p past s) :
    (s.over || decide (s.count > 0)) = true ↔ ∃ m : ℕ, since p.threshold past = some m ∧ (m : ℤ) ≤ p.hold := by
  have hh := h.hold
  unfold GateInv at hs
  rw [Bool.or_eq_true, decide_eq_true_eq]
  rcases hm : since p.threshold past with _ | _ | m <;> rw [hm] at hs <;> simp only at hs
  · simp [hs.1, hs.2]
  · simp [hs.1, hh]
  · simp only [hs.1, hs.2, Bool.false_eq_true, false_or, Option.some.injEq]
    constructor
    · intro hc
      exact ⟨m + 1, rfl, by push_cast; omega⟩
    · rintro ⟨m', rfl, hc⟩
      push_cast at hc
      omega

theorem since_of_loud (t : ℝ) (past : List ℝ) (k : Nat) (y : ℝ) (hy : past[k]? = some y) (hl : factor t < |y|) :
    ∃ m ≤ k, since t past = some m := by
  induction past generalizing k with
  | nil => simp at hy
  | cons x xs ih =>
    unfold since
    split
    · exact ⟨0, by omega, rfl⟩
    · rename_i hx
      match k, hy with
      | 0, hy =>
        simp only [List.getElem?_cons_zero, Option.some.injEq] at hy
        subst hy
        exact absurd hl hx
      | k + 1, hy =>
        obtain ⟨m, hm, hs⟩ := ih k (by simpa using hy)
        exact ⟨m + 1, by omega, by rw [hs]; rfl⟩

theorem loud_of_since (t : ℝ) (past : List ℝ) (m : Nat) (h : since t past = some m) :
    ∃ y, past[m]? = some y ∧ factor t < |y| := by
  induction past generalizing m with
  | nil => simp [since] at h
  | cons x xs ih =>
    unfold since at h
    split at h
    · rename_i hx
      simp only [Option.some.injEq] at h
      subst h
      exact ⟨x, rfl, hx⟩
    · rw [Option.map_eq_some_iff] at h
      obtain ⟨m', hm, rfl⟩ := h
      obtain ⟨y, hy, hl⟩ := ih m' hm
      exact ⟨y, by simpa using hy, hl⟩

/-- C88: a gate without attack nor release passes a sample exactly when the signal was above the threshold at this sample or at
one of the `hold` samples before. -/
theorem gate_hold_exact {p : GateParams} (h : p.Valid) (ha : p.attack = 0) (hr : p.release = 0) (xs : List ℝ) (i : Nat)
    (hi : i < xs.length) :
    ((∃ j, j ≤ i ∧ (i : ℤ) ≤ j + p.hold ∧ ∃ y, xs[j]? = some y ∧ factor p.threshold < |y|) → (p.gains xs)[i]? = some 1) ∧
    ((∀ j, j ≤ i → (i : ℤ) ≤ j + p.hold → ∀ y, xs[j]? = some y → |y| ≤ factor p.threshold) → (p.gains xs)[i]? = some 0) := by
  -- the state after a prefix
  have inv : ∀ ys : List ℝ, GateInv p ys.reverse (mapAccum p.step .clear ys).1 := by
    intro ys
    induction ys using List.reverseRecOn with
    | nil => exact ⟨rfl, rfl⟩
    | append_singleton ys y ih =>
      rw [mapAccum_snoc, List.reverse_append]
      exact gateInv_step h ha hr _ _ ih y
  have hout : (p.gains xs)[i]? = some (p.step (mapAccum p.step .clear (xs.take i)).1 xs[i]).2 := by
    have e : xs = (xs.take i ++ [xs[i]]) ++ xs.drop (i + 1) := by
      rw [List.append_assoc, List.singleton_append, List.getElem_cons_drop, List.take_append_drop]
    rw [GateParams.gains]
    conv_lhs => rw [e]
    rw [mapAccum_append, mapAccum_snoc]
    have hl : (mapAccum p.step .clear (xs.take i)).2.length = i := by
      rw [mapAccum_length, List.length_take]; omega
    rw [List.getElem?_append_left (by simp [hl]), List.getElem?_append_right (by omega), hl]
    simp
  have hinv := gateInv_step h ha hr _ _ (inv (xs.take i)) xs[i]
  obtain ⟨e1, e2⟩ := gate_gain p (mapAccum p.step .clear (xs.take i)).1 xs[i]
  rw [ha, hr, coef_zero, ite_self, mul_zero, sub_zero, mul_one, zero_add] at e2
  have hp := gate_open h _ _ hinv
  rw [hout, e1, e2]
  have past : ∀ k y, (xs[i] :: (xs.take i).reverse)[k]? = some y ↔ k ≤ i ∧ xs[i - k]? = some y := by
    intro k y
    have e : xs[i] :: (xs.take i).reverse = (xs.take (i + 1)).reverse := by
      rw [List.take_succ_eq_append_getElem hi, List.reverse_append]
      rfl
    have hl : (xs.take (i + 1)).length = i + 1 := by rw [List.length_take]; omega
    rw [e]
    by_cases hk : k ≤ i
    · rw [List.getElem?_reverse (by omega), hl, List.getElem?_take, if_pos (by omega)]
      simp only [hk, true_and]
      congr!
    · rw [List.getElem?_eq_none (by rw [List.length_reverse]; omega)]
      simp [hk]
  constructor
  · rintro ⟨j, hj, hj', y, hy, hl⟩
    obtain ⟨m, hm, hs⟩ := since_of_loud p.threshold _ (i - j) y ((past (i - j) y).mpr ⟨by omega, by
      rw [show i - (i - j) = j by omega]; exact hy⟩) hl
    rw [if_pos (hp.mpr ⟨m, hs, by omega⟩)]
  · intro hq
    rw [if_neg]
    intro ht
    obtain ⟨m, hm, hle⟩ := hp.mp ht
    obtain ⟨y, hy, hl⟩ := loud_of_since p.threshold _ m hm
    obtain ⟨hmi, hy⟩ := (past m y).mp hy
    have := hq (i - m) (by omega) (by omega) y hy
    linarith

/-- A gate at 0 dB that holds for one sample. -/
noncomputable def someGate : GateParams := ⟨0, 0, 0, 1, 1 / 96000⟩

example : (someGate.gains [2, 0, 0])[1]? = some 1 ∧ (someGate.gains [2, 0, 0])[2]? = some 0 := by
  have hv : someGate.Valid := by constructor <;> norm_num [someGate]
  have e : factor someGate.threshold = 1 := by simp [factor, someGate]
  refine ⟨(gate_hold_exact hv rfl rfl _ 1 (by simp)).1 ⟨0, by omega, by simp [someGate], 2, rfl, ?_⟩,
    (gate_hold_exact hv rfl rfl _ 2 (by simp)).2 ?_⟩
  · rw [e]; norm_num
  · intro j hj hj' y hy
    rw [e]
    have : j = 1 ∨ j = 2 := by
      have : someGate.hold = 1 := rfl
      omega
    rcases this with rfl | rfl <;> simp at hy <;> subst hy <;> norm_num

example : ∀ g ∈ someGate.gains [1, -1, 1 / 2], g = 0 := by
  apply gate_shut (by constructor <;> norm_num [someGate])
  have e : factor someGate.threshold = 1 := by simp [factor, someGate]
  rw [e]
  intro x hx
  simp only [List.mem_cons, List.not_mem_nil, or_false] at hx
  rcases hx with rfl | rfl | rfl <;> norm_num [abs_le]

/-! ### C89: the limiter -/

section Limiter

/-- The output of one channel of the limiter over a signal from its start. -/
def limited {K : Type} [Field K] [LinearOrder K] (k1 k3 k5 : K) (xs : List K) : List K :=
  (mapAccum (limitStep k1 k3 k5) ⟨0, 0, 0⟩ xs).2

variable {k1 k3 k5 : ℝ}

theorem limit_inv (h1 : 0 ≤ k1 ∧ k1 ≤ 1) (h3 : 0 ≤ k3 ∧ k3 ≤ 1) (h5 : 0 ≤ k5 ∧ k5 ≤ 1) (s : LimitCore ℝ) (x : ℝ)
    (hs : 0 ≤ s.peak ∧ 0 ≤ s.smooth ∧ 0 ≤ s.gain ∧ s.gain ≤ 1) :
    0 ≤ (limitStep k1 k3 k5 s x).1.peak ∧ 0 ≤ (limitStep k1 k3 k5 s x).1.smooth ∧
      0 ≤ (limitStep k1 k3 k5 s x).1.gain ∧ (limitStep k1 k3 k5 s x).1.gain ≤ 1 := by
  obtain ⟨s1, s2, s3, s4⟩ := hs
  simp only [limitStep]
  have p0 : 0 ≤ max |x| (k5 * s.peak + (1 - k5) * |x|) := le_max_of_le_left (abs_nonneg x)
  generalize max |x| (k5 * s.peak + (1 - k5) * |x|) = p at p0
  have m0 : 0 ≤ k3 * s.smooth + (1 - k3) * p := by
    have := mul_nonneg h3.1 s2
    have := mul_nonneg (show 0 ≤ 1 - k3 by linarith) p0
    linarith
  generalize k3 * s.smooth + (1 - k3) * p = m at m0
  have t : 0 ≤ (if m > 1 then 1 / m else 1) ∧ (if m > 1 then 1 / m else 1) ≤ 1 := by
    split
    · rename_i hm
      exact ⟨by positivity, by rw [div_le_one (by linarith)]; linarith⟩
    · norm_num
  generalize (if m > 1 then 1 / m else 1) = t' at t
  refine ⟨p0, m0, ?_, ?_⟩ <;> nlinarith

/-- C89: the limiter never amplifies nor changes the sign of a sample. -/
theorem limiter_never_amplifies (h1 : 0 ≤ k1 ∧ k1 ≤ 1) (h3 : 0 ≤ k3 ∧ k3 ≤ 1) (h5 : 0 ≤ k5 ∧ k5 ≤ 1) (xs : List ℝ) :
    List.Forall₂ (fun x y => |y| ≤ |x| ∧ 0 ≤ x * y) xs (limited k1 k3 k5 xs) := by
  have main : ∀ (s : LimitCore ℝ), 0 ≤ s.peak ∧ 0 ≤ s.smooth ∧ 0 ≤ s.gain ∧ s.gain ≤ 1 →
      List.Forall₂ (fun x y => |y| ≤ |x| ∧ 0 ≤ x * y) xs (mapAccum (limitStep k1 k3 k5) s xs).2 := by
    induction xs with
    | nil => intro s _; exact .nil
    | cons x xs ih =>
      intro s hs
      have h := limit_inv h1 h3 h5 s x hs
      refine .cons ?_ (ih _ h)
      have e : (limitStep k1 k3 k5 s x).2 = x * (limitStep k1 k3 k5 s x).1.gain := rfl
      obtain ⟨_, _, g0, g1⟩ := h
      rw [e, abs_mul, abs_of_nonneg g0]
      constructor
      · nlinarith [abs_nonneg x]
      · nlinarith [mul_nonneg (mul_self_nonneg x) g0]
  exact main _ ⟨le_rfl, le_rfl, le_rfl, zero_le_one⟩

/-- C89 (partial): a signal within full scale is faded in: sample `i` is multiplied by `1 - k1 ^ (i + 1)`, which tends to 1. Missing:
it should be left alone from the start; `limiter_quiet_violated`. -/
theorem limiter_quiet_partial (h3 : 0 ≤ k3 ∧ k3 ≤ 1) (h5 : 0 ≤ k5 ∧ k5 ≤ 1) (xs : List ℝ) (hx : ∀ x ∈ xs, |x| ≤ 1) :
    limited k1 k3 k5 xs = xs.zipWith (fun x i => x * (1 - k1 ^ (i + 1))) (List.range xs.length) := by
  have main : ∀ (xs : List ℝ) (n : Nat) (s : LimitCore ℝ), (∀ x ∈ xs, |x| ≤ 1) → 0 ≤ s.peak ∧ s.peak ≤ 1 → 0 ≤ s.smooth ∧ s.smooth ≤ 1 →
      s.gain = 1 - k1 ^ n →
      (mapAccum (limitStep k1 k3 k5) s xs).2 = xs.zipWith (fun x i => x * (1 - k1 ^ (i + 1))) (List.range' n xs.length) := by
    intro xs
    induction xs with
    | nil => intro n s _ _ _ _; rfl
    | cons x xs ih =>
      intro n s hx hp hm hg
      have hx1 := hx x (by simp)
      have p0 : 0 ≤ (limitStep k1 k3 k5 s x).1.peak := le_max_of_le_left (abs_nonneg x)
      have p1 : (limitStep k1 k3 k5 s x).1.peak ≤ 1 := by
        apply max_le hx1
        nlinarith [mul_le_mul_of_nonneg_left hp.2 h5.1, mul_le_mul_of_nonneg_left hx1 (show 0 ≤ 1 - k5 by linarith)]
      have em : (limitStep k1 k3 k5 s x).1.smooth = k3 * s.smooth + (1 - k3) * (limitStep k1 k3 k5 s x).1.peak := rfl
      have m0 : 0 ≤ (limitStep k1 k3 k5 s x).1.smooth := by
        rw [em]
        have := mul_nonneg h3.1 hm.1
        have := mul_nonneg (show 0 ≤ 1 - k3 by linarith) p0
        linarith
      have m1 : (limitStep k1 k3 k5 s x).1.smooth ≤ 1 := by
        rw [em]
        nlinarith [mul_le_mul_of_nonneg_left hm.2 h3.1, mul_le_mul_of_nonneg_left p1 (show 0 ≤ 1 - k3 by linarith)]
      have eg : (limitStep k1 k3 k5 s x).1.gain = 1 - k1 ^ (n + 1) := by
        have : (limitStep k1 k3 k5 s x).1.gain = k1 * s.gain + (1 - k1) *
            (if (limitStep k1 k3 k5 s x).1.smooth > 1 then 1 / (limitStep k1 k3 k5 s x).1.smooth else 1) := rfl
        rw [this, if_neg (not_lt.mpr m1), hg]
        ring
      have ey : (limitStep k1 k3 k5 s x).2 = x * (limitStep k1 k3 k5 s x).1.gain := rfl
      simp only [mapAccum, List.length_cons, List.range'_succ, List.zipWith_cons_cons]
      rw [ih (n + 1) _ (fun y hy => hx y (by simp [hy])) ⟨p0, p1⟩ ⟨m0, m1⟩ eg, ey, eg]
  rw [limited, main xs 0 _ hx ⟨le_rfl, zero_le_one⟩ ⟨le_rfl, zero_le_one⟩ (by simp), List.range_eq_range']

/-- C89 is violated: the first samples after the start are attenuated however quiet they are. -/
theorem limiter_quiet_violated (h1 : 0 < k1) (h3 : 0 ≤ k3 ∧ k3 ≤ 1) (h5 : 0 ≤ k5 ∧ k5 ≤ 1) :
    ∃ x : ℝ, |x| ≤ 1 ∧ limited k1 k3 k5 [x] ≠ [x] := by
  refine ⟨1, by norm_num, ?_⟩
  rw [limiter_quiet_partial h3 h5 [1] (by simp)]
  simp only [List.length_singleton, List.range_one, List.zipWith_cons_cons, List.zipWith_nil_left, ne_eq, List.cons.injEq, and_true]
  intro h
  norm_num at h
  linarith

/-- C89 is violated: there is no ceiling; some signal comes out over any bound, whatever the (nonzero) attack. -/
theorem limiter_ceiling_violated (h1 : 0 < k1 ∧ k1 < 1) (h3 : 0 ≤ k3 ∧ k3 ≤ 1) (h5 : 0 ≤ k5 ∧ k5 ≤ 1) (bound : ℝ) :
    ∃ xs, ∃ y ∈ limited k1 k3 k5 xs, bound < y := by
  have hq : 0 < k1 * (1 - k1) := mul_pos h1.1 (by linarith)
  obtain ⟨x, hx0, hx⟩ : ∃ x : ℝ, 0 < x ∧ bound < x * (k1 * (1 - k1)) := by
    refine ⟨(|bound| + 1) / (k1 * (1 - k1)), by positivity, ?_⟩
    rw [div_mul_cancel₀ _ hq.ne']
    have := le_abs_self bound
    linarith
  have hg : (limitStep k1 k3 k5 ⟨0, 0, 0⟩ 1).1.gain = 1 - k1 := by
    have hs : ¬ (limitStep k1 k3 k5 ⟨0, 0, 0⟩ 1).1.smooth > 1 := by
      simp only [limitStep, abs_one, mul_zero, zero_add, mul_one]
      rw [max_eq_left (by linarith), not_lt]
      linarith
    have e : (limitStep k1 k3 k5 ⟨0, 0, 0⟩ 1).1.gain = k1 * 0 + (1 - k1) *
        (if (limitStep k1 k3 k5 ⟨0, 0, 0⟩ 1).1.smooth > 1 then 1 / (limitStep k1 k3 k5 ⟨0, 0, 0⟩ 1).1.smooth else 1) := rfl
    rw [e, if_neg hs]
    ring
  have h0 := limit_inv (k1 := k1) ⟨h1.1.le, h1.2.le⟩ h3 h5 ⟨0, 0, 0⟩ 1 ⟨le_rfl, le_rfl, le_rfl, zero_le_one⟩
  generalize hs1 : (limitStep k1 k3 k5 ⟨0, 0, 0⟩ 1).1 = s1 at hg h0
  refine ⟨[1, x], (limitStep k1 k3 k5 s1 x).2, ?_, ?_⟩
  · simp only [limited, mapAccum, hs1]
    simp
  · have h2 := limit_inv (k1 := 0) ⟨le_rfl, zero_le_one⟩ h3 h5 s1 x h0
    have e : (limitStep k1 k3 k5 s1 x).2 = x * (k1 * s1.gain + (1 - k1) * (limitStep 0 k3 k5 s1 x).1.gain) := by
      simp [limitStep]
    rw [e, hg]
    have := mul_nonneg (show 0 ≤ 1 - k1 by linarith) h2.2.2.1
    nlinarith [mul_nonneg hx0.le this]

/-- C89 (partial): a steady signal above full scale ends at full scale. Missing: until then it is louder,
`limiter_ceiling_violated`. -/
theorem limiter_steady_partial (h1 : 0 ≤ k1 ∧ k1 < 1) (h3 : 0 ≤ k3 ∧ k3 < 1) (h5 : 0 ≤ k5 ∧ k5 ≤ 1) {x : ℝ} (hx : 1 < x) :
    Tendsto (fun n => (limited k1 k3 k5 (List.replicate (n + 1) x)).getLastD 0) atTop (𝓝 1) := by
  let st : ℕ → LimitCore ℝ := fun n => (mapAccum (limitStep k1 k3 k5) ⟨0, 0, 0⟩ (List.replicate n x)).1
  have hst : ∀ n, st (n + 1) = (limitStep k1 k3 k5 (st n) x).1 := by
    intro n
    show (mapAccum _ _ _).1 = _
    rw [List.replicate_succ', mapAccum_snoc]
  have ha : |x| = x := abs_of_pos (by linarith)
  have hp : ∀ n, (st n).peak ≤ x ∧ (st (n + 1)).peak = x := by
    intro n
    have step : ∀ s : LimitCore ℝ, s.peak ≤ x → (limitStep k1 k3 k5 s x).1.peak = x := by
      intro s hs
      simp only [limitStep, ha]
      apply max_eq_left
      nlinarith [mul_le_mul_of_nonneg_left hs h5.1]
    induction n with
    | zero =>
      have : (st 0).peak ≤ x := by
        show (0 : ℝ) ≤ x
        linarith
      exact ⟨this, by rw [hst]; exact step _ this⟩
    | succ n ih =>
      have : (st (n + 1)).peak ≤ x := ih.2.le
      exact ⟨this, by rw [hst]; exact step _ this⟩
  have hm : Tendsto (fun n => (st n).smooth) atTop (𝓝 x) := by
    apply smoothed_tendsto h3.1 h3.2 (fun _ => x) _ x tendsto_const_nhds
    intro n
    have e : (st (n + 1)).smooth = k3 * (st n).smooth + (1 - k3) * (st (n + 1)).peak := by rw [hst]; rfl
    rw [e, (hp n).2]
    ring
  have ht : Tendsto (fun n => if (st n).smooth > 1 then 1 / (st n).smooth else 1) atTop (𝓝 (1 / x)) := by
    have h := hm.inv₀ (by linarith : x ≠ 0)
    simp only [← one_div] at h
    apply h.congr'
    filter_upwards [hm.eventually (lt_mem_nhds hx)] with n hn
    rw [if_pos hn]
  have hg : Tendsto (fun n => (st n).gain) atTop (𝓝 (1 / x)) := by
    apply smoothed_tendsto h1.1 h1.2 (fun n => if (st (n + 1)).smooth > 1 then 1 / (st (n + 1)).smooth else 1) _ _
      ((tendsto_add_atTop_iff_nat 1).mpr ht)
    intro n
    have e : (st (n + 1)).gain = k1 * (st n).gain + (1 - k1) *
        (if (st (n + 1)).smooth > 1 then 1 / (st (n + 1)).smooth else 1) := by rw [hst]; rfl
    rw [e]
    ring
  have ho : ∀ n, (limited k1 k3 k5 (List.replicate (n + 1) x)).getLastD 0 = x * (st (n + 1)).gain := by
    intro n
    rw [limited, List.replicate_succ', mapAccum_snoc, hst]
    simp only [List.getLastD_concat]
    rfl
  have h := ((tendsto_add_atTop_iff_nat 1).mpr hg).const_mul x
  rw [mul_one_div_cancel (by linarith : x ≠ 0)] at h
  exact h.congr fun n => (ho n).symm

/-- Coefficients as those of the code lie between 0 and 1. -/
example : limited (1 / 2 : ℝ) (1 / 2) (1 / 2) [1, -1] = [1 / 2, -(3 / 4)] := by
  rw [limiter_quiet_partial (by norm_num) (by norm_num) [1, -1] (by simp)]
  simp [List.range_succ]
  norm_num

end Limiter

/-! ### C90: linked channels -/

/-- What a linked detector should be given: the sum of the levels of the channels at the same instant. -/
def linkedInput (left right : List ℚ) : List ℚ := left.zipWith (fun l r => |l| + |r|) right

/-- The gains of linked channels: one detector for both. -/
def linkedGains {σ : Type} (core : σ → ℚ → σ × ℚ) (s : σ) (left right : List ℚ) : List ℚ × List ℚ :=
  ((mapAccum core s (linkedInput left right)).2, (mapAccum core s (linkedInput left right)).2)

/-- C90 (partial): the gains are those of linked channels when the right channel has a constant level. Missing: any other signal,
see `linked_detector_violated`. -/
theorem linked_detector_partial {σ : Type} (core : σ → ℚ → σ × ℚ) (s s' : σ) (left right : List ℚ) (level : ℚ)
    (hl : left.length = right.length) (h2 : 2 ≤ right.length) (hr : ∀ x ∈ right, |x| = level) :
    (gains core true s s' left right).map (fun g => g.2) = some (linkedGains core s left right) := by
  have he : ∀ (left right : List ℚ), left.length = right.length → (∀ x ∈ right, |x| = level) →
      left.map (fun x => |x| + level) = linkedInput left right := by
    intro left
    induction left with
    | nil => intro right _ _; cases right <;> rfl
    | cons l ls ih =>
      intro right hlen h
      match right, hlen, h with
      | r :: rs, hlen, h =>
        have h1 := h r (by simp)
        simp only [List.map_cons, linkedInput, List.zipWith_cons_cons, h1]
        rw [ih rs (by simpa using hlen) (fun x hx => h x (by simp [hx]))]
        rfl
  match left, right, hl, h2, hr with
  | [], _, hl, h2, _ => simp at hl; omega
  | l :: ls, r0 :: r1 :: rs, hl, _, hr =>
    have h1 := hr r1 (by simp)
    simp only [gains, if_true, List.getElem?_cons_succ, List.getElem?_cons_zero, linkedGains, Option.map_some, h1]
    rw [he _ _ hl hr]

/-- C90: without linking each channel follows its own level. -/
theorem unlinked_detectors {σ : Type} (core : σ → ℚ → σ × ℚ) (s s' : σ) (left right : List ℚ) :
    (gains core false s s' left right).map (fun g => g.2) = some ((mapAccum core s left).2, (mapAccum core s' right).2) := rfl

/-- C90 is violated: a linked gate stays shut while the right channel is loud, and stays open after a short sound of it. -/
theorem linked_detector_violated :
    (gains openGate true () () [0, 0, 0, 0] [0, 0, 60, 60]).map (fun g => g.2) = some ([0, 0, 0, 0], [0, 0, 0, 0]) ∧
    linkedGains openGate () [0, 0, 0, 0] [0, 0, 60, 60] = ([0, 0, 1, 1], [0, 0, 1, 1]) ∧
    (gains openGate true () () [0, 0, 0, 0] [0, 60, 0, 0]).map (fun g => g.2) = some ([1, 1, 1, 1], [1, 1, 1, 1]) ∧
    linkedGains openGate () [0, 0, 0, 0] [0, 60, 0, 0] = ([0, 1, 0, 0], [0, 1, 0, 0]) := by
  decide +kernel

example : (gains openGate true () () [0, 3, 0] [1, -1, 1]).map (fun g => g.2) = some (linkedGains openGate () [0, 3, 0] [1, -1, 1]) :=
  linked_detector_partial openGate () () _ _ 1 rfl (by simp) (by simp)

end Verif.Effects
