import Verif.Strings.Model
import Verif.Filter.Recur
import Mathlib.Analysis.SpecialFunctions.Trigonometric.Arctan
import Mathlib.Algebra.BigOperators.Intervals
import Mathlib.Tactic.Ring
import Mathlib.Tactic.FieldSimp
import Mathlib.Tactic.Linarith

/-!
# Lemmas on strings

Arithmetic with values that may not be numbers, the coefficients of a string in closed form, its
recursions, and the sum over packs.
-/

namespace Verif.Strings

open Val _root_.Filter Topology

namespace Val

@[simp] theorem fin_add (a b : ℝ) : fin a + fin b = fin (a + b) := rfl
@[simp] theorem fin_sub (a b : ℝ) : fin a - fin b = fin (a - b) := rfl
@[simp] theorem fin_mul (a b : ℝ) : fin a * fin b = fin (a * b) := rfl
theorem fin_div {b : ℝ} (h : b ≠ 0) (a : ℝ) : fin a / fin b = fin (a / b) := by
  show (if b = 0 then nan else fin (a / b)) = _
  rw [if_neg h]
theorem div_zero (a : ℝ) : fin a / fin 0 = nan := by
  show (if (0 : ℝ) = 0 then nan else fin (a / 0)) = _
  rw [if_pos rfl]
@[simp] theorem nan_add (a : Val) : nan + a = nan := rfl
@[simp] theorem add_nan (a : Val) : a + nan = nan := by cases a <;> rfl
@[simp] theorem nan_sub (a : Val) : nan - a = nan := rfl
@[simp] theorem sub_nan (a : Val) : a - nan = nan := by cases a <;> rfl
@[simp] theorem nan_mul (a : Val) : nan * a = nan := rfl
@[simp] theorem mul_nan (a : Val) : a * nan = nan := by cases a <;> rfl
@[simp] theorem nan_div (a : Val) : nan / a = nan := rfl
@[simp] theorem div_nan (a : Val) : a / nan = nan := by cases a <;> rfl

noncomputable instance : AddCommMonoid Val where
  add_assoc a b c := by cases a <;> cases b <;> cases c <;> simp [add_assoc]
  zero_add a := by
    cases a with
    | fin r => show fin 0 + fin r = fin r; simp
    | nan => rfl
  add_zero a := by
    cases a with
    | fin r => show fin r + fin 0 = fin r; simp
    | nan => rfl
  add_comm a b := by cases a <;> cases b <;> simp [add_comm]
  nsmul := nsmulRec

theorem zero_def : (0 : Val) = fin 0 := rfl

theorem sum_fin {ι : Type} (s : Finset ι) (f : ι → ℝ) :
    ∑ i ∈ s, fin (f i) = fin (∑ i ∈ s, f i) := by
  classical
  induction s using Finset.induction_on with
  | empty => rfl
  | insert a s ha ih => rw [Finset.sum_insert ha, Finset.sum_insert ha, ih, fin_add]

theorem sum_nan {ι : Type} (s : Finset ι) (f : ι → Val) (i : ι) (hi : i ∈ s) (h : f i = nan) :
    ∑ i ∈ s, f i = nan := by
  classical
  rw [← Finset.add_sum_erase s f hi, h, nan_add]

end Val

/-! ## One string -/

/-- Both edges of the band lie between 0 and half the sample rate, and the feedback is less than 1. -/
structure Audible (fs : ℝ) (p : Par) : Prop where
  band : 0 < p.bandwidth
  low : 0 < p.pitch - p.bandwidth / 2
  high : p.pitch + p.bandwidth / 2 < fs / 2
  feedback : 0 ≤ p.feedback ∧ p.feedback < 1

theorem Audible.rate {fs : ℝ} {p : Par} (h : Audible fs p) : 0 < fs := by
  have := h.band; have := h.low; have := h.high; linarith

/-- The two tangents from which the band-pass is made. -/
noncomputable def t1 (fs : ℝ) (p : Par) : ℝ := Real.tan (Real.pi / fs * (1 / 2 * p.bandwidth + p.pitch))
noncomputable def t2 (fs : ℝ) (p : Par) : ℝ := Real.tan (Real.pi / fs * (p.pitch - 1 / 2 * p.bandwidth))

theorem Audible.tans {fs : ℝ} {p : Par} (h : Audible fs p) : 0 < t2 fs p ∧ t2 fs p < t1 fs p := by
  have hfs := h.rate
  have hb := h.band; have hl := h.low; have hh := h.high
  have hpi := Real.pi_pos
  have e : ∀ u : ℝ, u < fs / 2 → Real.pi / fs * u < Real.pi / 2 := by
    intro u hu
    have : Real.pi / fs * u < Real.pi / fs * (fs / 2) :=
      mul_lt_mul_of_pos_left hu (by positivity)
    have h2 : Real.pi / fs * (fs / 2) = Real.pi / 2 := by field_simp
    linarith
  have hpos : 0 < Real.pi / fs * (p.pitch - 1 / 2 * p.bandwidth) := by
    apply mul_pos (by positivity); linarith
  refine ⟨Real.tan_pos_of_pos_of_lt_pi_div_two hpos (e _ (by linarith)), ?_⟩
  apply Real.tan_lt_tan_of_lt_of_lt_pi_div_two
  · linarith
  · exact e _ (by linarith)
  · apply mul_lt_mul_of_pos_left _ (by positivity); linarith

theorem Audible.sin_pos {fs : ℝ} {p : Par} (h : Audible fs p) :
    0 < Real.sin (2 * Real.pi / fs * p.pitch) := by
  have hfs := h.rate
  have hb := h.band; have hl := h.low; have hh := h.high
  have hpi := Real.pi_pos
  apply Real.sin_pos_of_pos_of_lt_pi
  · apply mul_pos (by positivity); linarith
  · have : 2 * Real.pi / fs * p.pitch < 2 * Real.pi / fs * (fs / 2) :=
      mul_lt_mul_of_pos_left (by linarith) (by positivity)
    have h2 : 2 * Real.pi / fs * (fs / 2) = Real.pi := by field_simp
    linarith

/-- The denominator of the band-pass. -/
noncomputable def den (fs : ℝ) (p : Par) : ℝ :=
  4 * (t1 fs p * t2 fs p) + 4 * (t1 fs p - t2 fs p) + 4

theorem Audible.den_pos {fs : ℝ} {p : Par} (h : Audible fs p) : 0 < den fs p := by
  obtain ⟨h1, h2⟩ := h.tans
  have : 0 < t1 fs p * t2 fs p := mul_pos (h1.trans h2) h1
  unfold den; linarith

/-- The coefficients of an audible string are numbers. -/
theorem Audible.setup {fs : ℝ} {p : Par} (h : Audible fs p) : setup fs p =
    { c0 := fin p.gain
      c1 := fin p.feedback
      c4 := fin (Real.sin (2 * Real.pi / fs * p.pitch))
      c5 := fin (Real.cos (2 * Real.pi / fs * p.pitch))
      c13 := fin (4 * (t1 fs p - t2 fs p) / den fs p)
      c14 := fin (-(4 * (t1 fs p - t2 fs p) / den fs p))
      c15 := fin (1 / den fs p)
      c16 := fin (8 * (t1 fs p * t2 fs p) - 8)
      c17 := fin (4 * (t1 fs p * t2 fs p) + 4 - 4 * (t1 fs p - t2 fs p)) } := by
  have hfs := h.rate
  have hfs0 : fs ≠ 0 := hfs.ne'
  obtain ⟨h1, h2⟩ := h.tans
  have ht1 : t1 fs p ≠ 0 := (h1.trans h2).ne'
  have hprod : 0 ≤ t1 fs p * t2 fs p := (mul_pos (h1.trans h2) h1).le
  have hden := h.den_pos.ne'
  have hroot : 0 ≤ 4 * (fs * fs) * (t1 fs p * t2 fs p) := by positivity
  have c8 : (sqrt (fin (4 * (fs * fs) * (t1 fs p * t2 fs p)))) *
      (sqrt (fin (4 * (fs * fs) * (t1 fs p * t2 fs p)))) =
      fin (4 * (fs * fs) * (t1 fs p * t2 fs p)) := by
    show (if 4 * (fs * fs) * (t1 fs p * t2 fs p) < 0 then nan else fin _) *
      (if 4 * (fs * fs) * (t1 fs p * t2 fs p) < 0 then nan else fin _) = _
    rw [if_neg (not_lt.mpr hroot), fin_mul, Real.mul_self_sqrt hroot]
  have c12 : (1 / fs * (1 / fs) * (4 * (fs * fs) * (t1 fs p * t2 fs p)) +
      2 / fs * (2 * fs * t1 fs p - 1 / 2 / fs * (4 * (fs * fs) * (t1 fs p * t2 fs p) / t1 fs p)) +
      4) = den fs p := by
    unfold den; field_simp; ring
  have d0 : 1 / fs * (1 / fs) * (4 * (fs * fs) * (t1 fs p * t2 fs p)) +
      2 / fs * (2 * fs * t1 fs p - 1 / 2 / fs * (4 * (fs * fs) * (t1 fs p * t2 fs p) / t1 fs p)) +
      4 ≠ 0 := by rw [c12]; exact hden
  have e1 : tan (fin (Real.pi / fs * (1 / 2 * p.bandwidth + p.pitch))) = fin (t1 fs p) := rfl
  have e2 : tan (fin (Real.pi / fs * (p.pitch - 1 / 2 * p.bandwidth))) = fin (t2 fs p) := rfl
  have e3 : ∀ a, sin (fin a) = fin (Real.sin a) := fun _ => rfl
  have e4 : ∀ a, cos (fin a) = fin (Real.cos a) := fun _ => rfl
  simp only [Strings.setup, fin_div hfs0, fin_mul, fin_sub, fin_add, e1, e2, e3, e4, c8,
    fin_div ht1, fin_div d0, Coef.mk.injEq, Val.fin.injEq, true_and]
  refine ⟨?_, ?_, ?_, ?_, ?_⟩
  · rw [c12]; field_simp; ring
  · rw [c12]; field_simp; ring
  · rw [c12]
  · field_simp; ring
  · field_simp; ring

/-- A string in real numbers: the three recursions with input `x`. -/
structure RMem where
  r0 : ℝ
  r1 : ℝ
  r21 : ℝ
  r22 : ℝ

/-- The memory of an audible string before frame `n`, in real numbers. -/
noncomputable def rmem (fs : ℝ) (p : Par) (x : ℕ → ℝ) : ℕ → RMem
  | 0 => ⟨0, 0, 0, 0⟩
  | n + 1 =>
    let m := rmem fs p x n
    let s := Real.sin (2 * Real.pi / fs * p.pitch)
    let c := Real.cos (2 * Real.pi / fs * p.pitch)
    let b := 4 * (t1 fs p - t2 fs p) / den fs p
    let n2 := x n - 1 / den fs p * ((8 * (t1 fs p * t2 fs p) - 8) * m.r21 +
      (4 * (t1 fs p * t2 fs p) + 4 - 4 * (t1 fs p - t2 fs p)) * m.r22)
    ⟨p.feedback * (s * m.r1 + c * m.r0), -b * m.r22 + (c * m.r1 + b * n2) - s * m.r0, n2, m.r21⟩

theorem mem_eq {fs : ℝ} {p : Par} (h : Audible fs p) (x : ℕ → ℝ) (n : ℕ) :
    mem (setup fs p) (fun k => fin (x k)) n =
      ⟨fin (rmem fs p x n).r0, fin (rmem fs p x n).r1, fin (rmem fs p x n).r21,
        fin (rmem fs p x n).r22⟩ := by
  induction n with
  | zero => rfl
  | succ n ih =>
    rw [mem, ih, h.setup]
    simp [tick, rmem]

theorem out_eq {fs : ℝ} {p : Par} (h : Audible fs p) (x : ℕ → ℝ) (n : ℕ) :
    out (setup fs p) (fun k => fin (x k)) n = fin (p.gain * (rmem fs p x (n + 1)).r0) := by
  rw [out, mem_eq h, h.setup]
  simp [tick, rmem]

/-! ## Stability of one string -/

/-- The band-pass is stable. -/
theorem Audible.stable {fs : ℝ} {p : Par} (h : Audible fs p) :
    Filter.Stable ((8 * (t1 fs p * t2 fs p) - 8) / den fs p)
      ((4 * (t1 fs p * t2 fs p) + 4 - 4 * (t1 fs p - t2 fs p)) / den fs p) := by
  obtain ⟨h1, h2⟩ := h.tans
  have hp : 0 < t1 fs p * t2 fs p := mul_pos (h1.trans h2) h1
  have hd := h.den_pos
  have e : den fs p = 4 * (t1 fs p * t2 fs p) + 4 * (t1 fs p - t2 fs p) + 4 := rfl
  constructor
  · rw [abs_div, abs_of_pos hd, div_lt_one hd, abs_lt]
    constructor <;> linarith
  · rw [abs_div, abs_of_pos hd, div_lt_iff₀ hd, add_mul, one_mul, div_mul_cancel₀ _ hd.ne', abs_lt]
    constructor <;> linarith

/-- The rotation with feedback is stable. -/
theorem Audible.turn {fs : ℝ} {p : Par} (h : Audible fs p) :
    Filter.Stable (-((1 + p.feedback) * Real.cos (2 * Real.pi / fs * p.pitch))) p.feedback := by
  obtain ⟨h0, h1⟩ := h.feedback
  have hs := h.sin_pos
  have hsq := Real.sin_sq_add_cos_sq (2 * Real.pi / fs * p.pitch)
  constructor
  · rw [abs_of_nonneg h0]; exact h1
  · rw [abs_neg, abs_mul, abs_of_nonneg (by linarith : 0 ≤ 1 + p.feedback)]
    have hc : |Real.cos (2 * Real.pi / fs * p.pitch)| < 1 := by
      rw [abs_lt]; constructor <;> nlinarith
    nlinarith

/-- The band-passed signal that drives the rotation. -/
noncomputable def drive (fs : ℝ) (p : Par) (x : ℕ → ℝ) (n : ℕ) : ℝ :=
  4 * (t1 fs p - t2 fs p) / den fs p * ((rmem fs p x (n + 2)).r22 - (rmem fs p x n).r22)

theorem rec_band {fs : ℝ} {p : Par} (x : ℕ → ℝ) :
    Filter.Rec2 ((8 * (t1 fs p * t2 fs p) - 8) / den fs p)
      ((4 * (t1 fs p * t2 fs p) + 4 - 4 * (t1 fs p - t2 fs p)) / den fs p) x
      fun n => (rmem fs p x n).r22 := by
  intro n
  simp only [rmem]
  ring

theorem turn_eqs {fs : ℝ} {p : Par} (x : ℕ → ℝ) (n : ℕ) :
    (rmem fs p x (n + 1)).r0 = p.feedback * (Real.sin (2 * Real.pi / fs * p.pitch) *
        (rmem fs p x n).r1 + Real.cos (2 * Real.pi / fs * p.pitch) * (rmem fs p x n).r0) ∧
    (rmem fs p x (n + 1)).r1 = Real.cos (2 * Real.pi / fs * p.pitch) * (rmem fs p x n).r1 -
      Real.sin (2 * Real.pi / fs * p.pitch) * (rmem fs p x n).r0 + drive fs p x n := by
  constructor
  · simp only [rmem]
  · simp only [drive, rmem]; ring

theorem rec_turn {fs : ℝ} {p : Par} (x : ℕ → ℝ) :
    Filter.Rec2 (-((1 + p.feedback) * Real.cos (2 * Real.pi / fs * p.pitch))) p.feedback
      (fun n => drive fs p x (n + 1) -
        p.feedback * Real.cos (2 * Real.pi / fs * p.pitch) * drive fs p x n)
      fun n => (rmem fs p x n).r1 := by
  intro n
  obtain ⟨a0, a1⟩ := turn_eqs (fs := fs) (p := p) x n
  obtain ⟨-, b1⟩ := turn_eqs (fs := fs) (p := p) x (n + 1)
  have hsq := Real.sin_sq_add_cos_sq (2 * Real.pi / fs * p.pitch)
  simp only
  rw [show n + 2 = n + 1 + 1 from rfl, b1, a0]
  set s := Real.sin (2 * Real.pi / fs * p.pitch)
  set c := Real.cos (2 * Real.pi / fs * p.pitch)
  linear_combination (-(p.feedback * c)) * a1 - (p.feedback * (rmem fs p x n).r1) * hsq

/-- A bounded input gives a bounded string. -/
theorem string_gain {fs : ℝ} {p : Par} (h : Audible fs p) :
    ∃ K, 0 ≤ K ∧ ∀ (x : ℕ → ℝ) (X : ℝ), (∀ n, |x n| ≤ X) → ∀ n, |(rmem fs p x n).r0| ≤ K * X := by
  obtain ⟨K1, hK1, g1⟩ := Filter.Rec2.gain h.stable
  obtain ⟨K2, hK2, g2⟩ := Filter.Rec2.gain h.turn
  have hs := h.sin_pos
  obtain ⟨hf0, hf1⟩ := h.feedback
  have hc := Real.abs_cos_le_one (2 * Real.pi / fs * p.pitch)
  set s := Real.sin (2 * Real.pi / fs * p.pitch) with hsdef
  set c := Real.cos (2 * Real.pi / fs * p.pitch) with hcdef
  set b := |4 * (t1 fs p - t2 fs p) / den fs p| with hb
  have hb0 : 0 ≤ b := abs_nonneg _
  refine ⟨(2 * (K2 * (3 * (2 * b * K1))) + 2 * b * K1) / s, by positivity, fun x X hx n => ?_⟩
  have hX : 0 ≤ X := (abs_nonneg _).trans (hx 0)
  have hz : ∀ n, |(rmem fs p x n).r22| ≤ K1 * X := by
    intro n
    have := g1 x _ (rec_band x) X hx n
    simpa [rmem] using this
  have hd : ∀ n, |drive fs p x n| ≤ 2 * b * K1 * X := by
    intro n
    unfold drive
    rw [abs_mul, ← hb]
    have : |(rmem fs p x (n + 2)).r22 - (rmem fs p x n).r22| ≤ K1 * X + K1 * X :=
      (abs_sub _ _).trans (add_le_add (hz _) (hz _))
    calc b * |(rmem fs p x (n + 2)).r22 - (rmem fs p x n).r22| ≤ b * (K1 * X + K1 * X) :=
          mul_le_mul_of_nonneg_left this hb0
      _ = 2 * b * K1 * X := by ring
  have hD : 0 ≤ 2 * b * K1 * X := (abs_nonneg _).trans (hd 0)
  have hw : ∀ n, |drive fs p x (n + 1) - p.feedback * c * drive fs p x n| ≤ 2 * (2 * b * K1 * X) := by
    intro n
    have h1 : |p.feedback * c * drive fs p x n| ≤ 2 * b * K1 * X := by
      rw [abs_mul, abs_mul, abs_of_nonneg hf0]
      have : p.feedback * |c| ≤ 1 := by nlinarith [abs_nonneg c]
      calc p.feedback * |c| * |drive fs p x n| ≤ 1 * |drive fs p x n| :=
            mul_le_mul_of_nonneg_right this (abs_nonneg _)
        _ ≤ 2 * b * K1 * X := by rw [one_mul]; exact hd n
    have h2 := abs_sub (drive fs p x (n + 1)) (p.feedback * c * drive fs p x n)
    have h3 := hd (n + 1)
    linarith
  have hr1 : ∀ n, |(rmem fs p x n).r1| ≤ K2 * (3 * (2 * b * K1)) * X := by
    intro n
    have g := g2 _ _ (rec_turn x) _ hw n
    have e0 : (rmem fs p x 0).r1 = 0 := rfl
    have e1 : (rmem fs p x 1).r1 = drive fs p x 0 := by
      rw [(turn_eqs x 0).2]
      simp [rmem]
    rw [e0, e1, abs_zero, zero_add] at g
    have hd0 := hd 0
    calc |(rmem fs p x n).r1| ≤ K2 * (|drive fs p x 0| + 2 * (2 * b * K1 * X)) := g
      _ ≤ K2 * (2 * b * K1 * X + 2 * (2 * b * K1 * X)) :=
          mul_le_mul_of_nonneg_left (by linarith) hK2
      _ = K2 * (3 * (2 * b * K1)) * X := by ring
  have key : s * (rmem fs p x n).r0 = c * (rmem fs p x n).r1 + drive fs p x n -
      (rmem fs p x (n + 1)).r1 := by
    rw [(turn_eqs x n).2]; ring
  have hle : |s * (rmem fs p x n).r0| ≤ (2 * (K2 * (3 * (2 * b * K1))) + 2 * b * K1) * X := by
    rw [key]
    have a1 := abs_sub (c * (rmem fs p x n).r1 + drive fs p x n) (rmem fs p x (n + 1)).r1
    have a2 := abs_add_le (c * (rmem fs p x n).r1) (drive fs p x n)
    have a3 : |c * (rmem fs p x n).r1| ≤ |(rmem fs p x n).r1| := by
      rw [abs_mul]
      calc |c| * |(rmem fs p x n).r1| ≤ 1 * |(rmem fs p x n).r1| :=
            mul_le_mul_of_nonneg_right hc (abs_nonneg _)
        _ = _ := one_mul _
    have a4 := hr1 n
    have a5 := hr1 (n + 1)
    have a6 := hd n
    nlinarith
  rw [abs_mul, abs_of_pos hs] at hle
  rw [div_mul_eq_mul_div, le_div_iff₀ hs]
  linarith

/-- An input that dies out gives a string that dies out. -/
theorem string_vanish {fs : ℝ} {p : Par} (h : Audible fs p) (x : ℕ → ℝ)
    (hx : Tendsto x atTop (𝓝 0)) : Tendsto (fun n => (rmem fs p x n).r0) atTop (𝓝 0) := by
  have hs := h.sin_pos
  have hz := Filter.Rec2.vanish h.stable (rec_band x) hx
  have hd : Tendsto (drive fs p x) atTop (𝓝 0) := by
    have h2 := (tendsto_add_atTop_iff_nat 2).mpr hz
    have := (h2.sub hz).const_mul (4 * (t1 fs p - t2 fs p) / den fs p)
    rw [sub_zero, mul_zero] at this
    exact this
  have hd1 := (tendsto_add_atTop_iff_nat 1).mpr hd
  have hw := hd1.sub (hd.const_mul (p.feedback * Real.cos (2 * Real.pi / fs * p.pitch)))
  rw [mul_zero, sub_zero] at hw
  have hr := Filter.Rec2.vanish h.turn (rec_turn x) hw
  have hr1 := (tendsto_add_atTop_iff_nat 1).mpr hr
  have key : ∀ n, (rmem fs p x n).r0 = 1 / Real.sin (2 * Real.pi / fs * p.pitch) *
      (Real.cos (2 * Real.pi / fs * p.pitch) * (rmem fs p x n).r1 + drive fs p x n -
        (rmem fs p x (n + 1)).r1) := by
    intro n
    rw [(turn_eqs x n).2]
    generalize Real.sin (2 * Real.pi / fs * p.pitch) = s at hs
    have := hs.ne'
    field_simp
    ring
  have := (((hr.const_mul (Real.cos (2 * Real.pi / fs * p.pitch))).add hd).sub hr1).const_mul
    (1 / Real.sin (2 * Real.pi / fs * p.pitch))
  simp only [mul_zero, add_zero, sub_zero] at this
  exact this.congr fun n => (key n).symm

/-! ## Sums over strings and packs -/

theorem foldl_sum {α : Type} (l : List α) (f : α → Val) (a : Val) :
    l.foldl (fun a p => a + f p) a = a + (l.map f).sum := by
  induction l generalizing a with
  | nil => simp
  | cons p l ih => simp [ih, add_assoc]

theorem scalar_sum (fs : ℝ) (ps : List Par) (x : ℕ → Val) (n : ℕ) :
    scalar fs ps x n = (ps.map fun p => out (setup fs p) x n).sum := by
  rw [scalar, foldl_sum ps (fun p => out (setup fs p) x n), ← zero_def, zero_add]

theorem range_sum (k : ℕ) (f : ℕ → Val) : ((List.range k).map f).sum = ∑ i ∈ Finset.range k, f i := by
  induction k with
  | zero => rfl
  | succ k ih => rw [List.range_succ, List.map_append, List.sum_append, ih, Finset.sum_range_succ]; simp

theorem zipWith_range (W : ℕ) (f : Val → Par → Val) (A : ℕ → Val) (B : ℕ → Par) :
    List.zipWith f ((List.range W).map A) ((List.range W).map B)
      = (List.range W).map fun j => f (A j) (B j) := by
  rw [List.zipWith_map, List.zipWith_self]

/-- The lanes of any number of packs. -/
theorem lanes_sum (W m : ℕ) (fs : ℝ) (ps : List Par) (x : ℕ → Val) (n : ℕ) :
    ((List.range m).map (pack W ps)).foldl
        (fun acc q => List.zipWith (fun a p => a + out (setup fs p) x n) acc q)
        (List.replicate W (fin 0)) =
      (List.range W).map fun j => ∑ q ∈ Finset.range m,
        out (setup fs ((ps[q * W + j]?).getD padding)) x n := by
  induction m with
  | zero =>
    simp only [List.range_zero, List.map_nil, List.foldl_nil, Finset.range_zero, Finset.sum_empty]
    rw [List.map_const', List.length_range]
    rfl
  | succ m ih =>
    rw [List.range_succ, List.map_append, List.foldl_append, ih]
    simp only [List.map_cons, List.map_nil, List.foldl_cons, List.foldl_nil, pack, zipWith_range,
      Finset.sum_range_succ]

theorem blocks_sum (W m : ℕ) (f : ℕ → Val) :
    ∑ j ∈ Finset.range W, ∑ q ∈ Finset.range m, f (q * W + j) = ∑ i ∈ Finset.range (m * W), f i := by
  induction m with
  | zero => simp
  | succ m ih =>
    rw [Nat.succ_mul, Finset.sum_range_add, ← ih]
    simp only [Finset.sum_range_succ, Finset.sum_add_distrib]

/-- A packed array is the sum over all lanes, unused ones included. -/
theorem packed_sum (W : ℕ) (fs : ℝ) (ps : List Par) (x : ℕ → Val) (n : ℕ) :
    packed W fs ps x n = ∑ i ∈ Finset.range ((ps.length + W - 1) / W * W),
      out (setup fs ((ps[i]?).getD padding)) x n := by
  rw [packed]
  simp only [lanes_sum]
  have := foldl_sum ((List.range W).map fun j => ∑ q ∈ Finset.range ((ps.length + W - 1) / W),
    out (setup fs ((ps[q * W + j]?).getD padding)) x n) id (fin 0)
  simp only [id, List.map_id] at this
  rw [this, ← zero_def, zero_add, range_sum,
    blocks_sum W _ fun i => out (setup fs ((ps[i]?).getD padding)) x n]

/-! ## The unused lane -/

theorem padding_setup {fs : ℝ} (hfs : 0 < fs) :
    setup fs padding = ⟨fin 0, fin 0, fin 0, fin 1, nan, nan, nan, (setup fs padding).c16, nan⟩ := by
  have hfs0 : fs ≠ 0 := hfs.ne'
  have e1 : tan (fin 0) = fin 0 := by show fin (Real.tan 0) = _; rw [Real.tan_zero]
  have e3 : sin (fin 0) = fin 0 := by show fin (Real.sin 0) = _; rw [Real.sin_zero]
  have e4 : cos (fin 0) = fin 1 := by show fin (Real.cos 0) = _; rw [Real.cos_zero]
  have e5 : ∀ v : Val, v / fin 0 = nan := by
    intro v; cases v with
    | fin a => exact div_zero a
    | nan => rfl
  simp [setup, padding, fin_div hfs0, e1, e3, e4, e5]

theorem padding_mem {fs : ℝ} (hfs : 0 < fs) (x : ℕ → Val) (n : ℕ) :
    (mem (setup fs padding) x (n + 1)).r1 = nan := by
  rw [mem, padding_setup hfs]
  simp [tick]

theorem padding_out {fs : ℝ} (hfs : 0 < fs) (x : ℕ → Val) (n : ℕ) :
    out (setup fs padding) x (n + 1) = nan := by
  have h := padding_mem hfs x n
  rw [out, tick, h]
  simp

/-- The number of lanes covers the strings. -/
theorem lanes_le (W n : ℕ) (hW : 0 < W) : n ≤ (n + W - 1) / W * W := by
  have := Nat.lt_div_mul_add (a := n + W - 1) hW
  omega

theorem lanes_eq (W n : ℕ) (hW : 0 < W) (h : W ∣ n) : (n + W - 1) / W * W = n := by
  obtain ⟨k, rfl⟩ := h
  have : (W * k + W - 1) / W = k := by
    rw [show W * k + W - 1 = (W - 1) + W * k by omega, Nat.add_mul_div_left _ _ hW,
      Nat.div_eq_of_lt (by omega), Nat.zero_add]
  rw [this, Nat.mul_comm]

theorem lanes_lt (W n : ℕ) (hW : 0 < W) (h : ¬ W ∣ n) : n < (n + W - 1) / W * W := by
  refine lt_of_le_of_ne (lanes_le W n hW) fun e => h ?_
  rw [e]
  exact Nat.dvd_mul_left _ _

end Verif.Strings
