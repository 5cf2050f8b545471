import Verif.Filter.Recur

/-!
# Second-order sections over time

One section as a map from signals to signals, the recursion it obeys, and what follows for
series of sections.
-/

namespace Verif.Filter

open _root_.Filter Topology Real

/-- The memory of one section after `n` samples. -/
def smem (c : Coefs) (d : Delay) (x : ℕ → ℝ) : ℕ → Delay
  | 0 => d
  | n + 1 => (sect c (smem c d x n) (x n)).1

/-- The output of one section. -/
def sout (c : Coefs) (d : Delay) (x : ℕ → ℝ) (n : ℕ) : ℝ := (sect c (smem c d x n) (x n)).2

/-- The memory of a series of sections after `n` samples. -/
def cmem (c : Coefs) (ds : List Delay) (x : ℕ → ℝ) : ℕ → List Delay
  | 0 => ds
  | n + 1 => (cascade c (cmem c ds x n) (x n)).1

lemma cmem_cons (c : Coefs) (d : Delay) (ds : List Delay) (x : ℕ → ℝ) (n : ℕ) :
    cmem c (d :: ds) x n = smem c d x n :: cmem c ds (sout c d x) n := by
  induction n with
  | zero => rfl
  | succ n ih => simp only [cmem, ih, cascade, smem, sout]

lemma cmem_nil (c : Coefs) (x : ℕ → ℝ) (n : ℕ) : cmem c [] x n = [] := by
  induction n with
  | zero => rfl
  | succ n ih => simp only [cmem, ih, cascade]

/-- One section fed from a cleared memory. -/
def sec (c : Coefs) (x : ℕ → ℝ) : ℕ → ℝ := sout c ⟨0, 0, 0, 0⟩ x

lemma cascade_out (c : Coefs) (m : ℕ) (x : ℕ → ℝ) (n : ℕ) :
    (cascade c (cmem c (List.replicate m ⟨0, 0, 0, 0⟩) x n) (x n)).2 = (sec c)^[m] x n := by
  induction m generalizing x with
  | zero => simp [cmem_nil, cascade]
  | succ m ih =>
    rw [List.replicate_succ, cmem_cons, Function.iterate_succ_apply, ← ih (sec c x)]
    simp only [cascade]
    rfl

lemma Coefs.mix_zero (c t : Coefs) : c.mix 0 t = t := by
  simp [Coefs.mix, Filter.mix]

/-- A second-order filter whose controls do not move is its sections in series. -/
lemma out_biquad (k : Shape) (m : ℕ) (fs : ℝ) (p : Ctl) (x : ℕ → ℝ) :
    out (biquad k m fs) p x = (sec (target k fs p))^[m] x := by
  have hset : settled (biquad k m fs) p = target k fs p := Coefs.mix_zero _ _
  have hmem : ∀ n, mem (biquad k m fs) p x n
      = cmem (target k fs p) (List.replicate m ⟨0, 0, 0, 0⟩) x n := by
    intro n
    induction n with
    | zero => rfl
    | succ n ih => simp only [mem, cmem, ih, hset]; rfl
  funext n
  rw [← cascade_out]
  simp only [out, hmem, hset]
  rfl

/-- The first sample of a section. -/
lemma sec_zero (c : Coefs) (x : ℕ → ℝ) : sec c x 0 = c.b0 * x 0 := by
  simp [sec, sout, smem, sect]; ring

/-- The second sample of a section. -/
lemma sec_one (c : Coefs) (x : ℕ → ℝ) :
    sec c x 1 = c.b0 * x 1 + c.b1 * x 0 - c.a1 * sec c x 0 := by
  simp [sec, sout, smem, sect]; ring

/-- Every later sample: the difference equation of a second-order filter. -/
lemma sec_rec (c : Coefs) (x : ℕ → ℝ) (n : ℕ) :
    sec c x (n + 2) = c.b0 * x (n + 2) + c.b1 * x (n + 1) + c.b2 * x n
      - c.a1 * sec c x (n + 1) - c.a2 * sec c x n := by
  simp only [sec, sout, smem, sect]; ring

/-- The difference equation as a driven recursion. -/
lemma sec_rec2 (c : Coefs) (x : ℕ → ℝ) :
    Rec2 c.a1 c.a2 (fun n => c.b0 * x (n + 2) + c.b1 * x (n + 1) + c.b2 * x n) (sec c x) :=
  sec_rec c x

/-- A stable section multiplies the largest input by at most a constant. -/
lemma sec_gain {c : Coefs} (hc : Stable c.a1 c.a2) :
    ∃ G, 0 ≤ G ∧ ∀ (x : ℕ → ℝ) (X : ℝ), (∀ n, |x n| ≤ X) → ∀ n, |sec c x n| ≤ G * X := by
  obtain ⟨K, hK, h⟩ := Rec2.gain hc
  refine ⟨K * (|c.b0| + (|c.b0| + |c.b1| + |c.a1| * |c.b0|)
    + (|c.b0| + |c.b1| + |c.b2|)), by positivity, fun x X hx n => ?_⟩
  have hX : 0 ≤ X := (abs_nonneg _).trans (hx 0)
  have m : ∀ a k, |a * x k| ≤ |a| * X := fun a k => by
    rw [abs_mul]; exact mul_le_mul_of_nonneg_left (hx k) (abs_nonneg a)
  have e0 : |sec c x 0| ≤ |c.b0| * X := by rw [sec_zero]; exact m _ _
  have e1 : |sec c x 1| ≤ (|c.b0| + |c.b1| + |c.a1| * |c.b0|) * X := by
    rw [sec_one]
    have t1 := abs_sub (c.b0 * x 1 + c.b1 * x 0) (c.a1 * sec c x 0)
    have t2 := abs_add_le (c.b0 * x 1) (c.b1 * x 0)
    have t3 : |c.a1 * sec c x 0| ≤ |c.a1| * (|c.b0| * X) := by
      rw [abs_mul]; exact mul_le_mul_of_nonneg_left e0 (abs_nonneg _)
    have := m c.b0 1
    have := m c.b1 0
    nlinarith
  have e2 := h _ _ (sec_rec2 c x) ((|c.b0| + |c.b1| + |c.b2|) * X) (fun k => by
    have t1 := abs_add_le (c.b0 * x (k + 2) + c.b1 * x (k + 1)) (c.b2 * x k)
    have t2 := abs_add_le (c.b0 * x (k + 2)) (c.b1 * x (k + 1))
    have := m c.b0 (k + 2)
    have := m c.b1 (k + 1)
    have := m c.b2 k
    show |c.b0 * x (k + 2) + c.b1 * x (k + 1) + c.b2 * x k| ≤ _
    nlinarith) n
  refine e2.trans ?_
  rw [mul_assoc]
  apply mul_le_mul_of_nonneg_left _ hK
  nlinarith

lemma iterate_gain {c : Coefs} (hc : Stable c.a1 c.a2) (m : ℕ) :
    ∃ G, 0 ≤ G ∧ ∀ (x : ℕ → ℝ) (X : ℝ), (∀ n, |x n| ≤ X) → ∀ n, |(sec c)^[m] x n| ≤ G * X := by
  obtain ⟨G, hG, h⟩ := sec_gain hc
  refine ⟨G ^ m, by positivity, ?_⟩
  induction m with
  | zero => intro x X hx n; simpa using hx n
  | succ m ih =>
    intro x X hx n
    rw [Function.iterate_succ_apply, pow_succ, mul_assoc]
    exact ih _ _ (h x X hx) n

/-- `Y` is a possible response of the section to `X`, whatever happened before. -/
def Answers (c : Coefs) (X Y : ℕ → ℝ) : Prop :=
  ∀ n, Y (n + 2) = c.b0 * X (n + 2) + c.b1 * X (n + 1) + c.b2 * X n
    - c.a1 * Y (n + 1) - c.a2 * Y n

/-- Two signals that come together. -/
def Approach (x y : ℕ → ℝ) : Prop := Tendsto (fun n => x n - y n) atTop (𝓝 0)

lemma shift2 {x y : ℕ → ℝ} (h : Approach x y) (k : ℕ) :
    Tendsto (fun n => x (n + k) - y (n + k)) atTop (𝓝 0) :=
  (tendsto_add_atTop_iff_nat (f := fun n => x n - y n) k).mpr h

/-- A stable section fed a signal that approaches `X` approaches every response to `X`. -/
lemma sec_approach {c : Coefs} (hc : Stable c.a1 c.a2) {x X Y : ℕ → ℝ} (hx : Approach x X)
    (hY : Answers c X Y) : Approach (sec c x) Y := by
  refine Rec2.vanish hc (w := fun n => c.b0 * (x (n + 2) - X (n + 2))
    + c.b1 * (x (n + 1) - X (n + 1)) + c.b2 * (x n - X n)) (fun n => ?_) ?_
  · show sec c x (n + 2) - Y (n + 2) = _ - c.a1 * (sec c x (n + 1) - Y (n + 1))
      - c.a2 * (sec c x n - Y n)
    rw [sec_rec, hY n]; ring
  · have h0 := ((shift2 hx 2).const_mul c.b0).add ((shift2 hx 1).const_mul c.b1)
    have h1 := h0.add (Tendsto.const_mul c.b2 hx)
    simpa using h1

/-- The same for sections in series, each answering the one before. -/
lemma iterate_approach {c : Coefs} (hc : Stable c.a1 c.a2) {x : ℕ → ℝ} {Y : ℕ → ℕ → ℝ}
    (hx : Approach x (Y 0)) (hY : ∀ i, Answers c (Y i) (Y (i + 1))) (m : ℕ) :
    Approach ((sec c)^[m] x) (Y m) := by
  induction m with
  | zero => simpa using hx
  | succ m ih => rw [Function.iterate_succ_apply']; exact sec_approach hc ih (hY m)

/-! ### Stability of the coefficient formulas -/

lemma rbj_stable {w al : ℝ} (hw : 0 < w) (hwπ : w < π) (hal : 0 < al) :
    Stable ((0 - 2 * cos w) / (al + 1)) ((1 - al) / (al + 1)) := by
  have hs : 0 < sin w := sin_pos_of_pos_of_lt_pi hw hwπ
  have hc := sin_sq_add_cos_sq w
  have hcos : |cos w| < 1 := by
    rw [abs_lt]; constructor <;> nlinarith
  have hp : 0 < al + 1 := by linarith
  refine ⟨?_, ?_⟩
  · rw [abs_div, abs_of_pos hp, div_lt_one hp, abs_lt]; constructor <;> linarith
  · have e : 1 + (1 - al) / (al + 1) = 2 / (al + 1) := by field_simp; ring
    rw [e, abs_div, abs_of_pos hp]
    apply div_lt_div_of_pos_right _ hp
    rw [zero_sub, abs_neg, abs_mul, abs_two]; linarith

lemma cos_lt {w : ℝ} (hw : 0 < w) (hwπ : w < π) : -1 < cos w ∧ cos w < 1 := by
  have hs : 0 < sin w := sin_pos_of_pos_of_lt_pi hw hwπ
  have hc := sin_sq_add_cos_sq w
  constructor <;> nlinarith

/-- A triangle test for coefficients given as quotients. -/
lemma stable_of {n1 n2 d : ℝ} (hd : 0 < d) (h1 : n2 < d) (h2 : -d < n2) (h3 : n1 < d + n2)
    (h4 : -(d + n2) < n1) : Stable (n1 / d) (n2 / d) := by
  refine ⟨?_, ?_⟩
  · rw [abs_div, abs_of_pos hd, div_lt_one hd, abs_lt]; exact ⟨h2, h1⟩
  · have e : 1 + n2 / d = (d + n2) / d := by field_simp
    rw [e, abs_div, abs_of_pos hd]
    apply div_lt_div_of_pos_right _ hd
    rw [abs_lt]; exact ⟨h4, h3⟩

lemma lsh_stable {w Q A : ℝ} (hw : 0 < w) (hwπ : w < π) (hQ : 0 < Q) (hA : 0 < A) :
    Stable (lshCoefs w Q A).a1 (lshCoefs w Q A).a2 := by
  have hs : 0 < sin w := sin_pos_of_pos_of_lt_pi hw hwπ
  obtain ⟨c1, c2⟩ := cos_lt hw hwπ
  have ht : 0 < (√A * sin w) / Q := by positivity
  set t := (√A * sin w) / Q with htd
  have hm : 0 < (A + 1) + (A + -1) * cos w := by nlinarith
  simp only [lshCoefs, ← htd]
  apply stable_of <;> nlinarith

lemma hsh_stable {w Q A : ℝ} (hw : 0 < w) (hwπ : w < π) (hQ : 0 < Q) (hA : 0 < A) :
    Stable (hshCoefs w Q A).a1 (hshCoefs w Q A).a2 := by
  have hs : 0 < sin w := sin_pos_of_pos_of_lt_pi hw hwπ
  obtain ⟨c1, c2⟩ := cos_lt hw hwπ
  have ht : 0 < (√A * sin w) / Q := by positivity
  set t := (√A * sin w) / Q with htd
  have hm : 0 < (A + 1) - (A + -1) * cos w := by nlinarith
  simp only [hshCoefs, ← htd, ← mul_div_assoc]
  apply stable_of <;> nlinarith

lemma bandQ_pos (fs f bw : ℝ) : 0 < bandQ fs f bw := lt_max_of_lt_left (by norm_num)

lemma ampl_pos (g : ℝ) : 0 < ampl g := by unfold ampl; positivity

lemma linQ_pos (q : ℝ) : 0 < linQ q := by unfold linQ; positivity

/-- The floor `0.001` on the resonance never acts. -/
lemma max_linQ (q : ℝ) : max (1 / 1000) (linQ q) = linQ q := by
  apply max_eq_right
  have h : (1 / 1000 : ℝ) = (10 : ℝ) ^ (-3 : ℝ) := by
    rw [show (-3 : ℝ) = ((-3 : ℤ) : ℝ) by norm_num, Real.rpow_intCast]; norm_num
  rw [h]
  apply Real.rpow_le_rpow_of_exponent_le (by norm_num)
  have : (-60 : ℝ) ≤ min 60 (max (-60) q) := le_min (by norm_num) (le_max_left _ _)
  linarith

lemma target_stable (k : Shape) {fs : ℝ} {p : Ctl} (h0 : 0 < angle fs p.cutoff)
    (hπ : angle fs p.cutoff < π) : Stable (target k fs p).a1 (target k fs p).a2 := by
  have hs : 0 < sin (angle fs p.cutoff) := sin_pos_of_pos_of_lt_pi h0 hπ
  have hQ : 0 < max (1 / 1000) (linQ p.q) := lt_max_of_lt_left (by norm_num)
  have hB := bandQ_pos fs p.cutoff p.q
  have hA := ampl_pos p.gain
  cases k with
  | lpf => exact rbj_stable h0 hπ (by positivity)
  | hpf => exact rbj_stable h0 hπ (by positivity)
  | bpf => exact rbj_stable h0 hπ (by positivity)
  | brf => exact rbj_stable h0 hπ (by positivity)
  | peq => exact rbj_stable h0 hπ (by positivity)
  | eqPeak => exact rbj_stable h0 hπ (by positivity)
  | lsh => exact lsh_stable h0 hπ hQ hA
  | hsh => exact hsh_stable h0 hπ hQ hA
  | eqLshelf => exact lsh_stable h0 hπ hB hA
  | eqHshelf => exact hsh_stable h0 hπ hB hA

lemma clampHz_ge (f : ℝ) : 1 ≤ clampHz f := le_min (by norm_num) (le_max_left _ _)
lemma clampHz_le (f : ℝ) : clampHz f ≤ 20000 := min_le_left _ _
lemma clampHz_id {f : ℝ} (h1 : 1 ≤ f) (h2 : f ≤ 20000) : clampHz f = f := by
  rw [clampHz, max_eq_right h1, min_eq_right h2]

lemma angle_eq (fs f : ℝ) : angle fs f = 2 * π / fs * clampHz f := by
  rw [angle, max_eq_right]; linarith [clampHz_ge f]

lemma angle_pos {fs f : ℝ} (h : 0 < fs) : 0 < angle fs f := by
  rw [angle_eq]
  have := clampHz_ge f
  have := pi_pos
  positivity

lemma angle_lt {fs f : ℝ} (h : 0 < fs) (h2 : 2 * clampHz f < fs) : angle fs f < π := by
  rw [angle_eq, div_mul_eq_mul_div, div_lt_iff₀ h]
  nlinarith [pi_pos]

end Verif.Filter
