import Verif.Reverb.Lfo

/-!
# The whole reverb: energy in, energy out
-/

namespace Verif.Reverb

open Finset

/-! ## The knobs that settings lead to -/

lemma slowPole_pos (fs : ℕ) (f : ℝ) : 0 ≤ slowPole fs f :=
  mul_nonneg (by norm_num) (Real.exp_pos _).le

/-- A pole stays below one. -/
lemma limit_pole {fs : ℕ} (h1 : 44100 ≤ fs) (h2 : fs ≤ 1000000) {f : ℝ} (hf : 27.5 ≤ f) :
    limit (slowPole fs f) < 1 := by
  have hfs : (44100 : ℝ) ≤ fs := by exact_mod_cast h1
  have hfs' : (fs : ℝ) ≤ 1000000 := by exact_mod_cast h2
  have h0 : (0 : ℝ) < fs := by linarith
  set y : ℝ := 1 / (fs : ℝ) * (6.28318548 * f) with hy
  have hy1 : 1.7e-4 ≤ y := by
    rw [hy, one_div, inv_mul_eq_div, le_div_iff₀ h0]
    nlinarith
  have he : Real.exp (1 / (fs : ℝ) * (0 - 6.28318548 * f)) = (Real.exp y)⁻¹ := by
    rw [← Real.exp_neg]; congr 1; rw [hy]; ring
  unfold limit slowPole
  rw [he]
  have h3 : 1 + y ≤ Real.exp y := by linarith [Real.add_one_le_exp y]
  have h4 : (Real.exp y)⁻¹ ≤ (1 + 1.7e-4)⁻¹ := by
    apply inv_anti₀ (by norm_num)
    linarith
  rw [div_lt_one (by norm_num)]
  have h5 : (0.00100000005 : ℝ) * (Real.exp y)⁻¹ ≤ 0.00100000005 * (1 + 1.7e-4)⁻¹ :=
    mul_le_mul_of_nonneg_left h4 (by norm_num)
  refine lt_of_le_of_lt h5 ?_
  norm_num

lemma lpfCutoff_ge (x : ℝ) : 27.5 ≤ lpfCutoff x := by
  unfold lpfCutoff
  have h1 : (0 : ℝ) ≤ max 0 (min 100 x) := le_max_left _ _
  have h2 : (2 : ℝ) ^ (-4 : ℝ) ≤ (2 : ℝ) ^ (((21 + max 0 (min 100 x) * 1.08) - 69) * (1 / 12) : ℝ) := by
    refine Real.rpow_le_rpow_of_exponent_le (by norm_num) ?_
    linarith
  have h3 : (2 : ℝ) ^ (-4 : ℝ) = 1 / 16 := by
    rw [Real.rpow_neg (by norm_num)]
    norm_num
  rw [h3] at h2
  linarith

lemma profile_range (r : Room) : 0 ≤ r.profile.decay ∧ 0 ≤ r.profile.depth ∧ r.profile.depth ≤ 1.5 ∧
    0 ≤ r.profile.freq ∧ r.profile.depth * r.profile.freq ≤ 1.275 ∧ r.profile.dry = 100 ∧
    r.profile.wet = 60 := by
  cases r <;> norm_num [Room.profile]

lemma decay_range (r : Room) {size : ℝ} (h : 0 ≤ size ∧ size ≤ 100) :
    0 ≤ r.profile.decay * size * 0.01 + r.profile.decay * 0.5 * (1 - size * 0.01) ∧
      r.profile.decay * size * 0.01 + r.profile.decay * 0.5 * (1 - size * 0.01) ≤ r.profile.decay := by
  have h0 := (profile_range r).1
  constructor <;> nlinarith

/-- The numbers that keep the tank stable, for every kind of room. -/
lemma room_numbers (r : Room) : ∃ γ κ δ t : ℝ,
    0 ≤ r.profile.density ∧ limit (9.99999975e-06 * r.profile.density) ≤ γ ∧
    1 - (limit (9.99999975e-06 * r.profile.density)) ^ 2 < κ ∧ κ ≤ 1 ∧ γ ≤ 1 ∧ 0 ≤ γ ∧ 0 ≤ κ ∧ 0 ≤ δ ∧
    limit (9.99999975e-06 * r.profile.decay) ≤ δ ∧ 0 < t ∧ (1 + t) * γ ^ 2 * (1 + 0.021) < 1 ∧
    (1 + 0.021 * κ * (1 + 1 / t) / (1 - (1 + t) * γ ^ 2 * (1 + 0.021))) * 1.001 * (1.001 * δ ^ 2)
      * ((1 + 1e-3) * (δ ^ 2 * (1 + 1e-5))) < 1 := by
  cases r
  · exact ⟨0.8001, 0.3602, 0.9502, 0.237, by norm_num [Room.profile, limit]⟩
  · exact ⟨0.5001, 0.7502, 0.7502, 0.5, by norm_num [Room.profile, limit]⟩
  · exact ⟨0.2001, 0.9602, 0.7502, 0.5, by norm_num [Room.profile, limit]⟩
  · exact ⟨0.8001, 0.3602, 0.9502, 0.237, by norm_num [Room.profile, limit]⟩
  · exact ⟨0.5001, 0.7502, 0.7502, 0.5, by norm_num [Room.profile, limit]⟩
  · exact ⟨0.2001, 0.9602, 0.7502, 0.5, by norm_num [Room.profile, limit]⟩
  · exact ⟨0.8001, 0.3602, 0.9502, 0.237, by norm_num [Room.profile, limit]⟩

lemma limit_mono {a b : ℝ} (h : a ≤ b) : limit a ≤ limit b := by
  unfold limit
  exact div_le_div_of_nonneg_right h (by norm_num)

/-- Every smoothed knob is a ramp. -/
lemma knob_ramp (fs : ℕ) (s : Knobs) (x : ℕ → ℝ × ℝ) (f : Knobs → ℝ) (h0 : f .zero = 0)
    (hf : ∀ a b : Knobs, f (a.step b) = smooth (f a) (f b)) :
    Ramp (f (slow fs s)) fun n => f (states fs s x n).knobs :=
  ⟨h0, fun n => hf _ _⟩

lemma ramp_succ {s : ℝ} {r : ℕ → ℝ} (h : Ramp s r) (hs : 0 ≤ s) :
    (∀ n, 0 ≤ r (n + 1) ∧ r (n + 1) ≤ limit s) ∧ (Monotone fun n => r (n + 1)) ∧
      ∀ e : ℝ, 0 < e → ∃ n₀, ∀ n, n₀ ≤ n → limit s - e ≤ r (n + 1) :=
  ⟨fun n => h.le hs (n + 1), fun _ _ hab => h.mono hs (by omega), fun e he => by
    obtain ⟨n₀, hn₀⟩ := h.lim hs he
    exact ⟨n₀, fun n hn => hn₀ (n + 1) (by omega)⟩⟩

/-! ## The tank -/

/-- What leaves the predelay: the right channel feeds the first half of the tank. -/
noncomputable def entry1 (fs : ℕ) (s : Knobs) (x : ℕ → ℝ × ℝ) (n : ℕ) : ℝ :=
  delay (clip (trunc (fs * (states fs s x (n + 1)).knobs.predelay)))
    (fun n => (x n).2 * (states fs s x (n + 1)).knobs.input) n

/-- What leaves the predelay: the left channel feeds the second half. -/
noncomputable def entry2 (fs : ℕ) (s : Knobs) (x : ℕ → ℝ × ℝ) (n : ℕ) : ℝ :=
  delay (clip (trunc (fs * (states fs s x (n + 1)).knobs.predelay)))
    (fun n => (x n).1 * (states fs s x (n + 1)).knobs.input) n

/-- The weights that work for given settings. -/
structure Good (fs : ℕ) (s : Settings) (W : ℝ) : Prop where
  one : 1 ≤ W
  pow : W ^ 65537 ≤ 1 + 1e-5
  low : W - 1 ≤ 1e-5 * (1 - limit (slowPole fs s.knobs.lowpass))
  high : W - 1 ≤ 1e-5 * (1 - limit (slowPole fs s.knobs.highpass))
  damp : W - 1 ≤ 1e-5 * (1 - limit (slowPole fs s.knobs.damping))

lemma good_mul {W P : ℝ} (hP0 : 0 ≤ P) (hP : P < 1) (hW : 1 ≤ W) (h : W - 1 ≤ 1e-5 * (1 - P)) :
    W * P < 1 ∧ (1 - P + 1e-5 * (1 - P)) / (1 - W * P) ≤ 1.0001 := by
  have h1 : (W - 1) * P ≤ 1e-5 * (1 - P) := by
    have : (W - 1) * P ≤ (W - 1) * 1 := mul_le_mul_of_nonneg_left hP.le (by linarith)
    linarith
  have h2 : W * P < 1 := by nlinarith
  refine ⟨h2, ?_⟩
  rw [div_le_iff₀ (by linarith)]
  nlinarith

lemma delay_zero (x : ℕ → ℝ) : delay 0 x = x := by
  funext n; simp [delay]

lemma combLen_le (fs : ℕ) (t : ℝ) : combLen fs t ≤ 65536 := min_le_left _ _
lemma lineLen_le (fs : ℕ) (t : ℝ) : lineLen fs t ≤ 65536 := min_le_left _ _

/-- The six signals kept in the tank are bounded, in energy, by what leaves the predelay. -/
lemma tank_dom {fs : ℕ} (h1 : 44100 ≤ fs) (h2 : fs ≤ 1000000) {s : Settings} (hv : s.Valid) {W : ℝ}
    (hg : Good fs s W) (x : ℕ → ℝ × ℝ) :
    ∀ f : State → Line, (f = fun st => st.t1.outA) ∨ (f = fun st => st.t1.outB) ∨
      (f = fun st => st.t1.outC) ∨ (f = fun st => st.t2.outA) ∨ (f = fun st => st.t2.outB) ∨
      (f = fun st => st.t2.outC) → ∀ j,
    Dom W (fun T => E W (entry1 fs s.knobs x) T + E W (entry2 fs s.knobs x) T)
      fun n => f (states fs s.knobs x (n + 1)) j := by
  have hW := hg.one
  have hW0 : 0 ≤ W := by linarith
  obtain ⟨Q, hQ⟩ : ∃ Q : ℕ, Q = 65537 := ⟨_, rfl⟩
  have hWQ : W ^ Q ≤ 1 + 1e-5 := by rw [hQ]; exact hg.pow
  have hWk : ∀ j, j ≤ 65537 → W ^ j ≤ 1 + 1e-5 := fun j hj =>
    le_trans (pow_le_pow_right₀ hW (by omega)) hWQ
  obtain ⟨p1, p2, p3, p4, p5, p6, p7⟩ := profile_range s.room
  obtain ⟨d1, d2⟩ := decay_range s.room hv.size
  obtain ⟨γ, κ, δ, t, g1, g2, g3, g4, g5, g6, g7, g8, g9, g10, g11, g12⟩ := room_numbers s.room
  set st := states fs s.knobs x with hst
  set k : ℕ → Knobs := fun n => (st (n + 1)).knobs with hk
  have hstep : ∀ n, st (n + 1) = step fs s.knobs (st n) (x n) := fun n => rfl
  -- the knobs
  obtain ⟨a1, a2, a3⟩ := ramp_succ (knob_ramp fs s.knobs x (·.decay) rfl fun _ _ => rfl)
    (show 0 ≤ (slow fs s.knobs).decay from mul_nonneg (by norm_num) d1)
  obtain ⟨b1, b2, b3⟩ := ramp_succ (knob_ramp fs s.knobs x (·.density) rfl fun _ _ => rfl)
    (show 0 ≤ (slow fs s.knobs).density from mul_nonneg (by norm_num) g1)
  obtain ⟨c1, c2, c3⟩ := ramp_succ (knob_ramp fs s.knobs x (·.damping) rfl fun _ _ => rfl)
    (show 0 ≤ (slow fs s.knobs).damping from slowPole_pos _ _)
  obtain ⟨e1, e2, e3⟩ := ramp_succ (knob_ramp fs s.knobs x (·.lowpass) rfl fun _ _ => rfl)
    (show 0 ≤ (slow fs s.knobs).lowpass from slowPole_pos _ _)
  obtain ⟨f1, f2, f3⟩ := ramp_succ (knob_ramp fs s.knobs x (·.highpass) rfl fun _ _ => rfl)
    (show 0 ≤ (slow fs s.knobs).highpass from slowPole_pos _ _)
  obtain ⟨i1, i2, i3⟩ := ramp_succ (knob_ramp fs s.knobs x (·.diffusion1) rfl fun _ _ => rfl)
    (show 0 ≤ (slow fs s.knobs).diffusion1 by norm_num [slow, Settings.knobs])
  obtain ⟨j1, j2, j3⟩ := ramp_succ (knob_ramp fs s.knobs x (·.diffusion2) rfl fun _ _ => rfl)
    (show 0 ≤ (slow fs s.knobs).diffusion2 by norm_num [slow, Settings.knobs])
  obtain ⟨m1, m2, m3⟩ := ramp_succ (knob_ramp fs s.knobs x (·.depth) rfl fun _ _ => rfl)
    (show 0 ≤ (slow fs s.knobs).depth from mul_nonneg (by norm_num) p2)
  obtain ⟨n1, n2, n3⟩ := ramp_succ (knob_ramp fs s.knobs x (·.freq) rfl fun _ _ => rfl)
    (show 0 ≤ (slow fs s.knobs).freq from mul_nonneg (by norm_num) p4)
  have hPD : limit (slow fs s.knobs).damping < 1 := limit_pole h1 h2 (lpfCutoff_ge _)
  have hPL : limit (slow fs s.knobs).lowpass < 1 := limit_pole h1 h2 (lpfCutoff_ge _)
  have hPH : limit (slow fs s.knobs).highpass < 1 :=
    limit_pole h1 h2 (by norm_num [Settings.knobs])
  have hPD0 : 0 ≤ limit (slow fs s.knobs).damping := le_trans (c1 0).1 (c1 0).2
  have hPL0 : 0 ≤ limit (slow fs s.knobs).lowpass := le_trans (e1 0).1 (e1 0).2
  have hPH0 : 0 ≤ limit (slow fs s.knobs).highpass := le_trans (f1 0).1 (f1 0).2
  have hdec : limit (slow fs s.knobs).decay ≤ δ := by
    refine le_trans (limit_mono ?_) g9
    exact mul_le_mul_of_nonneg_left d2 (by norm_num)
  have tk : TankKnobs W k γ κ δ (limit (slow fs s.knobs).damping)
      (1e-5 * (1 - limit (slow fs s.knobs).damping)) := by
    refine ⟨fun n => ⟨(b1 n).1, le_trans (b1 n).2 g2⟩, b2, ?_, fun n => ⟨(a1 n).1, le_trans (a1 n).2 hdec⟩,
      a2, c1, c2, c3 _ (mul_pos (by norm_num) (by linarith)), hPD,
      (good_mul hPD0 hPD hW hg.damp).1, mul_nonneg (by norm_num) (by linarith),
      (good_mul hPD0 hPD hW hg.damp).2⟩
    set L := limit (slow fs s.knobs).density with hL
    have hL' : 1 - L ^ 2 < κ := g3
    have hL0 : 0 ≤ L := le_trans (b1 0).1 (b1 0).2
    obtain ⟨n₀, hn₀⟩ := b3 ((κ - (1 - L ^ 2)) / (2 * L + 1)) (by
      have : 0 < κ - (1 - L ^ 2) := by linarith
      positivity)
    refine ⟨n₀, fun n hn => ?_⟩
    have q1 := hn₀ n hn
    have q2 := b1 n
    set D := (k n).density with hD
    have q3 : L - D ≤ (κ - (1 - L ^ 2)) / (2 * L + 1) := by linarith
    rw [le_div_iff₀ (by positivity)] at q3
    have q4 : 0 ≤ D := q2.1
    have q5 : D ≤ L := q2.2
    nlinarith
  -- the modulation
  set φ : ℕ → ℝ := fun n => (st n).phase with hφ
  have hphase := phase_all (fs := fs) (k := k) (φ := φ) rfl (fun n => rfl) (fun n => (n1 n).1)
  set Φ : ℕ → ℝ := fun n => ∑ i ∈ range (n + 1), 1 / (fs : ℝ) * (k i).freq with hΦ
  have hfs0 : (0 : ℝ) < fs := by
    have : (44100 : ℝ) ≤ fs := by exact_mod_cast h1
    linarith
  have hΦ' : ∀ n, Φ n ≤ Φ (n + 1) ∧ Φ (n + 1) ≤ Φ n + limit (slow fs s.knobs).freq / fs := by
    intro n
    have e : Φ (n + 1) = Φ n + 1 / (fs : ℝ) * (k (n + 1)).freq := by
      simp only [hΦ]; rw [sum_range_succ]
    have q := n1 (n + 1)
    have hinv : (0 : ℝ) ≤ 1 / fs := by positivity
    rw [e]
    constructor
    · have := mul_nonneg hinv q.1
      simp only [hk]
      linarith
    · have := mul_le_mul_of_nonneg_left q.2 hinv
      simp only [hk]
      rw [div_eq_mul_one_div (limit _)]
      linarith
  have hD : limit (slow fs s.knobs).depth ≤ 0.001501 := by
    have e : limit (slow fs s.knobs).depth = s.room.profile.depth * (9.99999997e-07 / 0.000999987) := by
      simp only [limit, slow, Settings.knobs]; ring
    rw [e]
    have : s.room.profile.depth * (9.99999997e-07 / 0.000999987) ≤ 1.5 * (9.99999997e-07 / 0.000999987) :=
      mul_le_mul_of_nonneg_right p3 (by norm_num)
    refine le_trans this (by norm_num)
  have hDf : limit (slow fs s.knobs).depth * limit (slow fs s.knobs).freq ≤ 1.2752e-3 := by
    have e : limit (slow fs s.knobs).depth * limit (slow fs s.knobs).freq
        = (s.room.profile.depth * s.room.profile.freq)
          * (9.99999997e-07 / 0.000999987 * (0.00100000005 / 0.000999987)) := by
      simp only [limit, slow, Settings.knobs]; ring
    rw [e]
    refine le_trans (mul_le_mul_of_nonneg_right p5 (by norm_num)) (by norm_num)
  have hpl : ∀ n, |sine (place2 (φ (n + 1))) - Real.sin (2 * Real.pi * (Φ n + 0))| ≤ 1e-4 ∧
      |sine (place1 (φ (n + 1))) - Real.sin (2 * Real.pi * (Φ n + 0.25))| ≤ 1e-4 := by
    intro n
    obtain ⟨⟨q1, q2⟩, z, q3⟩ := hphase (n + 1)
    have := places q1 q2 q3
    rw [add_zero]
    exact this
  obtain ⟨J1, N1, lo1, hi1, u1, u2, u3, u4⟩ := asked_slow (fs := fs) h1 (c := 0.0305097271)
    (D := limit (slow fs s.knobs).depth) (f := limit (slow fs s.knobs).freq) (by norm_num)
    (le_trans (m1 0).1 (m1 0).2) hD hDf (d := fun n => (k n).depth) (Φ := Φ)
    (S := fun n => sine (place1 (φ (n + 1)))) (o := 0.25) m1 m3 hΦ' (fun n => abs_sine_le _)
    (fun n => (hpl n).2)
  obtain ⟨J2, N2, lo2, hi2, v1, v2, v3, v4⟩ := asked_slow (fs := fs) h1 (c := 0.025603978)
    (D := limit (slow fs s.knobs).depth) (f := limit (slow fs s.knobs).freq) (by norm_num)
    (le_trans (m1 0).1 (m1 0).2) hD hDf (d := fun n => (k n).depth) (Φ := Φ)
    (S := fun n => sine (place2 (φ (n + 1)))) (o := 0) m1 m3 hΦ' (fun n => abs_sine_le _)
    (fun n => (hpl n).1)
  have hN : 0 < fadeLen fs := by have := (fadeLen_range h1).1; omega
  have hNr : (0 : ℝ) < fadeLen fs := by exact_mod_cast hN
  have hε : ∀ J : ℕ, 1.00001 * (1 + 2 * (J : ℝ) / fadeLen fs) ≤ 1.021 →
      W ^ Q * (1 + 2 * (J : ℝ) / fadeLen fs) ≤ 1 + 0.021 := by
    intro J hJ
    have q : (0 : ℝ) ≤ 1 + 2 * (J : ℝ) / fadeLen fs := by positivity
    have := mul_le_mul_of_nonneg_right hWQ q
    have e : (1 + 1e-5 : ℝ) = 1.00001 := by norm_num
    rw [e] at this
    linarith
  -- the two halves
  set x1 : ℕ → ℝ := fun n => ((st n).pre1.step (k n) (clip (trunc (fs * (k n).predelay))) (lens1 fs)
    (x n).2).2 + (k n).decay * (st n).t2.outC (lineLen fs 0.106280029) with hx1
  set x2 : ℕ → ℝ := fun n => ((st n).pre2.step (k n) (clip (trunc (fs * (k n).predelay))) (lens2 fs)
    (x n).1).2 + (k n).decay * (st (n + 1)).t1.outC (lineLen fs 0.124995798 + 1) with hx2
  have T1 := tank_gain hW hQ hWQ tk g5 g7 (by norm_num : (0 : ℝ) ≤ 0.021) g10 g11
    (N := fadeLen fs) (trg := fun n => asked fs 0.0305097271 (k n).depth (sine (place1 (φ (n + 1)))))
    (dMid := lineLen fs 0.141695514) (dComb := combLen fs 0.0892443135) (lineLen_le _ _)
    (combLen_le _ _) (x := x1) (s := fun n => (st n).t1) rfl (fun n => rfl)
    (fun u e he0 he => held_fade hW hQ hN u1 u2 u3 (hε J1 u4) he0 he)
  have T2 := tank_gain hW hQ hWQ tk g5 g7 (by norm_num : (0 : ℝ) ≤ 0.021) g10 g11
    (N := fadeLen fs) (trg := fun n => asked fs 0.025603978 (k n).depth (sine (place2 (φ (n + 1)))))
    (dMid := lineLen fs 0.149625346) (dComb := combLen fs 0.0604818389) (lineLen_le _ _)
    (combLen_le _ _) (x := x2) (s := fun n => (st n).t2) rfl (fun n => rfl)
    (fun u e he0 he => held_fade hW hQ hN v1 v2 v3 (hε J2 v4) he0 he)
  set Kt : ℝ := 1 + 0.021 * κ * (1 + 1 / t) / (1 - (1 + t) * γ ^ 2 * (1 + 0.021)) with hKt
  have hKt0 : 0 ≤ Kt := by
    have : 0 ≤ 0.021 * κ * (1 + 1 / t) / (1 - (1 + t) * γ ^ 2 * (1 + 0.021)) :=
      div_nonneg (by positivity) (by linarith)
    linarith
  obtain ⟨A1, B1, C1, lA1, lB1, lC1⟩ := T1
  obtain ⟨A2, B2, C2, lA2, lB2, lC2⟩ := T2
  have full : ∀ {a b c y : ℕ → ℝ}, Gain W Kt a y → Gain W 1.001 b a → Gain W (1.001 * δ ^ 2) c b →
      Gain W (Kt * 1.001 * (1.001 * δ ^ 2)) c y := by
    intro a b c y ha hb hc
    have := Gain.trans (by positivity) hc (Gain.trans (by norm_num) hb ha)
    rwa [show 1.001 * δ ^ 2 * (1.001 * Kt) = Kt * 1.001 * (1.001 * δ ^ 2) by ring] at this
  have back : ∀ (c : ℕ → ℝ) (j : ℕ), j ≤ 65537 →
      Gain W (δ ^ 2 * (1 + 1e-5)) (fun n => (k n).decay * delay j c n) c := by
    intro c j hj
    have := Gain.trans (by positivity) (gain_mul hW0 (c := fun n => (k n).decay) (δ := δ)
      (fun n => by rw [abs_of_nonneg (tk.decay n).1]; exact (tk.decay n).2) (delay j c))
      (gain_delay hW j c)
    exact this.mono hW0 (mul_le_mul_of_nonneg_left (hWk j hj) (by positivity))
  set F : ℕ → ℝ := fun T => E W (entry1 fs s.knobs x) T + E W (entry2 fs s.knobs x) T with hF
  have hLens : ∀ a b c d : ℝ, combLen fs a ≤ 65536 ∧ combLen fs b ≤ 65536 ∧ combLen fs c ≤ 65536 ∧
      combLen fs d ≤ 65536 := fun a b c d =>
    ⟨combLen_le _ _, combLen_le _ _, combLen_le _ _, combLen_le _ _⟩
  have hq1 : ∀ n, 0 ≤ (k n).diffusion1 ∧ (k n).diffusion1 ≤ 0.751 := fun n =>
    ⟨(i1 n).1, le_trans (i1 n).2 (by norm_num [limit, slow, Settings.knobs])⟩
  have hq2 : ∀ n, 0 ≤ (k n).diffusion2 ∧ (k n).diffusion2 ≤ 0.751 := fun n =>
    ⟨(j1 n).1, le_trans (j1 n).2 (by norm_num [limit, slow, Settings.knobs])⟩
  have U1 := pre_dom (F := F) hW hQ hWQ (k := k)
    (pd := fun n => clip (trunc (fs * (k n).predelay))) (l := lens1 fs) (hLens _ _ _ _) hPL hPH
    (good_mul hPL0 hPL hW hg.low).1 (good_mul hPH0 hPH hW hg.high).1 e1 f1 hq1 hq2 i2 j2
    (x := fun n => (x n).2) (p := fun n => (st n).pre1) rfl (fun n => rfl)
    ⟨1, 0, zero_le_one, le_refl _, fun T => by
      have := E_nonneg hW0 (entry2 fs s.knobs x) T
      have e : E W (fun n => delay (clip (trunc (fs * (k n).predelay)))
        (fun n => (x n).2 * (k n).input) n) T = E W (entry1 fs s.knobs x) T := rfl
      rw [e]; simp only [hF]; linarith⟩
  have U2 := pre_dom (F := F) hW hQ hWQ (k := k)
    (pd := fun n => clip (trunc (fs * (k n).predelay))) (l := lens2 fs) (hLens _ _ _ _) hPL hPH
    (good_mul hPL0 hPL hW hg.low).1 (good_mul hPH0 hPH hW hg.high).1 e1 f1 hq1 hq2 i2 j2
    (x := fun n => (x n).1) (p := fun n => (st n).pre2) rfl (fun n => rfl)
    ⟨1, 0, zero_le_one, le_refl _, fun T => by
      have := E_nonneg hW0 (entry1 fs s.knobs x) T
      have e : E W (fun n => delay (clip (trunc (fs * (k n).predelay)))
        (fun n => (x n).1 * (k n).input) n) T = E W (entry2 fs s.knobs x) T := rfl
      rw [e]; simp only [hF]; linarith⟩
  have hread2 : ∀ n, (st n).t2.outC (lineLen fs 0.106280029)
      = delay (lineLen fs 0.106280029 + 1) (fun n => (st (n + 1)).t2.outC 0) n := by
    intro n
    cases n with
    | zero => simp [hst, states, State.zero, Tank.zero, delay]
    | succ n =>
      rw [lC2 n]
      simp only [delay]
      by_cases h : lineLen fs 0.106280029 ≤ n
      · rw [if_pos h, if_pos (by omega),
          show n + 1 - (lineLen fs 0.106280029 + 1) = n - lineLen fs 0.106280029 by omega]
      · rw [if_neg h, if_neg (by omega)]
  obtain ⟨L, C, hL0, hC0, hloop⟩ := loop_energy hW0 (K := Kt * 1.001 * (1.001 * δ ^ 2))
    (θ := δ ^ 2 * (1 + 1e-5)) (t := 1e-3) (by positivity) (by norm_num) g12
    (x₁ := x1) (x₂ := x2) (c₁ := fun n => (st (n + 1)).t1.outC 0)
    (c₂ := fun n => (st (n + 1)).t2.outC 0)
    (r₂ := fun n => (k n).decay * (st n).t2.outC (lineLen fs 0.106280029))
    (r₁ := fun n => (k n).decay * (st (n + 1)).t1.outC (lineLen fs 0.124995798 + 1))
    (fun n => rfl) (fun n => rfl)
    (by
      rw [show (fun n => (k n).decay * (st (n + 1)).t1.outC (lineLen fs 0.124995798 + 1))
        = fun n => (k n).decay * delay (lineLen fs 0.124995798 + 1)
          (fun n => (st (n + 1)).t1.outC 0) n from funext fun n => by rw [lC1 n]]
      exact back _ _ (by have := lineLen_le fs 0.124995798; omega))
    (by
      rw [show (fun n => (k n).decay * (st n).t2.outC (lineLen fs 0.106280029))
        = fun n => (k n).decay * delay (lineLen fs 0.106280029 + 1)
          (fun n => (st (n + 1)).t2.outC 0) n from funext fun n => by rw [hread2 n]]
      exact back _ _ (by have := lineLen_le fs 0.106280029; omega))
    (full A1 B1 C1) (full A2 B2 C2)
  -- the stages
  obtain ⟨ku1, cu1, hku1, hcu1, hu1⟩ := U1
  obtain ⟨ku2, cu2, hku2, hcu2, hu2⟩ := U2
  have hF0 : ∀ T, 0 ≤ F T := fun T => add_nonneg (E_nonneg hW0 _ _) (E_nonneg hW0 _ _)
  have hboth : ∀ T, E W (fun n => (st (n + 1)).t1.outC 0) T + E W (fun n => (st (n + 1)).t2.outC 0) T
      ≤ (L * (ku1 + ku2)) * F T + (L * (cu1 + cu2) + C) := by
    intro T
    have q := hloop T
    have q1 := hu1 T
    have q2 := hu2 T
    have q3 := mul_le_mul_of_nonneg_left (add_le_add q1 q2) hL0
    refine le_trans q ?_
    linarith
  have DC1 : Dom W F fun n => (st (n + 1)).t1.outC 0 :=
    ⟨L * (ku1 + ku2), L * (cu1 + cu2) + C, by positivity, by positivity, fun T => by
      exact le_trans (le_add_of_nonneg_right (E_nonneg hW0 _ T)) (hboth T)⟩
  have DC2 : Dom W F fun n => (st (n + 1)).t2.outC 0 :=
    ⟨L * (ku1 + ku2), L * (cu1 + cu2) + C, by positivity, by positivity, fun T => by
      exact le_trans (le_add_of_nonneg_left (E_nonneg hW0 _ T)) (hboth T)⟩
  have Dx1 : Dom W F x1 := by
    have q := Gain.dom (by positivity) (back _ (lineLen fs 0.106280029 + 1)
      (by have := lineLen_le fs 0.106280029; omega)) DC2
    have := Dom.add hW0 (⟨ku1, cu1, hku1, hcu1, hu1⟩ : Dom W F _) q
    refine Eq.mp ?_ this
    congr 1
    funext n
    simp only [hx1]
    rw [hread2 n]
  have Dx2 : Dom W F x2 := by
    have q := Gain.dom (by positivity) (back _ (lineLen fs 0.124995798 + 1)
      (by have := lineLen_le fs 0.124995798; omega)) DC1
    have := Dom.add hW0 (⟨ku2, cu2, hku2, hcu2, hu2⟩ : Dom W F _) q
    refine Eq.mp ?_ this
    congr 1
    funext n
    simp only [hx2]
    rw [lC1 n]
  have DA1 := Gain.dom hKt0 A1 Dx1
  have DA2 := Gain.dom hKt0 A2 Dx2
  have DB1 := Gain.dom (by norm_num) B1 DA1
  have DB2 := Gain.dom (by norm_num) B2 DA2
  have dl : ∀ (c : ℕ → ℝ) (j : ℕ), Dom W F c → Dom W F (delay j c) := fun c j h =>
    Gain.dom (pow_nonneg hW0 j) (gain_delay hW j c) h
  intro f hf j
  rcases hf with rfl | rfl | rfl | rfl | rfl | rfl
  · simp only [lA1 _ j]; exact dl _ j DA1
  · simp only [lB1 _ j]; exact dl _ j DB1
  · simp only [lC1 _ j]; exact dl _ j DC1
  · simp only [lA2 _ j]; exact dl _ j DA2
  · simp only [lB2 _ j]; exact dl _ j DB2
  · simp only [lC2 _ j]; exact dl _ j DC2

end Verif.Reverb
