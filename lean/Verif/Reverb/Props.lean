import Verif.Reverb.Stable

/-!
# What the reverb promises

* `reverb_bounded_partial`: whatever is played through it, for as long as one likes, the reverb does not
  run away: an input that stays within a bound gives an output that stays within a bound, for every
  room and every value of the opcodes.
* `reverb_fades_partial`: once the input stops, what comes out dies away at least as fast as some
  falling exponential.
* `mix_linear`: the reverb of a mix is the mix of the reverbs.
* `silence`, `causal`: silence gives silence, and the output so far depends on the input so far only.
* `ring_reads`: the rings hold what the delay lines should hold, as far back as any read goes, until
  the frame counter runs out; `counter_violated`: it does run out, after 2^31 frames.
* `table_in_bounds`, `reads_in_ring`: no read leaves the table of the sine or a ring.
* `dry_path`, `unset_silent`: what `reverb_dry` does; and
  `dry_violated`: the dry signal is missing at first.
* `predelay_settles`, `predelay_violated`: `reverb_predelay` is met within two frames, unless it asks
  for more than 65536 frames.

Missing from the `_partial` theorems: sampling rates below 44100 and above 1000000, and rounding.
-/

namespace Verif.Reverb

open Finset

/-! ## Weights -/

lemma good_one (fs : ℕ) (h1 : 44100 ≤ fs) (h2 : fs ≤ 1000000) (s : Settings) : ∃ W, 1 < W ∧ Good fs s W := by
  have hl : limit (slowPole fs s.knobs.lowpass) < 1 := limit_pole h1 h2 (lpfCutoff_ge _)
  have hh : limit (slowPole fs s.knobs.highpass) < 1 := limit_pole h1 h2 (by norm_num [Settings.knobs])
  have hd : limit (slowPole fs s.knobs.damping) < 1 := limit_pole h1 h2 (lpfCutoff_ge _)
  obtain ⟨c, hc, c1, c2, c3, c4⟩ : ∃ c : ℝ, 0 < c ∧ c ≤ 1e-5 ∧
      c ≤ 1e-5 * (1 - limit (slowPole fs s.knobs.lowpass)) ∧
      c ≤ 1e-5 * (1 - limit (slowPole fs s.knobs.highpass)) ∧
      c ≤ 1e-5 * (1 - limit (slowPole fs s.knobs.damping)) := by
    refine ⟨min (min 1e-5 (1e-5 * (1 - limit (slowPole fs s.knobs.lowpass))))
      (min (1e-5 * (1 - limit (slowPole fs s.knobs.highpass)))
        (1e-5 * (1 - limit (slowPole fs s.knobs.damping)))), ?_, ?_, ?_, ?_, ?_⟩
    · refine lt_min (lt_min (by norm_num) ?_) (lt_min ?_ ?_) <;>
        exact mul_pos (by norm_num) (by linarith)
    · exact le_trans (min_le_left _ _) (min_le_left _ _)
    · exact le_trans (min_le_left _ _) (min_le_right _ _)
    · exact le_trans (min_le_right _ _) (min_le_left _ _)
    · exact le_trans (min_le_right _ _) (min_le_right _ _)
  obtain ⟨Q, hQ⟩ : ∃ Q : ℕ, Q = 65537 := ⟨_, rfl⟩
  have hQ0 : Q ≠ 0 := by omega
  have hpow : ((1 + c) ^ ((Q : ℝ)⁻¹)) ^ Q = 1 + c := Real.rpow_inv_natCast_pow (by linarith) hQ0
  have h1W : 1 < (1 + c) ^ ((Q : ℝ)⁻¹) :=
    Real.one_lt_rpow (by linarith) (inv_pos.2 (by exact_mod_cast Nat.pos_of_ne_zero hQ0))
  have hWc : (1 + c) ^ ((Q : ℝ)⁻¹) ≤ 1 + c := by
    have := le_self_pow₀ h1W.le hQ0
    rwa [hpow] at this
  refine ⟨(1 + c) ^ ((Q : ℝ)⁻¹), h1W, h1W.le, ?_, by linarith, by linarith, by linarith⟩
  rw [← hQ, hpow]
  linarith

lemma E_bounded {W A : ℝ} (hW : 1 < W) {y : ℕ → ℝ} (hy : ∀ n, |y n| ≤ A) (T : ℕ) :
    E W y T ≤ A ^ 2 / (W - 1) * W ^ T := by
  have hA : 0 ≤ A := le_trans (abs_nonneg _) (hy 0)
  have h0 : 0 < W - 1 := by linarith
  have hW1 : W - 1 ≠ 0 := ne_of_gt h0
  induction T with
  | zero =>
    simp only [E, range_zero, sum_empty]
    positivity
  | succ T ih =>
    rw [E_succ]
    have h1 : y T ^ 2 ≤ A ^ 2 := sq_le_sq' (by linarith [neg_abs_le (y T), hy T])
      (le_trans (le_abs_self _) (hy T))
    have h2 : 0 ≤ W ^ T := pow_nonneg (by linarith) T
    have h3 := mul_le_mul_of_nonneg_left h1 h2
    have h4 : A ^ 2 / (W - 1) * W ^ (T + 1) = A ^ 2 / (W - 1) * W ^ T + W ^ T * A ^ 2 := by
      rw [pow_succ]; field_simp; ring
    linarith

lemma E_ended {W : ℝ} (hW : 0 ≤ W) {y : ℕ → ℝ} {N : ℕ} (hy : ∀ n, N ≤ n → y n = 0) (T : ℕ) :
    E W y T ≤ E W y N := by
  rcases le_total T N with h | h
  · exact E_mono hW y h
  · induction T, h using Nat.le_induction with
    | base => exact le_refl _
    | succ T hT ih => rw [E_succ, hy T hT]; simpa using ih

lemma Dom.decays {W : ℝ} (hW : 1 < W) {F : ℕ → ℝ} {y : ℕ → ℝ} (h : Dom W F y) {M : ℝ} (hM : 0 ≤ M)
    (hF : ∀ T, F T ≤ M) : ∃ B, ∀ n, |y n| ≤ B * ((Real.sqrt W)⁻¹) ^ n := by
  obtain ⟨K, C, hK, hC, h⟩ := h
  have hW0 : 0 < W := by linarith
  refine ⟨Real.sqrt (K * M + C), fun n => ?_⟩
  have h1 : W ^ n * y n ^ 2 ≤ K * M + C := by
    have a := h (n + 1)
    rw [E_succ] at a
    have b := E_nonneg hW0.le y n
    have c := mul_le_mul_of_nonneg_left (hF (n + 1)) hK
    linarith
  have hs : 0 < Real.sqrt W := Real.sqrt_pos.2 hW0
  have h2 : (Real.sqrt (K * M + C) * ((Real.sqrt W)⁻¹) ^ n) ^ 2 = (K * M + C) / W ^ n := by
    rw [mul_pow, Real.sq_sqrt (by positivity), ← pow_mul, mul_comm n 2, pow_mul, inv_pow,
      Real.sq_sqrt hW0.le, inv_pow]
    rfl
  refine abs_le_of_sq_le_sq ?_ (by positivity)
  rw [h2, le_div_iff₀ (by positivity)]
  linarith

/-! ## The output -/

/-- The energy of an input and of what leaves the predelay. -/
noncomputable def base (fs : ℕ) (s : Knobs) (W : ℝ) (x : ℕ → ℝ × ℝ) (T : ℕ) : ℝ :=
  E W (entry1 fs s x) T + E W (entry2 fs s x) T + (E W (fun n => (x n).1) T + E W (fun n => (x n).2) T)

lemma Dom.smul {W : ℝ} (hW : 0 ≤ W) {F : ℕ → ℝ} {y : ℕ → ℝ} (h : Dom W F y) {c : ℕ → ℝ} {δ : ℝ}
    (hc : ∀ n, |c n| ≤ δ) : Dom W F fun n => c n * y n :=
  Gain.dom (sq_nonneg δ) (gain_mul hW hc y) h

lemma output_dom {fs : ℕ} (h1 : 44100 ≤ fs) (h2 : fs ≤ 1000000) {s : Settings} (hv : s.Valid) {W : ℝ}
    (hg : Good fs s W) (x : ℕ → ℝ × ℝ) :
    Dom W (base fs s.knobs W x) (fun n => (process fs s.knobs x n).1) ∧
      Dom W (base fs s.knobs W x) fun n => (process fs s.knobs x n).2 := by
  have hW0 : 0 ≤ W := by linarith [hg.one]
  have hE := fun (y : ℕ → ℝ) T => E_nonneg hW0 y T
  have key : ∀ f : State → Line, (f = fun st => st.t1.outA) ∨ (f = fun st => st.t1.outB) ∨
      (f = fun st => st.t1.outC) ∨ (f = fun st => st.t2.outA) ∨ (f = fun st => st.t2.outB) ∨
      (f = fun st => st.t2.outC) → ∀ j,
      Dom W (base fs s.knobs W x) fun n => f (states fs s.knobs x (n + 1)) j := by
    intro f hf j
    obtain ⟨K, C, hK, hC, h⟩ := tank_dom h1 h2 hv hg x f hf j
    refine ⟨K, C, hK, hC, fun T => le_trans (h T) ?_⟩
    have : K * (E W (entry1 fs s.knobs x) T + E W (entry2 fs s.knobs x) T) ≤ K * base fs s.knobs W x T :=
      mul_le_mul_of_nonneg_left (by
        simp only [base]; linarith [hE (fun n => (x n).1) T, hE (fun n => (x n).2) T]) hK
    linarith
  have kA := fun j => key _ (Or.inl rfl) j
  have kB := fun j => key _ (Or.inr (Or.inl rfl)) j
  have kC := fun j => key _ (Or.inr (Or.inr (Or.inl rfl))) j
  have mA := fun j => key _ (Or.inr (Or.inr (Or.inr (Or.inl rfl)))) j
  have mB := fun j => key _ (Or.inr (Or.inr (Or.inr (Or.inr (Or.inl rfl))))) j
  have mC := fun j => key _ (Or.inr (Or.inr (Or.inr (Or.inr (Or.inr rfl))))) j
  have dx1 : Dom W (base fs s.knobs W x) fun n => (x n).1 :=
    ⟨1, 0, zero_le_one, le_refl _, fun T => by
      simp only [base]
      linarith [hE (entry1 fs s.knobs x) T, hE (entry2 fs s.knobs x) T, hE (fun n => (x n).2) T]⟩
  have dx2 : Dom W (base fs s.knobs W x) fun n => (x n).2 :=
    ⟨1, 0, zero_le_one, le_refl _, fun T => by
      simp only [base]
      linarith [hE (entry1 fs s.knobs x) T, hE (entry2 fs s.knobs x) T, hE (fun n => (x n).1) T]⟩
  obtain ⟨p1, p2, p3, p4, p5, p6, p7⟩ := profile_range s.room
  have rd := (ramp_succ (knob_ramp fs s.knobs x (·.dry) rfl fun _ _ => rfl)
    (show 0 ≤ (slow fs s.knobs).dry by
      have := hv.dry.1
      simp only [slow, Settings.knobs, p6]; positivity)).1
  have rw' := (ramp_succ (knob_ramp fs s.knobs x (·.wet) rfl fun _ _ => rfl)
    (show 0 ≤ (slow fs s.knobs).wet by
      have := hv.wet.1
      simp only [slow, Settings.knobs, p7]; positivity)).1
  have hd : ∀ n, |(states fs s.knobs x (n + 1)).knobs.dry| ≤ limit (slow fs s.knobs).dry := fun n => by
    rw [abs_of_nonneg (rd n).1]; exact (rd n).2
  have hw : ∀ n, |0.600000024 * (states fs s.knobs x (n + 1)).knobs.wet|
      ≤ 0.600000024 * limit (slow fs s.knobs).wet := fun n => by
    rw [abs_of_nonneg (mul_nonneg (by norm_num) (rw' n).1)]
    exact mul_le_mul_of_nonneg_left (rw' n).2 (by norm_num)
  have neg : ∀ y : ℕ → ℝ, Dom W (base fs s.knobs W x) y → Dom W (base fs s.knobs W x) fun n => -y n :=
    fun y h => h.mono hW0 fun n => by rw [abs_neg]
  constructor
  · have d := Dom.add hW0 (dx1.smul hW0 hd) (Dom.smul hW0 (Dom.add hW0
      (Dom.add hW0 (Dom.add hW0 (kA (lineLen fs 0.00893787201)) (kA (lineLen fs 0.099929437)))
        (kC (lineLen fs 0.067067638)))
      (neg _ (Dom.add hW0 (Dom.add hW0 (Dom.add hW0 (kB (lineLen fs 0.0642787516))
        (mA (lineLen fs 0.0668660328))) (mB (lineLen fs 0.0062833908)))
        (mC (lineLen fs 0.0358186886))))) hw)
    refine Eq.mp ?_ d
    congr 1
    funext n
    simp only [process, output]
    ring
  · have d := Dom.add hW0 (dx2.smul hW0 hd) (Dom.smul hW0 (Dom.add hW0
      (Dom.add hW0 (Dom.add hW0 (mA (lineLen fs 0.0118611604)) (mA (lineLen fs 0.121870905)))
        (mC (lineLen fs 0.0898155272)))
      (neg _ (Dom.add hW0 (Dom.add hW0 (Dom.add hW0 (mB (lineLen fs 0.041262053))
        (kA (lineLen fs 0.070931755))) (kB (lineLen fs 0.0112563418)))
        (kC (lineLen fs 0.00406572362))))) hw)
    refine Eq.mp ?_ d
    congr 1
    funext n
    simp only [process, output]
    ring

lemma input_ramp {s : Settings} (hv : s.Valid) (fs : ℕ) (x : ℕ → ℝ × ℝ) (n : ℕ) :
    |(states fs s.knobs x (n + 1)).knobs.input| ≤ limit (slow fs s.knobs).input := by
  have := (ramp_succ (knob_ramp fs s.knobs x (·.input) rfl fun _ _ => rfl)
    (show 0 ≤ (slow fs s.knobs).input from mul_nonneg (by norm_num) hv.input.1)).1 n
  rw [abs_of_nonneg this.1]; exact this.2

lemma clip_le (i : ℤ) : clip i ≤ 65536 := by unfold clip; omega

/-- However long it plays, and whatever is played: if the input stays within a bound, so does the
output.  For every kind of room and every value of the other opcodes. -/
theorem reverb_bounded_partial {fs : ℕ} (h1 : 44100 ≤ fs) (h2 : fs ≤ 1000000) {s : Settings}
    (hv : s.Valid) (x : ℕ → ℝ × ℝ) (A : ℝ) (hx : ∀ n, |(x n).1| ≤ A ∧ |(x n).2| ≤ A) :
    ∃ B, ∀ n, |(process fs s.knobs x n).1| ≤ B ∧ |(process fs s.knobs x n).2| ≤ B := by
  obtain ⟨W, hW, hg⟩ := good_one fs h1 h2 s
  have hA : 0 ≤ A := le_trans (abs_nonneg _) (hx 0).1
  obtain ⟨d1, d2⟩ := output_dom h1 h2 hv hg x
  set I := limit (slow fs s.knobs).input with hI
  have hI0 : 0 ≤ I := le_trans (abs_nonneg _) (input_ramp hv fs x 0)
  have en : ∀ (y : ℕ → ℝ) (k : ℕ → ℕ), (∀ n, |y n| ≤ A) → ∀ n,
      |delay (k n) (fun n => y n * (states fs s.knobs x (n + 1)).knobs.input) n| ≤ A * I := by
    intro y k hy n
    simp only [delay]
    split
    · rw [abs_mul]
      exact mul_le_mul (hy _) (input_ramp hv fs x _) (abs_nonneg _) hA
    · simp only [abs_zero]; positivity
  have hF : ∀ T, base fs s.knobs W x T ≤ (2 * ((A * I) ^ 2 / (W - 1)) + 2 * (A ^ 2 / (W - 1))) * W ^ T := by
    intro T
    have q1 := E_bounded hW (fun n => en (fun n => (x n).2) (fun n =>
      clip (trunc (fs * (states fs s.knobs x (n + 1)).knobs.predelay))) (fun n => (hx n).2) n) T
    have q2 := E_bounded hW (fun n => en (fun n => (x n).1) (fun n =>
      clip (trunc (fs * (states fs s.knobs x (n + 1)).knobs.predelay))) (fun n => (hx n).1) n) T
    have q3 := E_bounded hW (fun n => (hx n).1) T
    have q4 := E_bounded hW (fun n => (hx n).2) T
    have e1 : E W (entry1 fs s.knobs x) T ≤ (A * I) ^ 2 / (W - 1) * W ^ T := q1
    have e2 : E W (entry2 fs s.knobs x) T ≤ (A * I) ^ 2 / (W - 1) * W ^ T := q2
    simp only [base]
    linarith
  have h0 : 0 < W - 1 := by linarith
  have hM : 0 ≤ 2 * ((A * I) ^ 2 / (W - 1)) + 2 * (A ^ 2 / (W - 1)) := by positivity
  obtain ⟨B1, b1⟩ := d1.bounded hW.le hM hF
  obtain ⟨B2, b2⟩ := d2.bounded hW.le hM hF
  exact ⟨max B1 B2, fun n => ⟨le_trans (b1 n) (le_max_left _ _), le_trans (b2 n) (le_max_right _ _)⟩⟩

/-- Once the input stops, what comes out dies away at least as fast as some falling exponential. -/
theorem reverb_fades_partial {fs : ℕ} (h1 : 44100 ≤ fs) (h2 : fs ≤ 1000000) {s : Settings}
    (hv : s.Valid) (x : ℕ → ℝ × ℝ) (N : ℕ) (hx : ∀ n, N ≤ n → x n = (0, 0)) :
    ∃ B q, 0 ≤ q ∧ q < 1 ∧
      ∀ n, |(process fs s.knobs x n).1| ≤ B * q ^ n ∧ |(process fs s.knobs x n).2| ≤ B * q ^ n := by
  obtain ⟨W, hW, hg⟩ := good_one fs h1 h2 s
  have hW0 : 0 ≤ W := by linarith
  obtain ⟨d1, d2⟩ := output_dom h1 h2 hv hg x
  have en : ∀ (y : ℕ → ℝ) (k : ℕ → ℕ), (∀ n, k n ≤ 65536) → (∀ n, N ≤ n → y n = 0) →
      ∀ n, N + 65536 ≤ n →
      delay (k n) (fun n => y n * (states fs s.knobs x (n + 1)).knobs.input) n = 0 := by
    intro y k hk hy n hn
    simp only [delay]
    have := hk n
    split
    · rw [hy _ (by omega), zero_mul]
    · rfl
  have z1 : ∀ n, N ≤ n → (x n).1 = 0 := fun n hn => by rw [hx n hn]
  have z2 : ∀ n, N ≤ n → (x n).2 = 0 := fun n hn => by rw [hx n hn]
  have hF : ∀ T, base fs s.knobs W x T ≤ E W (entry1 fs s.knobs x) (N + 65536)
      + E W (entry2 fs s.knobs x) (N + 65536) + (E W (fun n => (x n).1) N + E W (fun n => (x n).2) N) := by
    intro T
    have q1 : E W (entry1 fs s.knobs x) T ≤ E W (entry1 fs s.knobs x) (N + 65536) :=
      E_ended hW0 (fun n hn => en (fun n => (x n).2) (fun n =>
        clip (trunc (fs * (states fs s.knobs x (n + 1)).knobs.predelay))) (fun n => clip_le _) z2 n hn) T
    have q2 : E W (entry2 fs s.knobs x) T ≤ E W (entry2 fs s.knobs x) (N + 65536) :=
      E_ended hW0 (fun n hn => en (fun n => (x n).1) (fun n =>
        clip (trunc (fs * (states fs s.knobs x (n + 1)).knobs.predelay))) (fun n => clip_le _) z1 n hn) T
    have q3 := E_ended hW0 z1 T
    have q4 := E_ended hW0 z2 T
    simp only [base]
    linarith
  have hM : 0 ≤ E W (entry1 fs s.knobs x) (N + 65536) + E W (entry2 fs s.knobs x) (N + 65536)
      + (E W (fun n => (x n).1) N + E W (fun n => (x n).2) N) :=
    add_nonneg (add_nonneg (E_nonneg hW0 _ _) (E_nonneg hW0 _ _))
      (add_nonneg (E_nonneg hW0 _ _) (E_nonneg hW0 _ _))
  obtain ⟨B1, b1⟩ := d1.decays hW hM hF
  obtain ⟨B2, b2⟩ := d2.decays hW hM hF
  have hq : 0 ≤ (Real.sqrt W)⁻¹ := by positivity
  refine ⟨max B1 B2, (Real.sqrt W)⁻¹, hq, ?_, fun n => ⟨le_trans (b1 n) ?_, le_trans (b2 n) ?_⟩⟩
  · apply inv_lt_one_of_one_lt₀
    rw [Real.lt_sqrt zero_le_one]
    linarith
  · exact mul_le_mul_of_nonneg_right (le_max_left _ _) (pow_nonneg hq n)
  · exact mul_le_mul_of_nonneg_right (le_max_right _ _) (pow_nonneg hq n)

/-- The chamber at full size, all knobs up. -/
noncomputable def chamber : Settings := ⟨.chamber, 100, 100, 100, 100, 0.05, 100, 0⟩

lemma chamber_valid : chamber.Valid := by constructor <;> norm_num [chamber]

/-- A click. -/
noncomputable def click : ℕ → ℝ × ℝ := fun n => if n = 0 then (1, -1) else (0, 0)

example : ∃ B, ∀ n, |(process 48000 chamber.knobs (fun n => (Real.sin n, 1)) n).1| ≤ B ∧
    |(process 48000 chamber.knobs (fun n => (Real.sin n, 1)) n).2| ≤ B :=
  reverb_bounded_partial (by norm_num) (by norm_num) chamber_valid _ 1
    fun n => ⟨Real.abs_sin_le_one _, by norm_num⟩

example : ∃ B q, 0 ≤ q ∧ q < 1 ∧ ∀ n, |(process 96000 chamber.knobs click n).1| ≤ B * q ^ n ∧
    |(process 96000 chamber.knobs click n).2| ≤ B * q ^ n :=
  reverb_fades_partial (by norm_num) (by norm_num) chamber_valid click 1
    fun n hn => by simp [click, show n ≠ 0 by omega]

/-! ## Mixing -/

section Mix
variable (a b : ℝ)

/-- A line that mixes two lines. -/
def LineMix (l1 l2 l3 : Line) : Prop := ∀ k, l3 k = a * l1 k + b * l2 k

/-- A comb that mixes two combs. -/
def CombMix (c1 c2 c3 : Comb) : Prop :=
  LineMix a b c1.line c2.line c3.line ∧ c3.mem = a * c1.mem + b * c2.mem

/-- The same before the tank. -/
def PreMix (p1 p2 p3 : Pre) : Prop :=
  LineMix a b p1.line p2.line p3.line ∧ p3.lp = a * p1.lp + b * p2.lp ∧ p3.hp = a * p1.hp + b * p2.hp ∧
    CombMix a b p1.c1 p2.c1 p3.c1 ∧ CombMix a b p1.c2 p2.c2 p3.c2 ∧ CombMix a b p1.c3 p2.c3 p3.c3 ∧
    CombMix a b p1.c4 p2.c4 p3.c4

/-- The same for half of the tank. -/
def TankMix (t1 t2 t3 : Tank) : Prop :=
  CombMix a b t1.tail t2.tail t3.tail ∧ (t2.fade = t1.fade ∧ t3.fade = t1.fade) ∧
    LineMix a b t1.mid t2.mid t3.mid ∧ t3.damp = a * t1.damp + b * t2.damp ∧
    CombMix a b t1.comb t2.comb t3.comb ∧ LineMix a b t1.outA t2.outA t3.outA ∧
    LineMix a b t1.outB t2.outB t3.outB ∧ LineMix a b t1.outC t2.outC t3.outC

/-- The same for all memory. -/
def StateMix (s1 s2 s3 : State) : Prop :=
  (s2.knobs = s1.knobs ∧ s3.knobs = s1.knobs) ∧ (s2.phase = s1.phase ∧ s3.phase = s1.phase) ∧
    PreMix a b s1.pre1 s2.pre1 s3.pre1 ∧ PreMix a b s1.pre2 s2.pre2 s3.pre2 ∧
    TankMix a b s1.t1 s2.t1 s3.t1 ∧ TankMix a b s1.t2 s2.t2 s3.t2

variable {a b}

lemma push_mix {l1 l2 l3 : Line} (h : LineMix a b l1 l2 l3) {v1 v2 v3 : ℝ} (hv : v3 = a * v1 + b * v2) :
    LineMix a b (push v1 l1) (push v2 l2) (push v3 l3) := by
  intro k
  cases k with
  | zero => exact hv
  | succ k => exact h k

lemma comb_mix {c1 c2 c3 : Comb} (h : CombMix a b c1 c2 c3) {x1 x2 x3 : ℝ} (hx : x3 = a * x1 + b * x2)
    (g : ℝ) (len : ℕ) :
    CombMix a b (comb g len x1 c1).1 (comb g len x2 c2).1 (comb g len x3 c3).1 ∧
      (comb g len x3 c3).2 = a * (comb g len x1 c1).2 + b * (comb g len x2 c2).2 := by
  have hp : LineMix a b (push (x1 - g * c1.mem) c1.line) (push (x2 - g * c2.mem) c2.line)
      (push (x3 - g * c3.mem) c3.line) := push_mix h.1 (by rw [hx, h.2]; ring)
  refine ⟨⟨hp, hp len⟩, ?_⟩
  simp only [comb]
  rw [hx, h.2]; ring

lemma pre_mix {p1 p2 p3 : Pre} (h : PreMix a b p1 p2 p3) {x1 x2 x3 : ℝ} (hx : x3 = a * x1 + b * x2)
    (k : Knobs) (pd : ℕ) (l : Lens) :
    PreMix a b (p1.step k pd l x1).1 (p2.step k pd l x2).1 (p3.step k pd l x3).1 ∧
      (p3.step k pd l x3).2 = a * (p1.step k pd l x1).2 + b * (p2.step k pd l x2).2 := by
  obtain ⟨h1, h2, h3, h4, h5, h6, h7⟩ := h
  have hl := push_mix h1 (v1 := x1 * k.input) (v2 := x2 * k.input) (v3 := x3 * k.input)
    (by rw [hx]; ring)
  have hlp : (push (x3 * k.input) p3.line pd + k.lowpass * p3.lp)
      = a * (push (x1 * k.input) p1.line pd + k.lowpass * p1.lp)
        + b * (push (x2 * k.input) p2.line pd + k.lowpass * p2.lp) := by
    rw [hl pd, h2]; ring
  have hhp : (push (x3 * k.input) p3.line pd + k.lowpass * p3.lp) * (1 - k.lowpass) + k.highpass * p3.hp
      = a * ((push (x1 * k.input) p1.line pd + k.lowpass * p1.lp) * (1 - k.lowpass) + k.highpass * p1.hp)
        + b * ((push (x2 * k.input) p2.line pd + k.lowpass * p2.lp) * (1 - k.lowpass)
          + k.highpass * p2.hp) := by
    rw [hlp, h3]; ring
  have q1 := comb_mix h4 (x1 := 0.5 * (((push (x1 * k.input) p1.line pd + k.lowpass * p1.lp)
      * (1 - k.lowpass) + k.highpass * p1.hp) * (k.highpass + 1))
        + p1.hp * (0 - 0.5 * (k.highpass + 1)))
    (x2 := 0.5 * (((push (x2 * k.input) p2.line pd + k.lowpass * p2.lp)
      * (1 - k.lowpass) + k.highpass * p2.hp) * (k.highpass + 1))
        + p2.hp * (0 - 0.5 * (k.highpass + 1)))
    (x3 := 0.5 * (((push (x3 * k.input) p3.line pd + k.lowpass * p3.lp)
      * (1 - k.lowpass) + k.highpass * p3.hp) * (k.highpass + 1))
        + p3.hp * (0 - 0.5 * (k.highpass + 1)))
    (by rw [hhp, h3]; ring) k.diffusion1 l.d1
  have q2 := comb_mix h5 q1.2 k.diffusion1 l.d2
  have q3 := comb_mix h6 q2.2 k.diffusion2 l.d3
  have q4 := comb_mix h7 q3.2 k.diffusion2 l.d4
  exact ⟨⟨hl, hlp, hhp, q1.1, q2.1, q3.1, q4.1⟩, q4.2⟩

lemma tank_mix {t1 t2 t3 : Tank} (h : TankMix a b t1 t2 t3) {x1 x2 x3 : ℝ} (hx : x3 = a * x1 + b * x2)
    (k : Knobs) (c : ℝ) (t : ℤ) (dMid dComb : ℕ) :
    TankMix a b (t1.step k c t dMid dComb x1) (t2.step k c t dMid dComb x2)
      (t3.step k c t dMid dComb x3) := by
  obtain ⟨h1, ⟨f2, f3⟩, h3, h4, h5, h6, h7, h8⟩ := h
  have hu : x3 + k.density * t3.tail.mem
      = a * (x1 + k.density * t1.tail.mem) + b * (x2 + k.density * t2.tail.mem) := by
    rw [hx, h1.2]; ring
  have hl := push_mix h1.1 hu
  have ha : (0 - k.density * (x3 + k.density * t3.tail.mem)) + t3.tail.mem
      = a * ((0 - k.density * (x1 + k.density * t1.tail.mem)) + t1.tail.mem)
        + b * ((0 - k.density * (x2 + k.density * t2.tail.mem)) + t2.tail.mem) := by
    rw [hu, h1.2]; ring
  have hm := push_mix h3 ha
  have hd : push ((0 - k.density * (x3 + k.density * t3.tail.mem)) + t3.tail.mem) t3.mid dMid
        + k.damping * t3.damp
      = a * (push ((0 - k.density * (x1 + k.density * t1.tail.mem)) + t1.tail.mem) t1.mid dMid
          + k.damping * t1.damp)
        + b * (push ((0 - k.density * (x2 + k.density * t2.tail.mem)) + t2.tail.mem) t2.mid dMid
          + k.damping * t2.damp) := by
    rw [hm dMid, h4]; ring
  have hb : (push ((0 - k.density * (x3 + k.density * t3.tail.mem)) + t3.tail.mem) t3.mid dMid
        + k.damping * t3.damp) * (1 - k.damping)
      = a * ((push ((0 - k.density * (x1 + k.density * t1.tail.mem)) + t1.tail.mem) t1.mid dMid
          + k.damping * t1.damp) * (1 - k.damping))
        + b * ((push ((0 - k.density * (x2 + k.density * t2.tail.mem)) + t2.tail.mem) t2.mid dMid
          + k.damping * t2.damp) * (1 - k.damping)) := by
    rw [hd]; ring
  have hr := comb_mix h5 (x1 := k.decay * ((push ((0 - k.density * (x1 + k.density * t1.tail.mem))
      + t1.tail.mem) t1.mid dMid + k.damping * t1.damp) * (1 - k.damping)))
    (x2 := k.decay * ((push ((0 - k.density * (x2 + k.density * t2.tail.mem))
      + t2.tail.mem) t2.mid dMid + k.damping * t2.damp) * (1 - k.damping)))
    (x3 := k.decay * ((push ((0 - k.density * (x3 + k.density * t3.tail.mem))
      + t3.tail.mem) t3.mid dMid + k.damping * t3.damp) * (1 - k.damping)))
    (by rw [hb]; ring) (-diffusion k.decay) dComb
  refine ⟨⟨hl, ?_⟩, ⟨?_, ?_⟩, hm, hd, hr.1, push_mix h6 ha, push_mix h7 hb, push_mix h8 hr.2⟩
  · simp only [Tank.step]
    rw [f2, f3, hl _, hl _]; ring
  · simp only [Tank.step]; rw [f2]
  · simp only [Tank.step]; rw [f3]

lemma states_mix (fs : ℕ) (s : Knobs) (x y : ℕ → ℝ × ℝ) (n : ℕ) :
    StateMix a b (states fs s x n) (states fs s y n)
      (states fs s (fun n => (a * (x n).1 + b * (y n).1, a * (x n).2 + b * (y n).2)) n) := by
  induction n with
  | zero =>
    have hl : LineMix a b (fun _ => 0) (fun _ => 0) fun _ => 0 := fun k => by simp
    have hc : CombMix a b .zero .zero .zero := ⟨hl, by simp [Comb.zero]⟩
    have hp : PreMix a b .zero .zero .zero :=
      ⟨hl, by simp [Pre.zero], by simp [Pre.zero], hc, hc, hc, hc⟩
    have ht : TankMix a b .zero .zero .zero :=
      ⟨hc, ⟨rfl, rfl⟩, hl, by simp [Tank.zero], hc, hl, hl, hl⟩
    exact ⟨⟨rfl, rfl⟩, ⟨rfl, rfl⟩, hp, hp, ht, ht⟩
  | succ n ih =>
    obtain ⟨⟨k2, k3⟩, ⟨φ2, φ3⟩, p1, p2, t1, t2⟩ := ih
    simp only [states, step]
    rw [k2, k3, φ2, φ3]
    refine ⟨⟨rfl, rfl⟩, ⟨rfl, rfl⟩, (pre_mix p1 rfl _ _ _).1, (pre_mix p2 rfl _ _ _).1, ?_, ?_⟩
    · refine tank_mix t1 ?_ _ _ _ _ _
      rw [(pre_mix p1 rfl _ _ _).2, t2.2.2.2.2.2.2.2 _]; ring
    · refine tank_mix t2 ?_ _ _ _ _ _
      have q := tank_mix t1 (x1 := ((states fs s x n).pre1.step ((slow fs s).step (states fs s x n).knobs)
          (clip (trunc (fs * ((slow fs s).step (states fs s x n).knobs).predelay))) (lens1 fs) (x n).2).2
          + ((slow fs s).step (states fs s x n).knobs).decay
            * (states fs s x n).t2.outC (lineLen fs 0.106280029))
        (x2 := ((states fs s y n).pre1.step ((slow fs s).step (states fs s x n).knobs)
          (clip (trunc (fs * ((slow fs s).step (states fs s x n).knobs).predelay))) (lens1 fs) (y n).2).2
          + ((slow fs s).step (states fs s x n).knobs).decay
            * (states fs s y n).t2.outC (lineLen fs 0.106280029))
        (x3 := ((states fs s (fun n => (a * (x n).1 + b * (y n).1, a * (x n).2 + b * (y n).2)) n).pre1.step
          ((slow fs s).step (states fs s x n).knobs)
          (clip (trunc (fs * ((slow fs s).step (states fs s x n).knobs).predelay))) (lens1 fs)
          (a * (x n).2 + b * (y n).2)).2
          + ((slow fs s).step (states fs s x n).knobs).decay
            * (states fs s (fun n => (a * (x n).1 + b * (y n).1, a * (x n).2 + b * (y n).2)) n).t2.outC
              (lineLen fs 0.106280029))
        (by rw [(pre_mix p1 rfl _ _ _).2, t2.2.2.2.2.2.2.2 _]; ring)
        ((slow fs s).step (states fs s x n).knobs) (1 / (fadeLen fs : ℝ))
        (target1 fs ((slow fs s).step (states fs s x n).knobs)
          (nextPhase fs ((slow fs s).step (states fs s x n).knobs) (states fs s x n).phase))
        (lineLen fs 0.141695514) (combLen fs 0.0892443135)
      rw [(pre_mix p2 rfl _ _ _).2, q.2.2.2.2.2.2.2 _]; ring

end Mix

/-- The reverb of a mix of two signals is the mix of their reverbs. -/
theorem mix_linear (fs : ℕ) (s : Knobs) (x y : ℕ → ℝ × ℝ) (a b : ℝ) (n : ℕ) :
    process fs s (fun n => (a * (x n).1 + b * (y n).1, a * (x n).2 + b * (y n).2)) n
      = (a * (process fs s x n).1 + b * (process fs s y n).1,
        a * (process fs s x n).2 + b * (process fs s y n).2) := by
  obtain ⟨⟨k2, k3⟩, -, -, -, t1, t2⟩ := states_mix (a := a) (b := b) fs s x y (n + 1)
  obtain ⟨-, -, -, -, -, a1, b1, c1⟩ := t1
  obtain ⟨-, -, -, -, -, a2, b2, c2⟩ := t2
  simp only [process, output]
  rw [k2, k3]
  simp only [a1 _, b1 _, c1 _, a2 _, b2 _, c2 _, Prod.mk.injEq]
  constructor <;> ring

/-- Silence in, silence out. -/
theorem silence (fs : ℕ) (s : Knobs) (n : ℕ) : process fs s (fun _ => (0, 0)) n = (0, 0) := by
  have := mix_linear fs s (fun _ => (0, 0)) (fun _ => (0, 0)) 0 0 n
  simpa using this

/-- What has come out so far depends only on what has gone in so far. -/
theorem causal (fs : ℕ) (s : Knobs) (x y : ℕ → ℝ × ℝ) (n : ℕ) (h : ∀ m, m ≤ n → x m = y m) :
    process fs s x n = process fs s y n := by
  have : ∀ m, m ≤ n + 1 → states fs s x m = states fs s y m := by
    intro m
    induction m with
    | zero => intro _; rfl
    | succ m ih => intro hm; simp only [states]; rw [ih (by omega), h m (by omega)]
  simp only [process]
  rw [this (n + 1) le_rfl, h n le_rfl]

/-! ## The rings -/

/-- The ring before frame `n`, when `v n` is written in frame `n`. -/
def ringAfter (v : ℕ → ℝ) : ℕ → Option Ring
  | 0 => some .zero
  | n + 1 => (ringAfter v n).bind fun r => (r.write (v n)).next

lemma and_mask (n : ℕ) (x : BitVec 32) (h : x.toNat = n) : (x &&& 131071#32).toNat = n % 131072 := by
  rw [BitVec.toNat_and, h, show (131071#32).toNat = 2 ^ 17 - 1 from rfl, Nat.and_two_pow_sub_one_eq_mod]

lemma sub_mask (n k : ℕ) (x : BitVec 32) (h : x.toNat = n) :
    ((x - BitVec.ofNat 32 k) &&& 131071#32).toNat = (n + (131072 - k % 131072)) % 131072 := by
  rw [BitVec.toNat_and, show (131071#32).toNat = 2 ^ 17 - 1 from rfl, Nat.and_two_pow_sub_one_eq_mod,
    BitVec.toNat_sub, BitVec.toNat_ofNat, h]
  omega

lemma ring_all (v : ℕ → ℝ) (n : ℕ) (hn : n < 2 ^ 31) :
    ∃ r, ringAfter v n = some r ∧ r.iota.toNat = n ∧
      ∀ i, i < 131072 → r.cells i
        = if n = 0 then 0 else delay ((n - 1 + (131072 - i)) % 131072) v (n - 1) := by
  induction n with
  | zero => exact ⟨.zero, rfl, rfl, fun i _ => rfl⟩
  | succ n ih =>
    obtain ⟨r, h1, h2, h3⟩ := ih (by omega)
    refine ⟨{ r.write (v n) with iota := r.iota + 1 }, ?_, ?_, ?_⟩
    · rw [ringAfter, h1, Option.bind_some, Ring.next,
        if_pos (show (r.write (v n)).iota.toNat + 1 < 2 ^ 31 by simp only [Ring.write]; omega)]
      rfl
    · simp only [Ring.write]
      rw [BitVec.toNat_add, h2, show (1 : BitVec 32).toNat = 1 from rfl]
      omega
    · intro i hi
      simp only [Ring.write, and_mask n _ h2]
      rw [if_neg (Nat.succ_ne_zero n), Nat.add_sub_cancel]
      by_cases e : i = n % 131072
      · rw [if_pos e]
        have : (n + (131072 - i)) % 131072 = 0 := by omega
        rw [this, delay, if_pos (Nat.zero_le _), Nat.sub_zero]
      · rw [if_neg e, h3 i hi]
        by_cases h0 : n = 0
        · subst h0
          rw [if_pos rfl, delay, if_neg (by omega)]
        · rw [if_neg h0]
          have q : (n + (131072 - i)) % 131072 = (n - 1 + (131072 - i)) % 131072 + 1 := by omega
          rw [q]
          simp only [delay]
          by_cases h : (n - 1 + (131072 - i)) % 131072 ≤ n - 1
          · rw [if_pos h, if_pos (by omega)]; congr 1; omega
          · rw [if_neg h, if_neg (by omega)]

/-- For the first 2^31 frames, reading `k` frames back in a ring gives what was written `k` frames
ago, or silence if that is before the start, for every `k` up to 131071. -/
theorem ring_reads (v : ℕ → ℝ) (n : ℕ) (hn : n < 2 ^ 31) :
    ∃ r, ringAfter v n = some r ∧
      ∀ k, k ≤ 131071 → (r.write (v n)).read k = if k ≤ n then v (n - k) else 0 := by
  obtain ⟨r, h1, h2, h3⟩ := ring_all v n hn
  refine ⟨r, h1, fun k hk => ?_⟩
  simp only [Ring.read, Ring.write, sub_mask n k _ h2, and_mask n _ h2]
  by_cases e : k = 0
  · subst e
    rw [if_pos (by omega), if_pos (Nat.zero_le _), Nat.sub_zero]
  · rw [if_neg (by omega), h3 _ (by omega)]
    by_cases h0 : n = 0
    · rw [if_pos h0, if_neg (by omega)]
    · rw [if_neg h0]
      have q : (n - 1 + (131072 - (n + (131072 - k % 131072)) % 131072)) % 131072 = k - 1 := by omega
      rw [q]
      simp only [delay]
      by_cases h : k ≤ n
      · rw [if_pos h, if_pos (by omega)]; congr 1; omega
      · rw [if_neg h, if_neg (by omega)]

example : ∃ r, ringAfter (fun n => n) 1000000 = some r ∧
    (r.write 1000000).read 65537 = 1000000 - 65537 := by
  obtain ⟨r, h, hr⟩ := ring_reads (fun n => (n : ℝ)) 1000000 (by norm_num)
  refine ⟨r, h, ?_⟩
  have := hr 65537 (by norm_num)
  norm_num at this ⊢
  exact this

/-- The same for the lines of the model: whatever the ring holds, the line holds. -/
theorem ring_is_line (L : ℕ → Line) (v : ℕ → ℝ) (h0 : L 0 = fun _ => 0)
    (hL : ∀ n, L (n + 1) = push (v n) (L n)) (n : ℕ) (hn : n < 2 ^ 31) :
    ∃ r, ringAfter v n = some r ∧ ∀ k, k ≤ 131071 → (r.write (v n)).read k = L (n + 1) k := by
  obtain ⟨r, h, hr⟩ := ring_reads v n hn
  exact ⟨r, h, fun k hk => by rw [hr k hk, line_all h0 hL n k, delay]⟩

example : ∃ r, ringAfter (fun n => (n : ℝ)) 3 = some r ∧
    (r.write ((3 : ℕ) : ℝ)).read 2
      = (push (3 : ℕ) (push (2 : ℕ) (push (1 : ℕ) (push (0 : ℕ) fun _ => 0)))) 2 := by
  obtain ⟨r, h, hr⟩ := ring_is_line
    (fun n => Nat.rec (fun _ => 0) (fun n l => push (n : ℝ) l) n) (fun n => (n : ℝ)) rfl (fun n => rfl)
    3 (by norm_num)
  exact ⟨r, h, hr 2 (by norm_num)⟩

/-- VIOLATED: "the effect can run for ever".  After 2^31 frames (12.4 hours at 48 kHz) the counter,
an `int`, overflows, which has no defined result. -/
theorem counter_violated (v : ℕ → ℝ) : ringAfter v (2 ^ 31) = none := by
  obtain ⟨r, h, h2, -⟩ := ring_all v (2 ^ 31 - 1) (by norm_num)
  rw [show (2 ^ 31 : ℕ) = (2 ^ 31 - 1) + 1 by norm_num, ringAfter, h, Option.bind_some, Ring.next, if_neg]
  simp only [Ring.write, h2]
  norm_num

/-- Every fixed delay, every modulated delay and every predelay reads at most 65537 frames back. -/
theorem reads_in_ring (fs : ℕ) (t : ℝ) (i : ℤ) :
    combLen fs t ≤ 131071 ∧ lineLen fs t + 1 ≤ 131071 ∧ clip i ≤ 131071 := by
  have h1 := combLen_le fs t
  have h2 := lineLen_le fs t
  have h3 := clip_le i
  omega

/-- Whatever the kind of room, the two places of the sine table that are read exist. -/
theorem table_in_bounds (fs : ℕ) (s : Settings) (x : ℕ → ℝ × ℝ) (n : ℕ) :
    (0 ≤ place1 (states fs s.knobs x n).phase ∧ place1 (states fs s.knobs x n).phase < 65536) ∧
      (0 ≤ place2 (states fs s.knobs x n).phase ∧ place2 (states fs s.knobs x n).phase < 65536) := by
  have hr := (ramp_succ (knob_ramp fs s.knobs x (·.freq) rfl fun _ _ => rfl)
    (show 0 ≤ (slow fs s.knobs).freq from
      mul_nonneg (by norm_num) (profile_range s.room).2.2.2.1)).1
  obtain ⟨⟨h0, h1⟩, -⟩ := phase_all (fs := fs) (k := fun n => (states fs s.knobs x (n + 1)).knobs)
    (φ := fun n => (states fs s.knobs x n).phase) rfl (fun n => rfl) (fun n => (hr n).1) n
  set φ := (states fs s.knobs x n).phase
  have key : ∀ y : ℝ, 0 ≤ y → y < 1 → 0 ≤ trunc (65536 * y) ∧ trunc (65536 * y) < 65536 := by
    intro y h0 h1
    rw [trunc_nonneg (by positivity)]
    refine ⟨Int.floor_nonneg.2 (by positivity), ?_⟩
    rw [Int.floor_lt]
    push_cast
    linarith
  refine ⟨?_, key φ h0 h1⟩
  rw [place1, trunc_nonneg (show 0 ≤ φ + 0.25 by positivity)]
  refine key _ ?_ ?_
  · have := Int.floor_le (φ + 0.25)
    linarith
  · have := Int.lt_floor_add_one (φ + 0.25)
    linarith

/-! ## The dry signal -/

/-- With `reverb_wet=0`, what comes out is the input, times `reverb_dry` over 100 (to 13 parts in a
million), faded in over the first frames. -/
theorem dry_path (fs : ℕ) (s : Settings) (hw : s.wet = 0) (x : ℕ → ℝ × ℝ) :
    ∃ c : ℝ, |c - 1| ≤ 1.3e-5 ∧ ∀ n, process fs s.knobs x n
      = ((x n).1 * (c * (s.dry / 100) * (1 - 0.999000013 ^ (n + 1))),
        (x n).2 * (c * (s.dry / 100) * (1 - 0.999000013 ^ (n + 1)))) := by
  refine ⟨9.99999975e-06 * 100 / 0.000999987, by norm_num [abs_le], fun n => ?_⟩
  have hd := (knob_ramp fs s.knobs x (·.dry) rfl fun _ _ => rfl).eq (n + 1)
  have hw' := (knob_ramp fs s.knobs x (·.wet) rfl fun _ _ => rfl).eq (n + 1)
  have e1 : (slow fs s.knobs).wet = 0 := by simp [slow, Settings.knobs, hw]
  have e2 : (slow fs s.knobs).dry = 9.99999975e-06 * s.dry := by
    simp only [slow, Settings.knobs, (profile_range s.room).2.2.2.2.2.1]; ring
  simp only [e1, e2] at hd hw'
  simp only [process, output]
  rw [hd, hw']
  simp only [limit, Prod.mk.injEq]
  constructor <;> ring

example : ∃ c : ℝ, |c - 1| ≤ 1.3e-5 ∧
    (process 48000 (⟨.midHall, 50, 0, 100, 0, 0, 100, 0⟩ : Settings).knobs (fun _ => (1, 2)) 9999).2
      = 2 * (c * (50 / 100) * (1 - 0.999000013 ^ 10000)) := by
  obtain ⟨c, h, hc⟩ := dry_path 48000 ⟨.midHall, 50, 0, 100, 0, 0, 100, 0⟩ rfl fun _ => (1, 2)
  exact ⟨c, h, by rw [hc]⟩

/-- Unless `reverb_dry` or `reverb_wet` is given, the effect is silent: both default to zero. -/
theorem unset_silent (fs : ℕ) (s : Settings) (hd : s.dry = 0) (hw : s.wet = 0) (x : ℕ → ℝ × ℝ) (n : ℕ) :
    process fs s.knobs x n = (0, 0) := by
  obtain ⟨c, -, h⟩ := dry_path fs s hw x
  rw [h, hd]; simp

example : process 48000 (⟨.largeHall, 0, 0, 0, 0, 0, 100, 0⟩ : Settings).knobs (fun _ => (1, 1)) 7 = (0, 0) :=
  unset_silent _ _ rfl rfl _ _

/-- VIOLATED: "with `reverb_dry=100` and `reverb_wet=0` the signal passes as it is".  After a load, and
after every change of sampling rate, it is faded in from nothing: the first frame is a thousand times
too small. -/
theorem dry_violated (fs : ℕ) :
    ∃ s : Settings, s.Valid ∧ s.dry = 100 ∧ s.wet = 0 ∧
      0 < (process fs s.knobs (fun _ => (1, 1)) 0).1 ∧ (process fs s.knobs (fun _ => (1, 1)) 0).1 < 0.0011 := by
  refine ⟨⟨.midHall, 100, 0, 100, 0, 0, 100, 0⟩, by constructor <;> norm_num, rfl, rfl, ?_⟩
  obtain ⟨c, h, hc⟩ := dry_path fs ⟨.midHall, 100, 0, 100, 0, 0, 100, 0⟩ rfl fun _ => (1, 1)
  rw [hc]
  rw [abs_le] at h
  norm_num
  constructor <;> linarith [h.1, h.2]

/-! ## The predelay -/

/-- The predelay in use in frame `n`, in frames. -/
noncomputable def predelay (fs : ℕ) (s : Knobs) (x : ℕ → ℝ × ℝ) (n : ℕ) : ℕ :=
  clip (trunc (fs * (states fs s x (n + 1)).knobs.predelay))

lemma predelay_ramp {s : Settings} (hv : 0 ≤ s.predelay) (fs : ℕ) (x : ℕ → ℝ × ℝ) :
    Ramp (slow fs s.knobs).predelay (fun n => (states fs s.knobs x n).knobs.predelay) ∧
      0 ≤ (slow fs s.knobs).predelay ∧
      limit (slow fs s.knobs).predelay = s.predelay * (9.99999997e-07 * 1e3 / 0.000999987) := by
  refine ⟨knob_ramp fs s.knobs x (·.predelay) rfl fun _ _ => rfl, ?_, ?_⟩
  · simp only [slow, Settings.knobs]; positivity
  · simp only [slow, Settings.knobs, limit]; ring

lemma clip_natFloor {y : ℝ} (h0 : 0 ≤ y) : clip (trunc y) = min 65536 ⌊y⌋₊ := by
  rw [trunc_nonneg h0, ← Int.natCast_floor_eq_floor h0]
  unfold clip; omega

lemma fed (fs : ℕ) (s : Knobs) (x : ℕ → ℝ × ℝ) (n : ℕ) :
    (states fs s x (n + 1)).pre1.lp
        = delay (predelay fs s x n) (fun m => (x m).2 * (states fs s x (m + 1)).knobs.input) n
          + (states fs s x (n + 1)).knobs.lowpass * (states fs s x n).pre1.lp := by
  have h := line_all (L := fun n => (states fs s x n).pre1.line)
    (s := fun m => (x m).2 * (states fs s x (m + 1)).knobs.input) rfl (fun n => rfl) n
    (predelay fs s x n)
  rw [← h]
  rfl

/-- After some time the predelay is a whole number of frames, at most two frames away from what
`reverb_predelay` asks for, and the filters are fed with the input of so many frames ago; as long as
`reverb_predelay` asks for less than 65536 frames. -/
theorem predelay_settles (fs : ℕ) (s : Settings) (hv : s.Valid) (hp : s.predelay * fs ≤ 65535)
    (x : ℕ → ℝ × ℝ) :
    ∃ d : ℕ, |(d : ℝ) - s.predelay * fs| ≤ 2 ∧ ∃ n₀, ∀ n, n₀ ≤ n →
      (states fs s.knobs x (n + 1)).pre1.lp
        = (x (n - d)).2 * (states fs s.knobs x (n - d + 1)).knobs.input
          + (states fs s.knobs x (n + 1)).knobs.lowpass * (states fs s.knobs x n).pre1.lp := by
  obtain ⟨hr, hs, hl⟩ := predelay_ramp hv.predelay.1 fs x
  obtain ⟨r1, r2, r3⟩ := ramp_succ hr hs
  set r : ℕ → ℝ := fun n => (states fs s.knobs x (n + 1)).knobs.predelay with hrr
  have hfs : (0 : ℝ) ≤ fs := Nat.cast_nonneg _
  have hpd : ∀ n, predelay fs s.knobs x n = min 65536 ⌊fs * r n⌋₊ := fun n =>
    clip_natFloor (mul_nonneg hfs (r1 n).1)
  -- the floors rise and are bounded, so they settle
  have hmono : Monotone fun n => predelay fs s.knobs x n := by
    intro a b hab
    simp only [hpd]
    exact min_le_min le_rfl (Nat.floor_mono (mul_le_mul_of_nonneg_left (r2 hab) hfs))
  obtain ⟨d, n₁, hd⟩ : ∃ d n₁, ∀ n, n₁ ≤ n → predelay fs s.knobs x n = d := by
    obtain ⟨m, hm⟩ : ∃ m, ∀ n, predelay fs s.knobs x n ≤ predelay fs s.knobs x m := by
      by_contra hcon
      push Not at hcon
      have grow : ∀ j, ∃ m, j ≤ predelay fs s.knobs x m := by
        intro j
        induction j with
        | zero => exact ⟨0, Nat.zero_le _⟩
        | succ j ih =>
          obtain ⟨m, hm⟩ := ih
          obtain ⟨n, hn⟩ := hcon m
          exact ⟨n, by omega⟩
      obtain ⟨m, hm⟩ := grow 65537
      have := hpd m
      omega
    exact ⟨_, m, fun n hn => le_antisymm (hm n) (hmono hn)⟩
  obtain ⟨n₂, hn₂⟩ := r3 (1 / (10 * (fs + 1))) (by positivity)
  refine ⟨d, ?_, max (max n₁ n₂) d, fun n hn => ?_⟩
  · have h1 := hd (max n₁ n₂) (le_max_left _ _)
    have h2 := hn₂ (max n₁ n₂) (le_max_right _ _)
    have h3 := (r1 (max n₁ n₂)).2
    have h4 := (r1 (max n₁ n₂)).1
    set ρ := r (max n₁ n₂) with hρ
    have h2' : limit (slow fs s.knobs).predelay - 1 / (10 * (fs + 1)) ≤ ρ := h2
    have h3' : ρ ≤ limit (slow fs s.knobs).predelay := h3
    rw [hl] at h2' h3'
    have hfl : fs * ρ ≤ s.predelay * fs + 0.9 := by
      have := mul_le_mul_of_nonneg_left h3' hfs
      have e : (9.99999997e-07 * 1e3 / 0.000999987 : ℝ) ≤ 1 + 1.31e-5 := by norm_num
      have e' : s.predelay * fs * (9.99999997e-07 * 1e3 / 0.000999987 : ℝ)
          ≤ s.predelay * fs * (1 + 1.31e-5) :=
        mul_le_mul_of_nonneg_left e (mul_nonneg hv.predelay.1 hfs)
      nlinarith
    have hfl2 : s.predelay * fs - 0.1 ≤ fs * ρ := by
      have := mul_le_mul_of_nonneg_left h2' hfs
      have e : (1 : ℝ) ≤ (9.99999997e-07 * 1e3 / 0.000999987 : ℝ) := by norm_num
      have e' : s.predelay * fs * 1 ≤ s.predelay * fs * (9.99999997e-07 * 1e3 / 0.000999987 : ℝ) :=
        mul_le_mul_of_nonneg_left e (mul_nonneg hv.predelay.1 hfs)
      have e2 : (fs : ℝ) * (1 / (10 * (fs + 1))) ≤ 0.1 := by
        rw [mul_one_div, div_le_iff₀ (by positivity)]
        linarith
      nlinarith
    have hfloor : ⌊fs * ρ⌋₊ ≤ 65536 := by
      have : ⌊fs * ρ⌋₊ < 65537 := (Nat.floor_lt (mul_nonneg hfs h4)).2 (by push_cast; linarith)
      omega
    have hdd : d = ⌊fs * ρ⌋₊ := by
      rw [← h1, hpd]; exact min_eq_right hfloor
    have q1 := Nat.floor_le (mul_nonneg hfs h4)
    have q2 := Nat.lt_floor_add_one ((fs : ℝ) * ρ)
    rw [hdd, abs_le]
    have q1' : (⌊fs * ρ⌋₊ : ℝ) ≤ fs * ρ := q1
    constructor <;> linarith
  · have hn1 : n₁ ≤ n := le_trans (le_trans (le_max_left _ _) (le_max_left _ _)) hn
    have hn3 : d ≤ n := le_trans (le_max_right _ _) hn
    rw [fed, hd n hn1, delay, if_pos hn3]

example : ∃ d : ℕ, |(d : ℝ) - 0.05 * 48000| ≤ 2 ∧ ∃ n₀, ∀ n, n₀ ≤ n →
    (states 48000 chamber.knobs click (n + 1)).pre1.lp
      = (click (n - d)).2 * (states 48000 chamber.knobs click (n - d + 1)).knobs.input
        + (states 48000 chamber.knobs click (n + 1)).knobs.lowpass
          * (states 48000 chamber.knobs click n).pre1.lp := by
  have := predelay_settles 48000 chamber chamber_valid (by norm_num [chamber]) click
  exact_mod_cast this

/-- VIOLATED: "`reverb_predelay` may be up to ten seconds".  At 48 kHz a click is heard by the reverb no
later than 65536 frames, or 1.4 seconds, after it, though the opcode asked for 480000 frames. -/
theorem predelay_violated :
    ∃ s : Settings, s.Valid ∧ s.predelay = 10 ∧
      0 < (states 48000 s.knobs (fun n => if n = 1000 then (1, 1) else (0, 0)) (1000 + 65536 + 1)).pre1.lp := by
  refine ⟨⟨.midHall, 100, 100, 100, 0, 10, 100, 0⟩, by constructor <;> norm_num, rfl, ?_⟩
  set s : Settings := ⟨.midHall, 100, 100, 100, 0, 10, 100, 0⟩ with hs'
  set x : ℕ → ℝ × ℝ := fun n => if n = 1000 then (1, 1) else (0, 0) with hx
  have hv : s.Valid := by constructor <;> norm_num [hs']
  obtain ⟨hr, hs, hl⟩ := predelay_ramp hv.predelay.1 48000 x
  have hi := knob_ramp 48000 s.knobs x (·.input) rfl fun _ _ => rfl
  have hip : 0 < (slow 48000 s.knobs).input := by norm_num [slow, Settings.knobs, hs']
  have hi0 := (ramp_succ hi hip.le).1
  have hlow := (ramp_succ (knob_ramp 48000 s.knobs x (·.lowpass) rfl fun _ _ => rfl)
    (show 0 ≤ (slow 48000 s.knobs).lowpass from slowPole_pos _ _)).1
  -- nothing negative is ever fed
  have hfeed : ∀ d n, 0 ≤ delay d (fun m => (x m).2 * (states 48000 s.knobs x (m + 1)).knobs.input) n := by
    intro d n
    simp only [delay]
    split
    · refine mul_nonneg ?_ (hi0 _).1
      simp only [hx]; split <;> norm_num
    · exact le_rfl
  have hpos : ∀ n, 0 ≤ (states 48000 s.knobs x n).pre1.lp := by
    intro n
    induction n with
    | zero => simp [states, State.zero, Pre.zero]
    | succ n ih => rw [fed]; exact add_nonneg (hfeed _ _) (mul_nonneg (hlow n).1 ih)
  obtain ⟨N, hN⟩ : ∃ N : ℕ, N = 1000 + 65536 := ⟨_, rfl⟩
  have hpow : (0.999000013 : ℝ) ^ (N + 1) ≤ 0.5 := by
    have h1 : (0.999000013 : ℝ) ^ (N + 1) ≤ (1 / 1.001) ^ (N + 1) :=
      pow_le_pow_left₀ (by norm_num) (by norm_num) _
    have h2 : 1 + ((N + 1 : ℕ) : ℝ) * 0.001 ≤ (1 + 0.001 : ℝ) ^ (N + 1) :=
      one_add_mul_le_pow (by norm_num) _
    have h3 : (2 : ℝ) ≤ (1 + 0.001 : ℝ) ^ (N + 1) := by
      refine le_trans ?_ h2
      rw [hN]; norm_num
    rw [one_div, inv_pow] at h1
    have h4 : ((1.001 : ℝ) ^ (N + 1))⁻¹ ≤ (2 : ℝ)⁻¹ := by
      apply inv_anti₀ (by norm_num)
      rwa [show (1.001 : ℝ) = 1 + 0.001 by norm_num]
    refine le_trans h1 (le_trans h4 (by norm_num))
  have hpd : predelay 48000 s.knobs x N = 65536 := by
    have h0 := (hr.le hs (N + 1)).1
    rw [predelay, clip_natFloor (mul_nonneg (by norm_num) h0)]
    refine min_eq_left (Nat.le_floor ?_)
    have e := hr.eq (N + 1)
    rw [hl] at e
    rw [e]
    have : s.predelay = 10 := rfl
    rw [this]
    have h5 : (0.5 : ℝ) ≤ 1 - 0.999000013 ^ (N + 1) := by linarith
    have h6 := mul_le_mul_of_nonneg_left h5
      (show (0 : ℝ) ≤ 10 * (9.99999997e-07 * 1e3 / 0.000999987) by norm_num)
    have h7 := mul_le_mul_of_nonneg_left h6 (show (0 : ℝ) ≤ ((48000 : ℕ) : ℝ) by norm_num)
    refine le_trans ?_ h7
    norm_num
  rw [← hN, fed, hpd]
  refine add_pos_of_pos_of_nonneg ?_ (mul_nonneg (hlow N).1 (hpos N))
  rw [delay, if_pos (by omega), show N - 65536 = 1000 by omega]
  simp only [hx, if_true]
  rw [one_mul, hi.eq]
  refine mul_pos (div_pos hip (by norm_num)) ?_
  have : (0.999000013 : ℝ) ^ (1000 + 1) < 1 := pow_lt_one₀ (by norm_num) (by norm_num) (by norm_num)
  linarith

end Verif.Reverb
