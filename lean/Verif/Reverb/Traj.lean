import Verif.Reverb.Fade

/-!
# The signals inside the reverb

Each part of the reverb, followed over all frames from a `clear`: the smoothed knobs, the combs, what
comes before the tank, and the halves of the tank, with bounds on the energy they let through.
-/

namespace Verif.Reverb

open Finset

/-! ## Lines and combs -/

/-- A line that has been written since frame 0. -/
lemma line_all {L : ℕ → Line} {s : ℕ → ℝ} (h0 : L 0 = fun _ => 0)
    (hs : ∀ n, L (n + 1) = push (s n) (L n)) (n k : ℕ) : L (n + 1) k = delay k s n := by
  induction n generalizing k with
  | zero =>
    rw [hs 0, h0]
    cases k <;> simp [push, delay]
  | succ n ih =>
    rw [hs (n + 1)]
    cases k with
    | zero => simp [push, delay]
    | succ k =>
      simp only [push, ih k, delay]
      by_cases h : k ≤ n
      · rw [if_pos h, if_pos (by omega), show n + 1 - (k + 1) = n - k by omega]
      · rw [if_neg h, if_neg (by omega)]

/-- The memory of a comb over time. -/
lemma mem_all {c : ℕ → Comb} {s : ℕ → ℝ} {len : ℕ} (h0 : c 0 = .zero)
    (hl : ∀ n, (c (n + 1)).line = push (s n) (c n).line)
    (hm : ∀ n, (c (n + 1)).mem = (c (n + 1)).line len) (n : ℕ) :
    (c n).mem = delay (len + 1) s n := by
  cases n with
  | zero => rw [h0]; simp [Comb.zero, delay]
  | succ n =>
    rw [hm n, line_all (L := fun n => (c n).line) (s := s) (by rw [h0]; rfl) hl n len]
    simp only [delay]
    by_cases h : len ≤ n
    · rw [if_pos h, if_pos (by omega), show n + 1 - (len + 1) = n - len by omega]
    · rw [if_neg h, if_neg (by omega)]

variable {W : ℝ}

/-- An all-pass comb of the code. -/
lemma comb_gain (hW : 1 ≤ W) {η γ t : ℝ} {len : ℕ} (hη : 0 ≤ η) (hWl : W ^ (len + 1) ≤ 1 + η)
    (ht : 0 < t) {g x y : ℕ → ℝ} {c : ℕ → Comb}
    (h0 : c 0 = .zero) (hc : ∀ n, c (n + 1) = (comb (g n) len (x n) (c n)).1)
    (hy : ∀ n, y n = (comb (g n) len (x n) (c n)).2)
    (hg : ∀ n, |g n| ≤ γ) (hγ : γ ≤ 1) (hmono : Antitone fun n => 1 - g n ^ 2)
    (hθ : (1 + t) * γ ^ 2 * (1 + η) < 1) :
    Gain W (1 + η * (1 + 1 / t) / (1 - (1 + t) * γ ^ 2 * (1 + η))) y x := by
  have hm := mem_all (c := c) (s := fun n => x n - g n * (c n).mem) (len := len) h0
    (fun n => by rw [hc n]; rfl) (fun n => by rw [hc n]; rfl)
  have := gain_comb (W := W) (ε := η) (γ := γ) (κ := 1) (t := t) hW hη zero_le_one ht
    (g := g) (x := x) (s := fun n => x n - g n * (c n).mem) (e := fun n => (c n).mem) (y := y)
    (fun n => rfl) (fun n => by rw [hy n]; rfl) hg hγ hmono
    ⟨0, fun n _ => by nlinarith [sq_nonneg (g n)]⟩
    (by rw [show (fun n => (c n).mem) = _ from funext hm]; exact held_delay hW _ hWl _) hθ
  simpa using this

/-! ## Half of the tank -/

/-- Assumptions on the knobs of half a tank: they rise towards limits within bounds. -/
structure TankKnobs (W : ℝ) (k : ℕ → Knobs) (γ κ δ P ω : ℝ) : Prop where
  dens : ∀ n, 0 ≤ (k n).density ∧ (k n).density ≤ γ
  densMono : Monotone fun n => (k n).density
  densLim : ∃ n₀, ∀ n, n₀ ≤ n → 1 - (k n).density ^ 2 ≤ κ
  decay : ∀ n, 0 ≤ (k n).decay ∧ (k n).decay ≤ δ
  decayMono : Monotone fun n => (k n).decay
  damp : ∀ n, 0 ≤ (k n).damping ∧ (k n).damping ≤ P
  dampMono : Monotone fun n => (k n).damping
  dampLim : ∃ n₀, ∀ n, n₀ ≤ n → P - ω ≤ (k n).damping
  pole : P < 1
  poleW : W * P < 1
  omega : 0 ≤ ω
  gain : (1 - P + ω) / (1 - W * P) ≤ 1.0001

lemma diffusion_range (d : ℝ) : 0.25 ≤ diffusion d ∧ diffusion d ≤ 0.5 := by
  unfold diffusion
  exact ⟨le_min (by norm_num) (le_max_left _ _), min_le_left _ _⟩

lemma diffusion_mono {a b : ℝ} (h : a ≤ b) : diffusion a ≤ diffusion b := by
  unfold diffusion
  exact min_le_min le_rfl (max_le_max le_rfl (by linarith))

/-- What half a tank lets through: the outputs of its three stages. -/
lemma tank_gain (hW : 1 ≤ W) {Q : ℕ} (hQ : Q = 65537) (hWQ : W ^ Q ≤ 1 + 1e-5) {k : ℕ → Knobs}
    {γ κ δ P ω ε t : ℝ} (hk : TankKnobs W k γ κ δ P ω) (hγ : γ ≤ 1) (hκ : 0 ≤ κ) (hε : 0 ≤ ε)
    (ht : 0 < t) (hθ : (1 + t) * γ ^ 2 * (1 + ε) < 1) {N : ℕ} {trg : ℕ → ℤ} {dMid dComb : ℕ}
    (hMid : dMid ≤ 65536) (hComb : dComb ≤ 65536) {x : ℕ → ℝ} {s : ℕ → Tank} (h0 : s 0 = .zero)
    (hs : ∀ n, s (n + 1) = (s n).step (k n) (1 / (N : ℝ)) (trg n) dMid dComb (x n))
    (hheld : ∀ u e : ℕ → ℝ, e 0 = 0 → (∀ n, e (n + 1) =
        at' u n (clip (fades (1 / (N : ℝ)) trg (n + 1)).a)
      + (fades (1 / (N : ℝ)) trg (n + 1)).pos * (at' u n (clip (fades (1 / (N : ℝ)) trg (n + 1)).b)
        - at' u n (clip (fades (1 / (N : ℝ)) trg (n + 1)).a))) → Held W ε e u) :
    Gain W (1 + ε * κ * (1 + 1 / t) / (1 - (1 + t) * γ ^ 2 * (1 + ε)))
        (fun n => (s (n + 1)).outA 0) x ∧
      Gain W 1.001 (fun n => (s (n + 1)).outB 0) (fun n => (s (n + 1)).outA 0) ∧
      Gain W (1.001 * δ ^ 2) (fun n => (s (n + 1)).outC 0) (fun n => (s (n + 1)).outB 0) ∧
      (∀ n j, (s (n + 1)).outA j = delay j (fun n => (s (n + 1)).outA 0) n) ∧
      (∀ n j, (s (n + 1)).outB j = delay j (fun n => (s (n + 1)).outB 0) n) ∧
      (∀ n j, (s (n + 1)).outC j = delay j (fun n => (s (n + 1)).outC 0) n) := by
  have hW0 : 0 ≤ W := by linarith
  have hWk : ∀ j, j ≤ 65537 → W ^ j ≤ 1 + 1e-5 := fun j hj =>
    le_trans (pow_le_pow_right₀ hW (by omega)) hWQ
  set A : ℕ → ℝ := fun n => (s (n + 1)).outA 0 with hA
  set B : ℕ → ℝ := fun n => (s (n + 1)).outB 0 with hB
  set C : ℕ → ℝ := fun n => (s (n + 1)).outC 0 with hC
  have hAn : ∀ n, A n = (0 - (k n).density * (x n + (k n).density * (s n).tail.mem))
      + (s n).tail.mem := fun n => by simp only [hA]; rw [hs n]; rfl
  have hBn : ∀ n, B n = (s (n + 1)).damp * (1 - (k n).damping) := fun n => by
    simp only [hB]; rw [hs n]; rfl
  have hCn : ∀ n, C n = (comb (-diffusion (k n).decay) dComb ((k n).decay * B n) (s n).comb).2 :=
    fun n => by rw [hBn n]; simp only [hC]; rw [hs n]; rfl
  have hlA : ∀ n, (s (n + 1)).outA = push (A n) (s n).outA := fun n => by
    rw [hAn n, hs n]; rfl
  have hlB : ∀ n, (s (n + 1)).outB = push (B n) (s n).outB := fun n => by
    rw [hBn n, hs n]; rfl
  have hlC : ∀ n, (s (n + 1)).outC = push (C n) (s n).outC := fun n => by
    rw [hCn n, hBn n, hs n]; rfl
  have hfade : ∀ n, (s n).fade = fades (1 / (N : ℝ)) trg n := by
    intro n
    induction n with
    | zero => rw [h0]; rfl
    | succ n ih => rw [hs n, fades, ← ih]; rfl
  refine ⟨?_, ?_, ?_, fun n j => line_all (L := fun n => (s n).outA) (by rw [h0]; rfl) hlA n j,
    fun n j => line_all (L := fun n => (s n).outB) (by rw [h0]; rfl) hlB n j,
    fun n j => line_all (L := fun n => (s n).outC) (by rw [h0]; rfl) hlC n j⟩
  · -- the modulated comb
    set u : ℕ → ℝ := fun n => x n + (k n).density * (s n).tail.mem with hu
    have hline : ∀ n j, (s (n + 1)).tail.line j = delay j u n := fun n j =>
      line_all (L := fun n => (s n).tail.line) (by rw [h0]; rfl) (fun n => by rw [hs n]; rfl) n j
    refine gain_comb hW hε hκ ht (g := fun n => -(k n).density) (s := u)
      (e := fun n => (s n).tail.mem) ?_ ?_ ?_ hγ ?_ ?_ ?_ hθ
    · intro n; simp only [hu]; ring
    · intro n; rw [hAn n]; simp only [hu]; ring
    · intro n; rw [abs_neg, abs_of_nonneg (hk.dens n).1]; exact (hk.dens n).2
    · intro a b h
      have h1 := hk.densMono h
      have h2 := (hk.dens a).1
      simp only at h1 ⊢
      nlinarith
    · obtain ⟨n₀, h⟩ := hk.densLim
      exact ⟨n₀, fun n hn => by rw [neg_sq]; exact h n hn⟩
    · refine hheld u _ (by rw [h0]; rfl) fun n => ?_
      have h1 : (s (n + 1)).tail.mem = (s (n + 1)).tail.line (clip (s (n + 1)).fade.a)
          + (s (n + 1)).fade.pos * ((s (n + 1)).tail.line (clip (s (n + 1)).fade.b)
            - (s (n + 1)).tail.line (clip (s (n + 1)).fade.a)) := by
        rw [hs n]; rfl
      rw [h1, hline, hline, hfade]
      rfl
  · -- the line and the damping filter
    have hmid : ∀ n j, (s (n + 1)).mid j = delay j A n := fun n j =>
      line_all (L := fun n => (s n).mid) (by rw [h0]; rfl)
        (fun n => by rw [hAn n, hs n]; rfl) n j
    have hd : ∀ n, (s (n + 1)).damp = delay dMid A n + (k n).damping *
        before (fun n => (s (n + 1)).damp) n := by
      intro n
      rw [← hmid n dMid]
      cases n with
      | zero => rw [hs 0, h0]; simp [before, Tank.step, Tank.zero]
      | succ n => rw [hs (n + 1)]; rfl
    have g1 := gain_damp hW0 hk.pole hk.omega hk.poleW hk.damp hk.dampMono hk.dampLim hd
    have g2 := (g1.mono hW0 hk.gain).trans (by norm_num) (gain_delay hW dMid A)
    have e : B = fun n => (1 - (k n).damping) * (s (n + 1)).damp := by
      funext n; rw [hBn n]; ring
    rw [e]
    refine g2.mono hW0 ?_
    have := hWk dMid (by omega)
    nlinarith
  · -- the second comb
    have g1 := comb_gain hW (η := 1e-5) (γ := 0.5) (t := 0.5) (len := dComb) (by norm_num)
      (hWk _ (by omega)) (by norm_num) (g := fun n => -diffusion (k n).decay)
      (x := fun n => (k n).decay * B n) (y := C) (c := fun n => (s n).comb) (by rw [h0]; rfl)
      (fun n => by rw [hBn n, hs n]; rfl) hCn
      (fun n => by
        have := diffusion_range (k n).decay
        rw [abs_neg, abs_of_nonneg (by linarith)]; exact this.2)
      (by norm_num)
      (fun a b h => by
        have h1 := diffusion_mono (hk.decayMono h)
        have h2 := (diffusion_range (k a).decay).1
        simp only at h1 ⊢
        nlinarith)
      (by norm_num)
    have g2 := gain_mul hW0 (c := fun n => (k n).decay) (δ := δ)
      (fun n => by rw [abs_of_nonneg (hk.decay n).1]; exact (hk.decay n).2) B
    refine (Gain.trans (by norm_num) g1 g2).mono hW0 ?_
    refine mul_le_mul_of_nonneg_right (by norm_num) (sq_nonneg _)

/-! ## Before the tank -/

/-- What comes before the tank lets through no more than a multiple of what left the predelay. -/
lemma pre_dom (hW : 1 ≤ W) {Q : ℕ} (hQ : Q = 65537) (hWQ : W ^ Q ≤ 1 + 1e-5) {k : ℕ → Knobs}
    {pd : ℕ → ℕ} {l : Lens} (hl : l.d1 ≤ 65536 ∧ l.d2 ≤ 65536 ∧ l.d3 ≤ 65536 ∧ l.d4 ≤ 65536)
    {PL PH : ℝ} (hPL : PL < 1) (hPH : PH < 1) (hWL : W * PL < 1) (hWH : W * PH < 1)
    (hlp : ∀ n, 0 ≤ (k n).lowpass ∧ (k n).lowpass ≤ PL)
    (hhp : ∀ n, 0 ≤ (k n).highpass ∧ (k n).highpass ≤ PH)
    (hd1 : ∀ n, 0 ≤ (k n).diffusion1 ∧ (k n).diffusion1 ≤ 0.751)
    (hd2 : ∀ n, 0 ≤ (k n).diffusion2 ∧ (k n).diffusion2 ≤ 0.751)
    (hm1 : Monotone fun n => (k n).diffusion1) (hm2 : Monotone fun n => (k n).diffusion2)
    {x : ℕ → ℝ} {p : ℕ → Pre} (h0 : p 0 = .zero)
    (hp : ∀ n, p (n + 1) = ((p n).step (k n) (pd n) l (x n)).1) {F : ℕ → ℝ}
    (hF : Dom W F fun n => delay (pd n) (fun n => x n * (k n).input) n) :
    Dom W F fun n => ((p n).step (k n) (pd n) l (x n)).2 := by
  have hW0 : 0 ≤ W := by linarith
  have hWk : ∀ j, j ≤ 65537 → W ^ j ≤ 1 + 1e-5 := fun j hj =>
    le_trans (pow_le_pow_right₀ hW (by omega)) hWQ
  have hline : ∀ n j, (p (n + 1)).line j = delay j (fun n => x n * (k n).input) n := fun n j =>
    line_all (L := fun n => (p n).line) (by rw [h0]; rfl) (fun n => by rw [hp n]; rfl) n j
  have hlpn : ∀ n, (p (n + 1)).lp = delay (pd n) (fun n => x n * (k n).input) n
      + (k n).lowpass * before (fun n => (p (n + 1)).lp) n := by
    intro n
    rw [← hline n (pd n)]
    cases n with
    | zero => rw [hp 0, h0]; simp [before, Pre.step, Pre.zero]
    | succ n => rw [hp (n + 1)]; rfl
  have dlp := Gain.dom (by
    have h1 : 0 < 1 - PL := by linarith
    have h2 : 0 < 1 - W * PL := by linarith
    positivity) (gain_pole hW0 hPL hWL hlp hlpn) hF
  have hhpn : ∀ n, (p (n + 1)).hp = (1 - (k n).lowpass) * (p (n + 1)).lp
      + (k n).highpass * before (fun n => (p (n + 1)).hp) n := by
    intro n
    cases n with
    | zero => rw [hp 0, h0]; simp [before, Pre.step, Pre.zero]; ring
    | succ n => rw [hp (n + 1)]; simp only [before, Pre.step]; ring
  have dlp' : Dom W F fun n => (1 - (k n).lowpass) * (p (n + 1)).lp :=
    Gain.dom (by norm_num) (gain_mul hW0 (δ := 1) (fun n => by
      rw [abs_of_nonneg (by linarith [(hlp n).2])]; linarith [(hlp n).1]) _) dlp
  have dhp := Gain.dom (by
    have h1 : 0 < 1 - PH := by linarith
    have h2 : 0 < 1 - W * PH := by linarith
    positivity) (gain_pole hW0 hPH hWH hhp hhpn) dlp'
  have dhb : Dom W F (before fun n => (p (n + 1)).hp) := by
    obtain ⟨K, C, hK, hC, h⟩ := dhp
    refine ⟨W * K, W * C, by positivity, by positivity, fun T => ?_⟩
    have a := E_before hW0 (fun n => (p (n + 1)).hp) T
    have b := mul_le_mul_of_nonneg_left (h T) hW0
    nlinarith
  set x1 : ℕ → ℝ := fun n => 0.5 * ((p (n + 1)).hp * ((k n).highpass + 1))
    + (p n).hp * (0 - 0.5 * ((k n).highpass + 1)) with hx1
  have dx1 : Dom W F x1 := by
    have a : Dom W F fun n => (0.5 * ((k n).highpass + 1)) * (p (n + 1)).hp :=
      Gain.dom (by norm_num) (gain_mul hW0 (δ := 1) (fun n => by
        rw [abs_of_nonneg (by nlinarith [(hhp n).1])]; nlinarith [(hhp n).2]) _) dhp
    have b : Dom W F fun n => (0 - 0.5 * ((k n).highpass + 1)) * before (fun n => (p (n + 1)).hp) n :=
      Gain.dom (by norm_num) (gain_mul hW0 (δ := 1) (fun n => by
        rw [abs_sub_comm, sub_zero, abs_of_nonneg (by nlinarith [(hhp n).1])]
        nlinarith [(hhp n).2]) _) dhb
    have e : x1 = fun n => (0.5 * ((k n).highpass + 1)) * (p (n + 1)).hp
        + (0 - 0.5 * ((k n).highpass + 1)) * before (fun n => (p (n + 1)).hp) n := by
      funext n
      simp only [hx1]
      cases n with
      | zero => simp [h0, before, Pre.zero]; ring
      | succ n => simp only [before]; ring
    rw [e]
    exact a.add hW0 b
  -- four combs
  have stage : ∀ (g : ℕ → ℝ) (len : ℕ) (c : ℕ → Comb) (x : ℕ → ℝ), len ≤ 65536 →
      (∀ n, 0 ≤ g n ∧ g n ≤ 0.751) → Monotone g → c 0 = .zero →
      (∀ n, c (n + 1) = (comb (g n) len (x n) (c n)).1) → Dom W F x →
      Dom W F fun n => (comb (g n) len (x n) (c n)).2 := by
    intro g len c x hlen hg hgm hc0 hc hx
    refine Gain.dom ?_ (comb_gain hW (η := 1e-5) (γ := 0.751) (t := 0.5) (len := len) (by norm_num)
      (hWk _ (by omega)) (by norm_num) hc0 hc (fun n => rfl)
      (fun n => by rw [abs_of_nonneg (hg n).1]; exact (hg n).2) (by norm_num)
      (fun a b h => by
        have h1 := hgm h
        have h2 := (hg a).1
        simp only
        nlinarith)
      (by norm_num)) hx
    norm_num
  have s1 := stage (fun n => (k n).diffusion1) l.d1 (fun n => (p n).c1) x1 hl.1 hd1 hm1
    (by rw [h0]; rfl) (fun n => by simp only [hx1]; rw [hp n]; rfl) dx1
  have s2 := stage (fun n => (k n).diffusion1) l.d2 (fun n => (p n).c2) _ hl.2.1 hd1 hm1
    (by rw [h0]; rfl) (fun n => by simp only [hx1]; rw [hp n]; rfl) s1
  have s3 := stage (fun n => (k n).diffusion2) l.d3 (fun n => (p n).c3) _ hl.2.2.1 hd2 hm2
    (by rw [h0]; rfl) (fun n => by simp only [hx1]; rw [hp n]; rfl) s2
  have s4 := stage (fun n => (k n).diffusion2) l.d4 (fun n => (p n).c4) _ hl.2.2.2 hd2 hm2
    (by rw [h0]; rfl) (fun n => by simp only [hx1]; rw [hp n]; rfl) s3
  refine Eq.mp ?_ s4
  congr 1
  funext n
  simp only [hx1]
  rw [hp n]
  rfl

end Verif.Reverb
