import Verif.Effects.Clear
import Verif.Effects.Dynamics

/-!
The resamplers of the effects, and that effects which only attenuate never add energy (C91).
-/
namespace Verif.Effects

/-! ### C91: energy -/

/-- The energy of a signal. -/
def energy (xs : List ℝ) : ℝ := (xs.map fun x => x ^ 2).sum

/-- The energy of both channels. -/
def energy2 (xs : List (ℝ × ℝ)) : ℝ := (xs.map fun f => f.1 ^ 2 + f.2 ^ 2).sum

/-- Coefficients of stable stages. -/
def Stable (coefs : List ℝ) : Prop := ∀ c ∈ coefs, |c| < 1

/-- What the memories of the stages hold back: each stage is an all-pass with memory `x - c y`. -/
noncomputable def stored : List ℝ → List (Stage ℝ) → ℝ
  | c :: cs, m :: ms => (m.1 - c * m.2) ^ 2 / (1 - c ^ 2) + stored cs ms
  | _, _ => 0

theorem one_stage {c : ℝ} (hc : |c| < 1) (x a b : ℝ) :
    ((x - b) * c + a) ^ 2 + (x - c * ((x - b) * c + a)) ^ 2 / (1 - c ^ 2) = x ^ 2 + (a - c * b) ^ 2 / (1 - c ^ 2) := by
  have h : 1 - c ^ 2 ≠ 0 := by
    have := (sq_lt_one_iff_abs_lt_one c).mpr hc
    linarith
  field_simp
  ring

theorem stages_length (coefs : List ℝ) (mem : List (Stage ℝ)) (h : mem.length = coefs.length) (s0 s1 : ℝ) :
    (stages coefs mem s0 s1).1.length = coefs.length := by
  have main : ∀ (n : Nat) (coefs : List ℝ) (mem : List (Stage ℝ)) (s0 s1 : ℝ), coefs.length ≤ n → mem.length = coefs.length →
      (stages coefs mem s0 s1).1.length = coefs.length := by
    intro n
    induction n with
    | zero =>
      intro coefs mem s0 s1 hn hl
      have : coefs = [] := List.length_eq_zero_iff.mp (by omega)
      subst this
      rfl
    | succ n ih =>
      intro coefs mem s0 s1 hn hl
      match coefs, mem, hl with
      | [], _, _ => rfl
      | [c], [m], _ => rfl
      | c0 :: c1 :: cs, m0 :: m1 :: ms, hl =>
        have := ih cs ms ((s0 - m0.2) * c0 + m0.1) ((s1 - m1.2) * c1 + m1.1) (by simp at hn; omega) (by simpa using hl)
        simp [stages, this]
  exact main _ coefs mem s0 s1 le_rfl h

/-- The stages neither make nor lose energy. -/
theorem stages_energy (coefs : List ℝ) (hc : Stable coefs) (mem : List (Stage ℝ)) (h : mem.length = coefs.length) (s0 s1 : ℝ) :
    (stages coefs mem s0 s1).2.1 ^ 2 + (stages coefs mem s0 s1).2.2 ^ 2 + stored coefs (stages coefs mem s0 s1).1 =
      s0 ^ 2 + s1 ^ 2 + stored coefs mem := by
  have main : ∀ (n : Nat) (coefs : List ℝ) (mem : List (Stage ℝ)) (s0 s1 : ℝ), coefs.length ≤ n → Stable coefs →
      mem.length = coefs.length →
      (stages coefs mem s0 s1).2.1 ^ 2 + (stages coefs mem s0 s1).2.2 ^ 2 + stored coefs (stages coefs mem s0 s1).1 =
        s0 ^ 2 + s1 ^ 2 + stored coefs mem := by
    intro n
    induction n with
    | zero =>
      intro coefs mem s0 s1 hn _ hl
      have : coefs = [] := List.length_eq_zero_iff.mp (by omega)
      subst this
      simp [stages, stored]
    | succ n ih =>
      intro coefs mem s0 s1 hn hc hl
      match coefs, mem, hl with
      | [], _, _ => simp [stages, stored]
      | [c], [m], _ =>
        have := one_stage (hc c (by simp)) s0 m.1 m.2
        simp only [stages, stored, add_zero]
        linarith
      | c0 :: c1 :: cs, m0 :: m1 :: ms, hl =>
        have := ih cs ms ((s0 - m0.2) * c0 + m0.1) ((s1 - m1.2) * c1 + m1.1) (by simp at hn; omega)
          (fun c h => hc c (by simp [h])) (by simpa using hl)
        have h0 := one_stage (hc c0 (by simp)) s0 m0.1 m0.2
        have h1 := one_stage (hc c1 (by simp)) s1 m1.1 m1.2
        simp only [stages, stored]
        linarith
  exact main _ coefs mem s0 s1 le_rfl hc h

theorem stored_nonneg (coefs : List ℝ) (hc : Stable coefs) (mem : List (Stage ℝ)) : 0 ≤ stored coefs mem := by
  induction coefs generalizing mem with
  | nil => exact le_rfl
  | cons c cs ih =>
    cases mem with
    | nil => exact le_rfl
    | cons m ms =>
      have := ih (fun c h => hc c (by simp [h])) ms
      have h2 := (sq_lt_one_iff_abs_lt_one c).mpr (hc c (by simp))
      have : 0 ≤ (m.1 - c * m.2) ^ 2 / (1 - c ^ 2) := div_nonneg (sq_nonneg _) (by linarith)
      simp only [stored]
      linarith

theorem stored_silent (coefs : List ℝ) : stored coefs (silentStages coefs) = 0 := by
  induction coefs with
  | nil => rfl
  | cons c cs ih =>
    have e : silentStages (c :: cs) = (0, 0) :: silentStages cs := rfl
    rw [e, stored, ih]
    simp

theorem silent_length (coefs : List ℝ) : (silentStages coefs).length = coefs.length := by simp [silentStages]

theorem energy_nil : energy [] = 0 := rfl
theorem energy_cons (x : ℝ) (xs : List ℝ) : energy (x :: xs) = x ^ 2 + energy xs := by simp [energy]

/-- Upsampling: both halves together carry the energy twice. -/
theorem upList_energy (coefs : List ℝ) (hc : Stable coefs) (xs : List ℝ) (mem : List (Stage ℝ)) (h : mem.length = coefs.length) :
    energy (upList coefs mem xs).2 ≤ 2 * energy xs + stored coefs mem := by
  induction xs generalizing mem with
  | nil =>
    simp only [upList, energy_nil]
    have := stored_nonneg coefs hc mem
    linarith
  | cons x xs ih =>
    have h1 := stages_energy coefs hc mem h x x
    have h2 := ih _ (stages_length coefs mem h x x)
    simp only [upList, upSample, energy_cons]
    linarith

/-- Downsampling loses at least half of the energy of its samples. -/
theorem downList_energy (coefs : List ℝ) (hc : Stable coefs) (xs : List ℝ) (mem : List (Stage ℝ)) (h : mem.length = coefs.length) :
    2 * energy (downList coefs mem xs).2 ≤ energy xs + stored coefs mem := by
  have main : ∀ (n : Nat) (xs : List ℝ) (mem : List (Stage ℝ)), xs.length ≤ n → mem.length = coefs.length →
      2 * energy (downList coefs mem xs).2 ≤ energy xs + stored coefs mem := by
    intro n
    induction n with
    | zero =>
      intro xs mem hn _
      have : xs = [] := List.length_eq_zero_iff.mp (by omega)
      subst this
      simp only [downList, energy_nil]
      have := stored_nonneg coefs hc mem
      linarith
    | succ n ih =>
      intro xs mem hn hl
      match xs with
      | [] =>
        simp only [downList, energy_nil]
        have := stored_nonneg coefs hc mem
        linarith
      | [x] =>
        simp only [downList, energy_nil, energy_cons]
        have := stored_nonneg coefs hc mem
        nlinarith [sq_nonneg x]
      | a :: b :: xs =>
        have h1 := stages_energy coefs hc mem hl b a
        have h2 := ih xs (stages coefs mem b a).1 (by simp at hn; omega) (stages_length coefs mem hl b a)
        simp only [downList, downSample, energy_cons]
        nlinarith [sq_nonneg ((stages coefs mem b a).2.1 - (stages coefs mem b a).2.2)]
  exact main _ xs mem le_rfl h

theorem energy_map_le (f : ℝ → ℝ) (hf : ∀ x, |f x| ≤ |x|) (xs : List ℝ) : energy (xs.map f) ≤ energy xs := by
  induction xs with
  | nil => exact le_rfl
  | cons x xs ih =>
    simp only [List.map_cons, energy_cons]
    have := sq_le_sq.mpr (hf x)
    linarith

theorem energy_mul_le (xs gs : List ℝ) (hg : ∀ g ∈ gs, |g| ≤ 1) : energy (xs.zipWith (· * ·) gs) ≤ energy xs := by
  induction xs generalizing gs with
  | nil => simp
  | cons x xs ih =>
    cases gs with
    | nil =>
      simp only [List.zipWith_nil_right, energy_nil]
      unfold energy
      apply List.sum_nonneg
      intro y hy
      obtain ⟨z, _, rfl⟩ := List.mem_map.mp hy
      positivity
    | cons g gs =>
      simp only [List.zipWith_cons_cons, energy_cons]
      have h1 := ih gs (fun g' h => hg g' (by simp [h]))
      have h2 : (x * g) ^ 2 ≤ x ^ 2 := by
        rw [sq_le_sq, abs_mul]
        nlinarith [hg g (by simp), abs_nonneg x]
      linarith

/-- A detector whose gains never exceed 1. -/
def Attenuates {σ : Type} (core : σ → ℝ → σ × ℝ) (s : σ) : Prop := ∀ xs, ∀ g ∈ (mapAccum core s xs).2, |g| ≤ 1

theorem dyn_energy {σ : Type} (coefs : List ℝ) (hc : Stable coefs) (core : σ → ℝ → σ × ℝ) (s : σ) (hs : Attenuates core s)
    (g : ℝ) (hg : |g| ≤ 1) (xs : List ℝ) :
    energy (dynChannel coefs core g (s, silentStages coefs, silentStages coefs) xs).2 ≤ energy xs := by
  have h1 := upList_energy coefs hc xs _ (silent_length coefs)
  have h2 := energy_map_le (· * g) (fun x => by rw [abs_mul]; nlinarith [abs_nonneg x])
    (upList coefs (silentStages coefs) xs).2
  have h3 := energy_mul_le ((upList coefs (silentStages coefs) xs).2.map (· * g)) _
    (hs ((upList coefs (silentStages coefs) xs).2.map (· * g)))
  have h4 := downList_energy coefs hc (List.zipWith (· * ·) ((upList coefs (silentStages coefs) xs).2.map (· * g))
    (mapAccum core s ((upList coefs (silentStages coefs) xs).2.map (· * g))).2) _ (silent_length coefs)
  rw [stored_silent] at h1 h4
  simp only [dynChannel]
  linarith

theorem forall₂_energy {xs ys : List ℝ} (h : List.Forall₂ (fun x y => |y| ≤ |x| ∧ 0 ≤ x * y) xs ys) : energy ys ≤ energy xs := by
  induction h with
  | nil => exact le_rfl
  | cons hxy _ ih =>
    simp only [energy_cons]
    have := sq_le_sq.mpr hxy.1
    linarith

theorem limit_energy (coefs : List ℝ) (hc : Stable coefs) {k1 k3 k5 : ℝ} (h1 : 0 ≤ k1 ∧ k1 ≤ 1) (h3 : 0 ≤ k3 ∧ k3 ≤ 1)
    (h5 : 0 ≤ k5 ∧ k5 ≤ 1) (xs : List ℝ) :
    energy (limitChannel coefs k1 k3 k5 (⟨0, 0, 0⟩, silentStages coefs, silentStages coefs) xs).2 ≤ energy xs := by
  have e1 := upList_energy coefs hc xs _ (silent_length coefs)
  have e2 := forall₂_energy (limiter_never_amplifies h1 h3 h5 (upList coefs (silentStages coefs) xs).2)
  have e3 := downList_energy coefs hc (limited k1 k3 k5 (upList coefs (silentStages coefs) xs).2) _ (silent_length coefs)
  rw [stored_silent] at e1 e3
  simp only [limitChannel]
  unfold limited at e2 e3
  linarith

theorem rectify_energy (coefs : List ℝ) (hc : Stable coefs) {amount : ℝ} (h0 : 0 ≤ amount) (h1 : amount ≤ 1) (xs : List ℝ) :
    energy (mapAccum (rectifyStep coefs amount) (silentStages coefs, silentStages coefs) xs).2 ≤ energy xs := by
  have shape : ∀ y : ℝ, |amount * |y| + (1 - amount) * y| ≤ |y| := by
    intro y
    have a1 := abs_nonneg y
    have a2 := le_abs_self y
    have a3 := neg_abs_le y
    rw [abs_le]
    constructor <;> nlinarith
  have main : ∀ (xs : List ℝ) (u d : List (Stage ℝ)), u.length = coefs.length → d.length = coefs.length →
      2 * energy (mapAccum (rectifyStep coefs amount) (u, d) xs).2 ≤ 2 * energy xs + stored coefs u + stored coefs d := by
    intro xs
    induction xs with
    | nil =>
      intro u d _ _
      simp only [mapAccum, energy_nil]
      have := stored_nonneg coefs hc u
      have := stored_nonneg coefs hc d
      linarith
    | cons x xs ih =>
      intro u d hu hd
      have e1 := stages_energy coefs hc u hu x x
      have l1 := stages_length coefs u hu x x
      set U := stages coefs u x x with hU
      have e2 := stages_energy coefs hc d hd (amount * |U.2.2| + (1 - amount) * U.2.2) (amount * |U.2.1| + (1 - amount) * U.2.1)
      have l2 := stages_length coefs d hd (amount * |U.2.2| + (1 - amount) * U.2.2) (amount * |U.2.1| + (1 - amount) * U.2.1)
      set D := stages coefs d (amount * |U.2.2| + (1 - amount) * U.2.2) (amount * |U.2.1| + (1 - amount) * U.2.1) with hD
      have e3 := ih U.1 D.1 l1 l2
      have s1 := sq_le_sq.mpr (shape U.2.1)
      have s2 := sq_le_sq.mpr (shape U.2.2)
      have es : rectifyStep coefs amount (u, d) x = ((U.1, D.1), 1 / 2 * (D.2.1 + D.2.2)) := rfl
      simp only [mapAccum, es, energy_cons]
      nlinarith [sq_nonneg (D.2.1 - D.2.2)]
  have := main xs _ _ (silent_length coefs) (silent_length coefs)
  rw [stored_silent] at this
  linarith

/-- Effects that only attenuate, as they are made or cleared by `setSampleRate`: a gain of at most 0 dB, a rectifier, a
compressor or a gate with channels of their own and an input gain of at most 0 dB, a limiter. -/
def Mild {cap : Nat} (r : Running (K := ℝ) cap) : Prop :=
  match r with
  | ⟨.gain lin, _⟩ => |lin| ≤ 1
  | ⟨.rectify coefs amount, s⟩ => Stable coefs ∧ 0 ≤ amount ∧ amount ≤ 1 ∧
      s = ((silentStages coefs, silentStages coefs), (silentStages coefs, silentStages coefs))
  | ⟨.dyn _ coefs core g linked, s⟩ => linked = false ∧ Stable coefs ∧ |g| ≤ 1 ∧ Attenuates core s.coreL ∧ Attenuates core s.coreR ∧
      s.upL = silentStages coefs ∧ s.upR = silentStages coefs ∧ s.downL = silentStages coefs ∧ s.downR = silentStages coefs
  | ⟨.limiter coefs k1 k3 k5, s⟩ => Stable coefs ∧ (0 ≤ k1 ∧ k1 ≤ 1) ∧ (0 ≤ k3 ∧ k3 ≤ 1) ∧ (0 ≤ k5 ∧ k5 ≤ 1) ∧
      s = ⟨⟨0, 0, 0⟩, ⟨0, 0, 0⟩, silentStages coefs, silentStages coefs, silentStages coefs, silentStages coefs⟩
  | _ => False

theorem energy2_eq (xs : List (ℝ × ℝ)) : energy2 xs = energy (xs.map Prod.fst) + energy (xs.map Prod.snd) := by
  induction xs with
  | nil => simp [energy2, energy]
  | cons x xs ih =>
    simp only [List.map_cons, energy_cons]
    have : energy2 (x :: xs) = x.1 ^ 2 + x.2 ^ 2 + energy2 xs := by simp [energy2]
    linarith

theorem energy2_zip (xs ys : List ℝ) (h : xs.length = ys.length) : energy2 (xs.zip ys) = energy xs + energy ys := by
  rw [energy2_eq, List.map_fst_zip (by omega), List.map_snd_zip (by omega)]

theorem mild_block {cap : Nat} (r : Running (K := ℝ) cap) (h : Mild r) (xs : List (ℝ × ℝ)) :
    energy2 (r.kind.block cap r.state xs).2 ≤ energy2 xs := by
  obtain ⟨k, s⟩ := r
  cases k with
  | gain lin =>
    have h' : |lin| ≤ 1 := h
    have e : ∀ (u : Unit) (l : List ℝ), energy (mapAccum (fun (_ : Unit) (x : ℝ) => ((), lin * x)) u l).2 ≤ energy l := by
      intro u l
      have : (mapAccum (fun (_ : Unit) (x : ℝ) => ((), lin * x)) u l).2 = l.map (lin * ·) := by
        induction l with
        | nil => rfl
        | cons x l ih => simp [mapAccum, ih]
      rw [this]
      exact energy_map_le _ (fun x => by rw [abs_mul]; nlinarith [abs_nonneg x]) l
    simp only [Kind.block, twoChannels]
    rw [energy2_zip _ _ (by simp [mapAccum_length]), energy2_eq]
    exact add_le_add (e _ _) (e _ _)
  | rectify coefs amount =>
    obtain ⟨hc, h0, h1, hs⟩ := h
    subst hs
    simp only [Kind.block, twoChannels]
    rw [energy2_zip _ _ (by simp [mapAccum_length]), energy2_eq]
    exact add_le_add (rectify_energy coefs hc h0 h1 _) (rectify_energy coefs hc h0 h1 _)
  | dyn σ coefs core g linked =>
    obtain ⟨hl, hc, hg, hL, hR, h1, h2, h3, h4⟩ := h
    subst hl
    simp only [Kind.block, Bool.false_eq_true, if_false]
    rw [energy2_zip _ _ (by simp [dynChannel_length]), energy2_eq, h1, h2, h3, h4]
    exact add_le_add (dyn_energy coefs hc core _ hL g hg _) (dyn_energy coefs hc core _ hR g hg _)
  | limiter coefs k1 k3 k5 =>
    obtain ⟨hc, h1, h3, h5, hs⟩ := h
    subst hs
    simp only [Kind.block]
    rw [energy2_zip _ _ (by simp [limitChannel_length]), energy2_eq]
    exact add_le_add (limit_energy coefs hc h1 h3 h5 _) (limit_energy coefs hc h1 h3 h5 _)
  | width c1 c2 => exact h.elim
  | apan a => exact h.elim
  | strings σ half wet res => exact h.elim
  | lofi coefs f => exact h.elim
  | disto σ d => exact h.elim

/-- C91: a chain of effects that only attenuate never puts out more energy than it was given, whatever the signal and the
blocks: the resamplers around the nonlinear parts do not add any. -/
theorem chain_energy {cap : Nat} (rs : List (Running (K := ℝ) cap)) (h : ∀ r ∈ rs, Mild r) (m : Mem ℝ)
    (blocks : List (List (ℝ × ℝ))) (hb : ∀ xs ∈ blocks, 1 ≤ xs.length ∧ xs.length ≤ cap) :
    ∃ ys, (busRun rs m blocks).map (fun a => a.2) = some ys ∧ energy2 ys ≤ energy2 blocks.flatten := by
  have hd : ∀ r ∈ rs, r.kind.isDisto = false := by
    intro r hr
    have := h r hr
    obtain ⟨k, s⟩ := r
    cases k with
    | disto σ d => exact this.elim
    | _ => rfl
  have hk : ∀ r ∈ rs, r.kind.isLinked = false := by
    intro r hr
    have := h r hr
    obtain ⟨k, s⟩ := r
    cases k with
    | dyn σ coefs core g linked => exact this.1
    | _ => rfl
  refine ⟨_, busRun_eq rs (fun r hr => hd r (List.mem_of_mem_tail hr)) hk m blocks hb, ?_⟩
  have ht : ∀ (rs : List (Running (K := ℝ) cap)), (∀ r ∈ rs, Mild r) → ∀ xs, energy2 (turns rs xs).2 ≤ energy2 xs := by
    intro rs
    induction rs with
    | nil => intro _ xs; exact le_rfl
    | cons r rs ih =>
      intro h xs
      exact (ih (fun r' hr' => h r' (by simp [hr'])) _).trans (mild_block r (h r (by simp)) xs)
  exact ht rs h _

/-- The compressor and the gate of the code attenuate, whatever their settings. -/
theorem compressor_attenuates {p : Comp} (h : p.Valid) : Attenuates p.step .clear := by
  intro xs g hg
  have hbig : ∀ xs : List ℝ, ∃ d, p.threshold ≤ d ∧ ∀ x ∈ xs, |x| ≤ factor d := by
    intro xs
    induction xs with
    | nil => exact ⟨p.threshold, le_rfl, by simp⟩
    | cons x xs ih =>
      obtain ⟨d, h1, h2⟩ := ih
      have mono : ∀ a b : ℝ, a ≤ b → factor a ≤ factor b := fun a b hab =>
        Real.rpow_le_rpow_of_exponent_le (by norm_num) (by linarith)
      refine ⟨max d (20 * Real.logb 10 (|x| + 1)), h1.trans (le_max_left _ _), ?_⟩
      intro y hy
      rcases List.mem_cons.mp hy with rfl | hy
      · refine le_trans ?_ (mono _ _ (le_max_right _ _))
        have hp : 0 < |y| + 1 := by positivity
        have : factor (20 * Real.logb 10 (|y| + 1)) = |y| + 1 := by
          rw [factor, show 20 * Real.logb 10 (|y| + 1) / 20 = Real.logb 10 (|y| + 1) by ring,
            Real.rpow_logb (by norm_num) (by norm_num) hp]
        rw [this]
        linarith
      · exact (h2 y hy).trans (mono _ _ (le_max_left _ _))
  obtain ⟨d, hd, hx⟩ := hbig xs
  obtain ⟨h1, h2⟩ := compressor_bounds h xs hd hx g hg
  rw [abs_of_nonneg ((factor_pos _).le.trans h1)]
  exact h2

theorem gate_attenuates {p : GateParams} (h : p.Valid) : Attenuates p.step .clear := by
  intro xs g hg
  obtain ⟨h0, h1⟩ := gate_bounds h xs g hg
  rw [abs_of_nonneg h0]
  exact h1

/-- The coefficients of the code are stable. -/
theorem coeffs_stable : Stable (coeffs2x.map fun q : ℚ => (q : ℝ)) := by
  intro c hc
  obtain ⟨q, hq, rfl⟩ := List.mem_map.mp hc
  have : ∀ q ∈ coeffs2x, |q| < 1 := by decide +kernel
  exact_mod_cast this q hq

/-- The compressor, the gate and the rectifier of the code in a row. -/
noncomputable def someChain : List (Running (K := ℝ) 64) :=
  let cs := coeffs2x.map fun q : ℚ => (q : ℝ)
  [⟨.dyn CompState cs someComp.step 1 false, ⟨.clear, .clear, silentStages cs, silentStages cs, silentStages cs, silentStages cs⟩⟩,
   ⟨.dyn GateState cs someGate.step 1 false, ⟨.clear, .clear, silentStages cs, silentStages cs, silentStages cs, silentStages cs⟩⟩,
   ⟨.rectify cs (1 / 2), ((silentStages cs, silentStages cs), (silentStages cs, silentStages cs))⟩]

example (m : Mem ℝ) : ∃ ys, (busRun someChain m [[(1, 1), (0, 2)], [(3, 0)]]).map (fun a => a.2) = some ys ∧ energy2 ys ≤ 15 := by
  have hv : someGate.Valid := by constructor <;> norm_num [someGate]
  obtain ⟨ys, h1, h2⟩ := chain_energy someChain (by
    intro r hr
    simp only [someChain, List.mem_cons, List.not_mem_nil, or_false] at hr
    rcases hr with rfl | rfl | rfl
    · exact ⟨rfl, coeffs_stable, by norm_num, compressor_attenuates someComp_valid, compressor_attenuates someComp_valid, rfl, rfl, rfl, rfl⟩
    · exact ⟨rfl, coeffs_stable, by norm_num, gate_attenuates hv, gate_attenuates hv, rfl, rfl, rfl, rfl⟩
    · exact ⟨coeffs_stable, by norm_num, by norm_num, rfl⟩) m [[(1, 1), (0, 2)], [(3, 0)]] (by simp)
  refine ⟨ys, h1, h2.trans ?_⟩
  norm_num [energy2]

end Verif.Effects
