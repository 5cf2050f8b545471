import Verif.Effects.Clear

/-!
Properties of the effects: neutral settings (C92); what the auto-pan and the bit reducer do to a sample (C93).
-/
namespace Verif.Effects

variable {K : Type} [Field K] [LinearOrder K] [FloorRing K]

/-! ### C92: neutral settings -/

/-- Settings of an effect that should leave the signal alone: a gain of 0 dB, a width of 100 %, no depth of the auto-pan with dry
and wet parts that add up, no wet part, no depth. The state is any one. -/
def Neutral : Kind K → Prop
  | .gain lin => lin = 1
  | .width c1 c2 => c1 = 0 ∧ c2 = 1
  | .apan a => a.depth = 0 ∧ a.dry + a.wet = 1
  | .strings _ _ wet _ => wet = 0
  | .lofi _ f => f.bitDepth = 0 ∧ f.decimDepth = 0
  | .disto _ d => d.wet = 0
  | _ => False

theorem mapAccum_id {σ α : Type} (step : σ → α → σ × α) (h : ∀ s x, (step s x).2 = x) (s : σ) (xs : List α) :
    (mapAccum step s xs).2 = xs := by
  induction xs generalizing s with
  | nil => rfl
  | cons x xs ih => simp only [mapAccum, h, ih]

theorem two_id {σ : Type} (f : σ → List K → σ × List K) (h : ∀ s l, (f s l).2 = l) (s : σ × σ) (xs : List (K × K)) :
    (twoChannels f s xs).2 = xs := by
  simp only [twoChannels, h]
  induction xs with
  | nil => rfl
  | cons x xs ih => simpa using ih

theorem neutral_block (cap : Nat) (k : Kind K) (h : Neutral k) (s : (k.effect cap).State) (xs : List (K × K)) :
    (k.block cap s xs).2 = xs := by
  cases k with
  | gain lin =>
    have h' : lin = 1 := h
    subst h'
    exact two_id _ (fun s l => mapAccum_id _ (by simp) s l) _ _
  | width c1 c2 =>
    obtain ⟨h1, h2⟩ := h
    subst h1 h2
    exact mapAccum_id _ (by simp) _ _
  | apan a =>
    obtain ⟨h1, h2⟩ := h
    refine mapAccum_id _ ?_ _ _
    intro ph f
    have h3 : a.wet + a.dry = 1 := by rw [add_comm]; exact h2
    simp [Apan.frame, h1, h3]
  | strings σ half wet res =>
    have h' : wet = 0 := h
    subst h'
    exact mapAccum_id _ (by simp) s xs
  | rectify coefs amount => exact h.elim
  | lofi coefs f =>
    obtain ⟨h1, h2⟩ := h
    refine two_id _ ?_ s xs
    intro s l
    simp [lofiChannel, bitChannel, decimChannel, h1, h2]
  | dyn σ coefs core g linked => exact h.elim
  | limiter coefs k1 k3 k5 => exact h.elim
  | disto σ d =>
    have h' : d.wet = 0 := h
    refine two_id _ ?_ s xs
    intro s l
    have hl := wet_length d s l
    simp only [distoList, h', mul_zero, sub_zero, mul_one, zero_add]
    generalize (down8 d s.down (mapAccum d.drive s.stages (up8 d s.up (mapAccum (fun mem x =>
      (x * d.dry * (1 - d.pole) + mem * d.pole, x * d.dry * (1 - d.pole) + mem * d.pole)) s.lpf l).2).2).2).2 = w at hl
    induction l generalizing w with
    | nil => simp
    | cons x l ih =>
      match w, hl with
      | y :: w, hl =>
        simp only [List.zipWith_cons_cons]
        rw [ih w (by simpa using hl)]

/-- C92 (partial): a bus of effects in neutral settings plays exactly what it is given, whatever their states and the blocks.
Missing: the effects that resample (rectify, compressor, gate, limiter), which are never transparent, and a distortion that is
not the first effect, `chained_neutral_violated`. -/
theorem neutral_chain_partial {cap : Nat} (rs : List (Running (K := K) cap)) (h : ∀ r ∈ rs, Neutral r.kind)
    (hd : ∀ r ∈ rs.tail, r.kind.isDisto = false) (m : Mem K) (blocks : List (List (K × K)))
    (hb : ∀ xs ∈ blocks, 1 ≤ xs.length ∧ xs.length ≤ cap) :
    (busRun rs m blocks).map (fun a => a.2) = some blocks.flatten := by
  have hk : ∀ r ∈ rs, r.kind.isLinked = false := by
    intro r hr
    have := h r hr
    generalize r.kind = k at this
    cases k with
    | dyn σ coefs core g linked => exact this.elim
    | _ => rfl
  rw [busRun_eq rs hd hk m blocks hb]
  have ht : ∀ (rs : List (Running (K := K) cap)), (∀ r ∈ rs, Neutral r.kind) → ∀ xs, (turns rs xs).2 = xs := by
    intro rs
    induction rs with
    | nil => intro _ xs; rfl
    | cons r rs ih =>
      intro h xs
      simp only [turns, neutral_block cap r.kind (h r (by simp)) r.state xs]
      exact ih (fun r' hr' => h r' (by simp [hr'])) xs
  rw [ht rs h]

/-- The distortion without any wet part. -/
def dryDisto : DistoParams ℚ Unit := { plainDisto with wet := 0 }

/-- C92 is violated: after another effect the distortion with no wet part plays nothing but its wet part, here a fourth. -/
theorem chained_neutral_violated :
    (busRun [⟨.gain (1 : ℚ), ((), ())⟩, ⟨.disto Unit dryDisto, (plainState, plainState)⟩] (fun _ _ => 0) [[((1 : ℚ), (1 : ℚ))]] :
      Option (List (Running (K := ℚ) 4) × List (ℚ × ℚ))).map (fun a => a.2) = some [(1 / 4, 1 / 4)] := by
  decide +kernel

/-- A neutral distortion, strings and bit reducer, with the filters of the code. -/
example : (busRun [⟨.disto Unit dryDisto, (plainState, plainState)⟩, ⟨.strings ℚ 1 0 (fun s x => (s + x, s)), (3 : ℚ)⟩,
      ⟨.lofi coeffs2x ⟨0, 0, 1⟩, ((⟨0, []⟩, ⟨0, 0, []⟩), (⟨0, []⟩, ⟨0, 0, []⟩))⟩] (fun _ _ => 0) [[((1 : ℚ), (2 : ℚ)), (3, 4)], [(5, 6)]] :
      Option (List (Running (K := ℚ) 4) × List (ℚ × ℚ))).map (fun a => a.2) = some [(1, 2), (3, 4), (5, 6)] := by
  have h := neutral_chain_partial (K := ℚ) (cap := 4) [⟨.disto Unit dryDisto, (plainState, plainState)⟩,
    ⟨.strings ℚ 1 0 (fun s x => (s + x, s)), (3 : ℚ)⟩, ⟨.lofi coeffs2x ⟨0, 0, 1⟩, ((⟨0, []⟩, ⟨0, 0, []⟩), (⟨0, []⟩, ⟨0, 0, []⟩))⟩]
    (by simp [Neutral, dryDisto]) (by simp [Kind.isDisto]) (fun _ _ => 0) [[((1 : ℚ), (2 : ℚ)), (3, 4)], [(5, 6)]] (by simp)
  simpa using h

/-! ### C93: the auto-pan and the bit reducer -/

/-- C93: the auto-pan moves the signal between the channels: the gains of a frame always add up to twice the wet and dry
parts, whatever the wave form. -/
theorem apan_balance [IsStrictOrderedRing K] (cap : Nat) (a : Apan K) (phase : K) (xs : List (K × K)) :
    List.Forall₂ (fun x y => ∃ gl gr : K, gl + gr = 2 * (a.wet + a.dry) ∧ y = (x.1 * gl, x.2 * gr)) xs
      (Kind.block cap (.apan a) phase xs).2 := by
  have main : ∀ (xs : List (K × K)) (ph : K),
      List.Forall₂ (fun x y => ∃ gl gr : K, gl + gr = 2 * (a.wet + a.dry) ∧ y = (x.1 * gl, x.2 * gr)) xs
        (mapAccum (fun ph f => ((a.lfo ph).1, a.frame (a.lfo ph).2 f)) ph xs).2 := by
    intro xs
    induction xs with
    | nil => intro ph; exact .nil
    | cons x xs ih =>
      intro ph
      refine .cons ⟨(1 - a.depth * (1 / 2) * ((a.lfo ph).2.1 - (a.lfo ph).2.2)) * a.wet + a.dry,
        (1 + a.depth * (1 / 2) * ((a.lfo ph).2.1 - (a.lfo ph).2.2)) * a.wet + a.dry, by ring, rfl⟩ (ih _)
  exact main xs phase

/-- C93: the gains of the auto-pan are never negative nor above twice the parts, when the wave stays within -1 and 1, the depth
within 0 and 1 and the parts are positive. -/
theorem apan_range [IsStrictOrderedRing K] (a : Apan K) (hw : ∀ p, |a.wave p| ≤ 1) (hd : 0 ≤ a.depth ∧ a.depth ≤ 1)
    (h0 : 0 ≤ a.wet) (h1 : 0 ≤ a.dry) (phase : K) (f : K × K) (hf : 0 ≤ f.1 ∧ 0 ≤ f.2) :
    (0 ≤ (a.frame (a.lfo phase).2 f).1 ∧ (a.frame (a.lfo phase).2 f).1 ≤ f.1 * (2 * a.wet + a.dry)) ∧
      0 ≤ (a.frame (a.lfo phase).2 f).2 ∧ (a.frame (a.lfo phase).2 f).2 ≤ f.2 * (2 * a.wet + a.dry) := by
  have b1 := abs_le.mp (hw phase)
  have b2 := abs_le.mp (hw (wrap (phase + a.offset)))
  simp only [Apan.frame, Apan.lfo]
  obtain ⟨d, hd1, hd2, hde⟩ : ∃ d : K, -1 ≤ d ∧ d ≤ 1 ∧ a.depth * (1 / 2) * (a.wave phase - a.wave (wrap (phase + a.offset))) = d := by
    refine ⟨_, ?_, ?_, rfl⟩
    · nlinarith [hd.1, hd.2]
    · nlinarith [hd.1, hd.2]
  rw [hde]
  have e1 : 0 ≤ (1 - d) * a.wet := mul_nonneg (by linarith) h0
  have e2 : 0 ≤ (1 + d) * a.wet := mul_nonneg (by linarith) h0
  have e3 : (1 - d) * a.wet ≤ 2 * a.wet := mul_le_mul_of_nonneg_right (by linarith) h0
  have e4 : (1 + d) * a.wet ≤ 2 * a.wet := mul_le_mul_of_nonneg_right (by linarith) h0
  exact ⟨⟨mul_nonneg hf.1 (by linarith), mul_le_mul_of_nonneg_left (by linarith) hf.1⟩,
    mul_nonneg hf.2 (by linarith), mul_le_mul_of_nonneg_left (by linarith) hf.2⟩

/-- C93: the phase of the auto-pan stays within [0, 1), whatever the signal. -/
theorem apan_phase [IsStrictOrderedRing K] (cap : Nat) (a : Apan K) (phase : K) (h : 0 ≤ phase ∧ phase < 1) (xs : List (K × K)) :
    ∀ ph : K, ph = (Kind.block cap (.apan a) phase xs).1 → 0 ≤ ph ∧ ph < 1 := by
  have main : ∀ (xs : List (K × K)) (ph : K), 0 ≤ ph ∧ ph < 1 →
      0 ≤ (mapAccum (fun ph f => ((a.lfo ph).1, a.frame (a.lfo ph).2 f)) ph xs).1 ∧
        (mapAccum (fun ph f => ((a.lfo ph).1, a.frame (a.lfo ph).2 f)) ph xs).1 < 1 := by
    intro xs
    induction xs with
    | nil => intro ph h; exact h
    | cons x xs ih =>
      intro ph _
      refine ih _ ⟨?_, ?_⟩
      · simp only [Apan.lfo, wrap]
        linarith [Int.floor_le (ph + a.delta)]
      · simp only [Apan.lfo, wrap]
        linarith [Int.lt_floor_add_one (ph + a.delta)]
  intro ph hp
  subst hp
  exact main xs phase h

theorem steps_pos [IsStrictOrderedRing K] (f : Lofi K) (h : f.bitDepth ≤ 100) : 0 < f.steps := by
  unfold Lofi.steps
  have : (0 : K) < 1 + (100 - f.bitDepth) := by linarith
  linarith

theorem quantize_nonneg [IsStrictOrderedRing K] (f : Lofi K) (hs : 0 < f.steps) {x : K} (hx : 0 ≤ x) :
    f.quantize x = (⌊1 / 2 + x * f.steps⌋ : K) / f.steps := by
  simp only [Lofi.quantize, not_lt.mpr hx, if_false, abs_of_nonneg (mul_nonneg hx hs.le)]
  ring

theorem quantize_neg [IsStrictOrderedRing K] (f : Lofi K) (hs : 0 < f.steps) (x : K) : f.quantize (-x) = -f.quantize x := by
  rcases lt_trichotomy x 0 with h | h | h
  · have h1 : ¬ -x < 0 := by linarith
    simp only [Lofi.quantize, h1, h, if_true, if_false, neg_mul, abs_neg]
    ring
  · subst h
    have : ⌊(1 / 2 : K)⌋ = 0 := floor_half
    simp only [Lofi.quantize, neg_zero, zero_mul, abs_zero, add_zero, this]
    simp
  · have h1 : ¬ x < 0 := by linarith
    have h2 : -x < 0 := by linarith
    simp only [Lofi.quantize, h1, h2, if_true, if_false, neg_mul, abs_neg]

/-- C93: the bit reducer takes each sample to the nearest level: a multiple of the step, at most half a step away; it is
symmetric and keeps the order of samples. -/
theorem quantize_nearest [IsStrictOrderedRing K] (f : Lofi K) (h : f.bitDepth ≤ 100) :
    (∀ x, (∃ k : ℤ, f.quantize x = k * (1 / f.steps)) ∧ |f.quantize x - x| ≤ 1 / 2 * (1 / f.steps) ∧ f.quantize (-x) = -f.quantize x) ∧
    ∀ x y, x ≤ y → f.quantize x ≤ f.quantize y := by
  have hs := steps_pos f h
  have near : ∀ x, 0 ≤ x → |f.quantize x - x| ≤ 1 / 2 * (1 / f.steps) := by
    intro x hx
    rw [quantize_nonneg f hs hx]
    have h1 := Int.floor_le (1 / 2 + x * f.steps)
    have h2 := Int.lt_floor_add_one (1 / 2 + x * f.steps)
    have e : ((⌊1 / 2 + x * f.steps⌋ : K) / f.steps - x) = ((⌊1 / 2 + x * f.steps⌋ : K) - x * f.steps) * (1 / f.steps) := by
      field_simp
    rw [e, abs_mul, abs_of_pos (show 0 < 1 / f.steps by positivity)]
    apply mul_le_mul_of_nonneg_right _ (by positivity)
    rw [abs_le]
    constructor <;> linarith
  have nonneg : ∀ x, 0 ≤ x → 0 ≤ f.quantize x := by
    intro x hx
    rw [quantize_nonneg f hs hx]
    apply div_nonneg _ hs.le
    have : (0 : ℤ) ≤ ⌊1 / 2 + x * f.steps⌋ := Int.floor_nonneg.mpr (by have := mul_nonneg hx hs.le; linarith)
    exact_mod_cast this
  have mono : ∀ x y, 0 ≤ x → x ≤ y → f.quantize x ≤ f.quantize y := by
    intro x y hx hxy
    rw [quantize_nonneg f hs hx, quantize_nonneg f hs (hx.trans hxy)]
    apply div_le_div_of_nonneg_right _ hs.le
    exact_mod_cast Int.floor_le_floor (by
      have := mul_le_mul_of_nonneg_right hxy hs.le
      linarith)
  refine ⟨fun x => ⟨?_, ?_, quantize_neg f hs x⟩, ?_⟩
  · unfold Lofi.quantize
    simp only
    split
    · exact ⟨-⌊1 / 2 + |x * f.steps|⌋, by push_cast; rfl⟩
    · exact ⟨⌊1 / 2 + |x * f.steps|⌋, rfl⟩
  · rcases le_total 0 x with hx | hx
    · exact near x hx
    · have h1 := near (-x) (by linarith)
      rw [quantize_neg f hs x] at h1
      rw [← abs_neg]
      have e : -(f.quantize x - x) = -f.quantize x - -x := by ring
      rw [e]
      exact h1
  · intro x y hxy
    rcases le_total 0 x with hx | hx
    · exact mono x y hx hxy
    · rcases le_total 0 y with hy | hy
      · have h1 := nonneg (-x) (by linarith)
        rw [quantize_neg f hs x] at h1
        have := nonneg y hy
        linarith
      · have h1 := mono (-y) (-x) (by linarith) (by linarith)
        rw [quantize_neg f hs x, quantize_neg f hs y] at h1
        linarith

/-- The coarsest setting: levels 4/3 apart. -/
example : (⟨100, 0, 0⟩ : Lofi ℚ).quantize (7 / 10) = 4 / 3 ∧ (⟨100, 0, 0⟩ : Lofi ℚ).quantize (6 / 10) = 0 := by
  decide +kernel

/-- Three frames of an auto-pan that swings fully. -/
example : (Kind.block 4 (.apan ⟨0, 1, 1, 1 / 2, 1 / 2, fun p => if p < 1 / 2 then 1 else -1⟩) (0 : ℚ) [((1 : ℚ), (1 : ℚ)), (1, 1), (1, 1)]).2 =
    [(0, 2), (2, 0), (0, 2)] := by
  decide +kernel

end Verif.Effects
