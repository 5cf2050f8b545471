import Verif.Effects.Clear
import Mathlib.Analysis.SpecialFunctions.Pow.Real
import Mathlib.NumberTheory.Real.Irrational

/-!
Properties of the effects: the decimator holds the samples taken at the ticks of a slower clock (C104); `clear` and the
detectors (C87).
-/
namespace Verif.Effects

section
variable {K : Type} [Field K] [LinearOrder K] [FloorRing K]

/-! ### C104: the decimator -/

open Classical in
/-- Sample and hold: at frame `n + 1` the input is taken when the clock ticks, the value before is kept otherwise; silence
before the first tick. -/
noncomputable def sampleHold (tick : ℕ → Prop) (xs : List K) : ℕ → K
  | 0 => 0
  | n + 1 => if tick n then xs.getD n 0 else sampleHold tick xs n

/-- A clock of `dt` ticks per frame has a tick after frame `n` and up to frame `n + 1`. -/
def Ticks (dt : K) (n : ℕ) : Prop := ∃ m : ℤ, n * dt < m ∧ m ≤ (n + 1) * dt

/-- A tick strictly between the frames. -/
def TicksBetween (dt : K) (n : ℕ) : Prop := ∃ m : ℤ, n * dt < m ∧ m < (n + 1) * dt

/-- A held signal at double rate, halfway values at the jumps, through the half-band filter of the resampler. -/
noncomputable def smoothHold (coefs : List K) (tick : ℕ → Prop) (xs : List K) : List K :=
  (mapAccum (fun d (p : K × K) => downSample coefs d p.1 p.2) (silentStages coefs)
    ((List.range xs.length).map fun i : ℕ =>
      ((sampleHold tick xs i + sampleHold tick xs (i + 1)) / 2, sampleHold tick xs (i + 1)))).2

variable [IsStrictOrderedRing K]

theorem between_iff (dt : K) (n : ℕ) : TicksBetween dt n ↔ 1 < (n * dt - ⌊n * dt⌋ : K) + dt := by
  constructor
  · rintro ⟨m, h1, h2⟩
    have h3 : ⌊(n * dt : K)⌋ + 1 ≤ m := by
      have := Int.floor_lt.mpr h1
      omega
    have h4 : ((⌊(n * dt : K)⌋ : K) + 1) ≤ m := by exact_mod_cast h3
    linarith
  · intro h
    refine ⟨⌊(n * dt : K)⌋ + 1, ?_, ?_⟩
    · push_cast; exact Int.lt_floor_add_one _
    · push_cast; linarith

theorem wrap_next (dt : K) (n : ℕ) : wrap ((n * dt - ⌊n * dt⌋ : K) + dt) = ((n + 1 : ℕ) * dt - ⌊((n + 1 : ℕ) * dt : K)⌋ : K) := by
  unfold wrap
  have : ((n * dt - ⌊n * dt⌋ : K) + dt) = ((n + 1 : ℕ) * dt : K) - (⌊(n * dt : K)⌋ : ℤ) := by push_cast; ring
  rw [this, Int.floor_sub_intCast]
  push_cast
  ring

theorem held_pair (coefs : List K) (down : List (Stage K)) (last y : K) :
    held coefs down last y = downSample coefs down ((last + y) / 2) y := by
  unfold held
  split
  · congr 1; ring
  · rename_i h
    push Not at h
    subst h
    congr 1; ring

theorem decim_run (coefs : List K) (f : Lofi K) (xs : List K) : ∀ (ys : List K) (n : ℕ) (d : List (Stage K)),
    xs.drop n = ys →
    (mapAccum (f.decimStep coefs) ⟨(n * f.dt - ⌊n * f.dt⌋ : K), sampleHold (TicksBetween f.dt) xs n, d⟩ ys).2 =
      (mapAccum (fun d (p : K × K) => downSample coefs d p.1 p.2) d
        ((List.range' n ys.length).map fun i : ℕ => ((sampleHold (TicksBetween f.dt) xs i +
          sampleHold (TicksBetween f.dt) xs (i + 1)) / 2, sampleHold (TicksBetween f.dt) xs (i + 1)))).2 := by
  intro ys
  induction ys with
  | nil => intro n d _; rfl
  | cons y ys ih =>
    intro n d h
    have hy : xs.getD n 0 = y := by
      have h0 : xs[n]? = some y := by
        have := congrArg (fun l : List K => l[0]?) h
        simpa using this
      simp [List.getD, h0]
    have hrest : xs.drop (n + 1) = ys := by
      have := congrArg List.tail h
      simpa using this
    have hn : (if (n * f.dt - ⌊n * f.dt⌋ : K) + f.dt > 1 then y else sampleHold (TicksBetween f.dt) xs n) =
        sampleHold (TicksBetween f.dt) xs (n + 1) := by
      simp only [sampleHold, hy, gt_iff_lt, between_iff]
    simp only [mapAccum, Lofi.decimStep, hn, held_pair, wrap_next, List.length_cons, List.range'_succ, List.map_cons]
    congr 1
    exact ih (n + 1) _ hrest

/-- C104, what the code does: a decimator alone takes the input at every tick strictly between two frames and holds it, in both
channels, however the sound is cut into blocks. -/
theorem decimator_exact {cap : Nat} (coefs : List K) (f : Lofi K) (hb : f.bitDepth = 0) (hd : f.decimDepth ≠ 0) (m : Mem K)
    (blocks : List (List (K × K))) (hs : ∀ xs ∈ blocks, 1 ≤ xs.length ∧ xs.length ≤ cap) (a : Bitred K) :
    (busRun (cap := cap) [⟨.lofi coefs f, ((a, ⟨0, 0, silentStages coefs⟩), (a, ⟨0, 0, silentStages coefs⟩))⟩] m blocks).map
      (fun a => a.2) =
      some ((smoothHold coefs (TicksBetween f.dt) (blocks.flatten.map Prod.fst)).zip
        (smoothHold coefs (TicksBetween f.dt) (blocks.flatten.map Prod.snd))) := by
  rw [busRun_eq _ (by simp) (by simp [Kind.isLinked]) m blocks hs]
  have key : ∀ xs : List K, (lofiChannel coefs f (a, ⟨0, 0, silentStages coefs⟩) xs).2 =
      smoothHold coefs (TicksBetween f.dt) xs := by
    intro xs
    have := decim_run coefs f xs xs 0 (silentStages coefs) rfl
    simp only [Nat.cast_zero, zero_mul, Int.floor_zero, Int.cast_zero, sub_zero, sampleHold] at this
    simp only [lofiChannel, bitChannel, hb, if_true, decimChannel, hd, if_false, this, smoothHold, List.range_eq_range']
    rfl
  simp only [turns, Kind.block, twoChannels, key]

/-- C104 (partial): if no tick falls exactly on a frame, a decimator alone is a sample and hold at the ticks of its clock.
Missing: ticks on a frame, which are lost, see `decimator_silent_violated`. -/
theorem decimator_partial {cap : Nat} (coefs : List K) (f : Lofi K) (hb : f.bitDepth = 0) (hd : f.decimDepth ≠ 0)
    (hi : ∀ (n : ℕ) (k : ℤ), ((n + 1 : ℕ) : K) * f.dt ≠ k) (m : Mem K)
    (blocks : List (List (K × K))) (hs : ∀ xs ∈ blocks, 1 ≤ xs.length ∧ xs.length ≤ cap) (a : Bitred K) :
    (busRun (cap := cap) [⟨.lofi coefs f, ((a, ⟨0, 0, silentStages coefs⟩), (a, ⟨0, 0, silentStages coefs⟩))⟩] m blocks).map
      (fun a => a.2) =
      some ((smoothHold coefs (Ticks f.dt) (blocks.flatten.map Prod.fst)).zip
        (smoothHold coefs (Ticks f.dt) (blocks.flatten.map Prod.snd))) := by
  have : TicksBetween f.dt = Ticks f.dt := by
    funext n
    apply propext
    constructor
    · rintro ⟨k, h1, h2⟩; exact ⟨k, h1, h2.le⟩
    · rintro ⟨k, h1, h2⟩
      refine ⟨k, h1, lt_of_le_of_ne h2 (fun h => hi n k ?_)⟩
      push_cast; exact h.symm
  rw [← this]
  exact decimator_exact coefs f hb hd m blocks hs a

/-- C104, pace: among any `k` consecutive frames in which the clock goes a whole turn, one takes the input. -/
theorem decimator_refreshes (dt : K) (n k : ℕ) (h : 1 ≤ k * dt) : ∃ i < k, Ticks dt (n + i) := by
  by_contra hc
  push Not at hc
  have step : ∀ i ≤ k, ⌊((n + i : ℕ) * dt : K)⌋ ≤ ⌊(n * dt : K)⌋ := by
    intro i
    induction i with
    | zero => intro _; simp
    | succ i ih =>
      intro hi
      by_contra hlt
      push Not at hlt
      have hi' := ih (by omega)
      apply hc i (by omega)
      refine ⟨⌊(n * dt : K)⌋ + 1, ?_, ?_⟩
      · have : ((n + i : ℕ) * dt : K) < (⌊((n + i : ℕ) * dt : K)⌋ : K) + 1 := Int.lt_floor_add_one _
        have h2 : ((⌊((n + i : ℕ) * dt : K)⌋ : K)) ≤ ⌊(n * dt : K)⌋ := by exact_mod_cast hi'
        push_cast at this h2 ⊢; linarith
      · have h3 : ⌊(n * dt : K)⌋ + 1 ≤ ⌊((n + (i + 1) : ℕ) * dt : K)⌋ := hlt
        have h4 := Int.le_floor.mp h3
        push_cast at h4 ⊢
        rw [show ((n : K) + i + 1) * dt = (n + (i + 1)) * dt by ring]
        exact h4
  have h1 := step k le_rfl
  have h2 : ⌊(n * dt : K)⌋ + 1 ≤ ⌊((n + k : ℕ) * dt : K)⌋ := by
    rw [Int.le_floor]
    have := Int.floor_le (n * dt : K)
    push_cast
    linarith [add_mul (n : K) k dt]
  omega

end

/-- `dt` of the decimator (Lofi.cpp:179-184): frames are `1 / rate` apart, and the clock follows an exponential curve. -/
noncomputable def decimDt (rate depth : ℝ) : ℝ :=
  1 / rate / ((1.289079 : ℝ) ^ ((0.1384141 : ℝ) * depth) * 0.0001313298 - 0.0001313298)

/-- A depth at which the clock ticks every other frame, at 48 kHz. -/
theorem half_rate_depth : ∃ depth : ℝ, 0 < depth ∧ depth ≤ 100 ∧ decimDt 48000 depth = 1 / 2 := by
  have ha : (1 : ℝ) < 1.289079 := by norm_num
  set y : ℝ := 1 + 2 / (48000 * 0.0001313298) with hy
  have hy1 : 1 < y := by rw [hy]; norm_num
  have hla : 0 < Real.log 1.289079 := Real.log_pos ha
  have hly : 0 < Real.log y := Real.log_pos hy1
  have hle : Real.log y ≤ 2 * Real.log 1.289079 := by
    rw [← Real.log_rpow (by norm_num)]
    apply Real.log_le_log (by linarith)
    rw [hy, Real.rpow_two]; norm_num
  refine ⟨Real.log y / (0.1384141 * Real.log 1.289079), by positivity, ?_, ?_⟩
  · rw [div_le_iff₀ (by positivity)]
    nlinarith
  · have hp : (1.289079 : ℝ) ^ ((0.1384141 : ℝ) * (Real.log y / (0.1384141 * Real.log 1.289079))) = y := by
      rw [show (0.1384141 : ℝ) * (Real.log y / (0.1384141 * Real.log 1.289079)) = Real.log y / Real.log 1.289079 by
        field_simp]
      rw [Real.rpow_def_of_pos (by norm_num), show Real.log 1.289079 * (Real.log y / Real.log 1.289079) = Real.log y by
        field_simp]
      exact Real.exp_log (by linarith)
    unfold decimDt
    rw [hp, hy]
    norm_num

theorem half_never (n : ℕ) : ¬ TicksBetween (1 / 2 : ℝ) n := by
  rintro ⟨m, h1, h2⟩
  have h3 : (n : ℝ) < 2 * m := by linarith
  have h4 : (2 : ℝ) * m < n + 1 := by linarith
  have h5 : (n : ℤ) < 2 * m := by exact_mod_cast h3
  have h6 : 2 * m < (n : ℤ) + 1 := by exact_mod_cast h4
  omega

/-- C104 is violated: at 48 kHz there is a depth at which the clock ticks on every other frame exactly; all ticks are lost, and
the effect is silent whatever is played. -/
theorem decimator_silent_violated : ∃ depth : ℝ, 0 < depth ∧ depth ≤ 100 ∧
    ∀ (cap : Nat) (coefs : List ℝ) (m : Mem ℝ) (blocks : List (List (ℝ × ℝ))),
      (∀ xs ∈ blocks, 1 ≤ xs.length ∧ xs.length ≤ cap) →
      (busRun (cap := cap) [⟨.lofi coefs ⟨0, depth, decimDt 48000 depth⟩,
        ((⟨0, silentStages coefs⟩, ⟨0, 0, silentStages coefs⟩), (⟨0, silentStages coefs⟩, ⟨0, 0, silentStages coefs⟩))⟩]
        m blocks).map (fun a => a.2) = some (List.replicate blocks.flatten.length (0, 0)) := by
  obtain ⟨depth, h1, h2, h3⟩ := half_rate_depth
  refine ⟨depth, h1, h2, fun cap coefs m blocks hs => ?_⟩
  rw [decimator_exact coefs _ rfl h1.ne' m blocks hs]
  have hz : ∀ (xs : List ℝ) n, sampleHold (TicksBetween (decimDt 48000 depth)) xs n = 0 := by
    intro xs n
    induction n with
    | zero => rfl
    | succ n ih => rw [sampleHold, h3, if_neg (half_never n), ← h3]; exact ih
  have hsil : ∀ xs : List ℝ, smoothHold coefs (TicksBetween (decimDt 48000 depth)) xs = List.replicate xs.length 0 := by
    intro xs
    unfold smoothHold
    simp only [hz, add_zero, zero_div]
    rw [List.map_const', List.length_range]
    exact mapAccum_inv _ (fun d => d = silentStages coefs) _ _ (by
      rintro s rfl
      simp [downSample_silent]) _ _ rfl
  simp only [hsil, List.length_map, List.zip_replicate, min_self]

/-- Non-vacuity of `decimator_partial`: an irrational number of ticks per frame. -/
example : ∃ dt : ℝ, 0 < dt ∧ ∀ (n : ℕ) (k : ℤ), ((n + 1 : ℕ) : ℝ) * dt ≠ k := by
  refine ⟨√2, by positivity, fun n k h => irrational_sqrt_two ⟨(k : ℚ) / (n + 1 : ℕ), ?_⟩⟩
  push_cast
  rw [div_eq_iff (by positivity)]
  push_cast at h
  linarith

/-! ### C87: the detectors -/

section
variable {K : Type} [Field K] [LinearOrder K] [FloorRing K]

/-- C87, detectors: once cleared, a compressor or gate plays as if it were new but for what its resamplers still hold, whatever
its detectors had heard. -/
theorem clear_resets_detectors {cap : Nat} {σ : Type} (coefs : List K) (core : σ → K → σ × K) (g : K) (linked : Bool) (c : σ)
    (s t : Dyn K σ) (hu : s.upL = t.upL ∧ s.upR = t.upR) (hd : s.downL = t.downL ∧ s.downR = t.downR) (m : Mem K)
    (blocks : List (List (K × K))) :
    busRun (cap := cap) [⟨.dyn σ coefs core g linked, Dyn.clear c s⟩] m blocks =
      busRun (cap := cap) [⟨.dyn σ coefs core g linked, Dyn.clear c t⟩] m blocks := by
  have : Dyn.clear c s = Dyn.clear c t := by
    obtain ⟨a1, a2, a3, a4, a5, a6⟩ := s
    obtain ⟨b1, b2, b3, b4, b5, b6⟩ := t
    simp only at hu hd
    simp [Dyn.clear, hu, hd]
  rw [this]

end

end Verif.Effects
