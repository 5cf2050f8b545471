import Verif.Pan.Props

/-!
# The pan stage of a voice (C135)

Model of `Voice::Impl::panStageMono` and `Voice::Impl::panStageStereo` (Voice.cpp:957-1030) on top of `Panning.cpp`, and of
the version of `pan` for ARM processors (Panning.cpp:50-94). Numbers are real, without rounding. The modulation of a target is
any sequence of values, or none. A buffer is the list of its frames, a pair (left, right) each.
-/
namespace Verif.Pan
open Real

/-! ## Model -/

/-- The envelope given to `pan` or `width`: the setting of the region plus the modulation of the target, when it has one
(Voice.cpp:977-981, 1005-1009, 1013-1017, 1020-1024). -/
def envelope (setting : ℝ) (mod : Option (Nat → ℝ)) (i : Nat) : ℝ :=
  match mod with
  | some m => setting + m i
  | none => setting

/-- A loop over the frames of a buffer with an envelope (Panning.cpp:89-92, 159-162), from frame `i`. -/
noncomputable def frames (tick : ℝ → ℝ → ℝ → Option (ℝ × ℝ)) (env : Nat → ℝ) : Nat → List (ℝ × ℝ) → Option (List (ℝ × ℝ))
  | _, [] => some []
  | i, s :: buf => do
    let t ← tick (env i) s.1 s.2
    let rest ← frames tick env (i + 1) buf
    return t :: rest

/-- `applyGain1` on both channels (Voice.cpp:985-986, 1028-1029). -/
noncomputable def gain1 (g : ℝ) (buf : List (ℝ × ℝ)) : List (ℝ × ℝ) := buf.map fun s => (g * s.1, g * s.2)

/-- The gains after the stages, 10^(3/20) and 10^(6/20) as written (Voice.cpp:985, 1028). -/
noncomputable def gainMono : ℝ := 1.4125375446227544
noncomputable def gainStereo : ℝ := 1.9952623149688797

/-- The settings of the region and the modulations of the three targets. -/
structure Settings where
  pan : ℝ
  width : ℝ
  position : ℝ
  panMod : Option (Nat → ℝ)
  widthMod : Option (Nat → ℝ)
  positionMod : Option (Nat → ℝ)

/-- `panStageMono` (Voice.cpp:957-987); `free` says whether the pool had a buffer (967-969). -/
noncomputable def panStageMono (free : Bool) (s : Settings) (buf : List (ℝ × ℝ)) : Option (List (ℝ × ℝ)) :=
  if free then do
    let buf := buf.map fun x => (x.1, x.1)
    let buf ← frames tickPan (envelope s.pan s.panMod) 0 buf
    return gain1 gainMono buf
  else some buf

/-- `panStageStereo` (Voice.cpp:989-1030). -/
noncomputable def panStageStereo (free : Bool) (s : Settings) (buf : List (ℝ × ℝ)) : Option (List (ℝ × ℝ)) :=
  if free then do
    let buf ← frames tickPan (envelope s.pan s.panMod) 0 buf
    let buf ← frames tickWidth (envelope s.width s.widthMod) 0 buf
    let buf ← frames tickPan (envelope s.position s.positionMod) 0 buf
    return gain1 gainStereo buf
  else some buf

/-- The index of the vector code (Panning.cpp:66-72): `vcvtq_u32_f32` drops the fraction, and gives 0 below 0. -/
noncomputable def neonIndex (pan : ℝ) : Nat := min ⌊(pan + 1) * (1 / 2 * (panSize : ℝ)) + 1 / 2⌋₊ (panSize - 1)

/-- One lane of the vector code of `pan` (Panning.cpp:64-86). -/
noncomputable def neonPan (pan left right : ℝ) : Option (ℝ × ℝ) := do
  let l ← panData (neonIndex pan)
  let r ← panData ((panSize : Int) - neonIndex pan - 1)
  return (left * l, right * r)

/-- `pan` on ARM (Panning.cpp:50-94), the three buffers aligned alike: `head` frames before the first aligned one, then whole
groups of four in the vector code, and the frames left over. -/
noncomputable def panArm (head : Nat) (env : Nat → ℝ) (buf : List (ℝ × ℝ)) : Option (List (ℝ × ℝ)) := do
  let body := (buf.length - head) / 4 * 4
  let a ← frames tickPan env 0 (buf.take head)
  let b ← frames neonPan env head ((buf.drop head).take body)
  let c ← frames tickPan env (head + body) ((buf.drop head).drop body)
  return a ++ b ++ c

/-! ## Specification -/

/-- The value of a setting at a frame: what the opcode says, plus the modulation at that frame if there is one. -/
noncomputable def modulated (setting : ℝ) (mod : Option (Nat → ℝ)) (i : Nat) : ℝ := setting + (mod.map (· i)).getD 0

/-- A setting limited to the range of the opcode. -/
noncomputable def limited (x : ℝ) : ℝ := max (-1) (min x 1)

/-- The angle of a setting: 0 at the left end, a quarter of a turn at the right end. -/
noncomputable def angle (x : ℝ) : ℝ := π / 4 * (limited x + 1)

/-- The law of equal power: the channels are weighted with the cosine and the sine of the angle. -/
noncomputable def place (pan : ℝ) (s : ℝ × ℝ) : ℝ × ℝ := (s.1 * cos (angle pan), s.2 * sin (angle pan))

/-- The law of width: each channel is mixed with the other one. -/
noncomputable def spread (width : ℝ) (s : ℝ × ℝ) : ℝ × ℝ :=
  (s.1 * sin (angle width) + s.2 * cos (angle width), s.1 * cos (angle width) + s.2 * sin (angle width))

/-! ## Lemmas -/

theorem frames_map (tick : ℝ → ℝ → ℝ → Option (ℝ × ℝ)) (f : ℝ → ℝ × ℝ → ℝ × ℝ)
    (h : ∀ p l r, tick p l r = some (f p (l, r))) (env : Nat → ℝ) (buf : List (ℝ × ℝ)) :
    ∀ i, frames tick env i buf = some (buf.mapIdx fun k s => f (env (i + k)) s) := by
  induction buf with
  | nil => intro i; rfl
  | cons s buf ih =>
    intro i
    simp only [frames, h, ih (i + 1), List.mapIdx_cons, Nat.add_zero]
    have : (fun k s => f (env (i + 1 + k)) s) = (fun k s => f (env (i + (k + 1))) s) := by
      funext k s; rw [show i + 1 + k = i + (k + 1) by omega]
    rw [this]
    rfl

/-- What `pan` and `width` do to a frame. -/
noncomputable def panned (p : ℝ) (s : ℝ × ℝ) : ℝ × ℝ := (s.1 * (gains p).1, s.2 * (gains p).2)
noncomputable def widened (w : ℝ) (s : ℝ × ℝ) : ℝ × ℝ :=
  (s.1 * (gains w).2 + s.2 * (gains w).1, s.1 * (gains w).1 + s.2 * (gains w).2)

theorem width_defined (w l r : ℝ) : tickWidth w l r = some (widened w (l, r)) := by
  obtain ⟨b1, b2⟩ := clamp_bounds ((w + 1) * (1 / 2))
  simp only [tickWidth, widened, gains]
  rw [lookup_inside b1 b2, lookup_inside (by linarith) (by linarith)]
  rfl

theorem gains_limited (p : ℝ) : gains p = gains (limited p) := by
  have : clamp ((p + 1) * (1 / 2)) 0 1 = clamp ((limited p + 1) * (1 / 2)) 0 1 := by
    unfold clamp limited
    rcases le_total p (-1) with h | h
    · rw [min_eq_left (by linarith : p ≤ 1), max_eq_left h, min_eq_left (by linarith), max_eq_left (by linarith)]
      norm_num
    · rcases le_total p 1 with h1 | h1
      · rw [min_eq_left h1, max_eq_right h]
      · rw [min_eq_right h1, max_eq_right (by norm_num : (-1 : ℝ) ≤ 1), min_eq_right (by linarith : (1 : ℝ) ≤ (p + 1) * (1 / 2)),
          show ((1 : ℝ) + 1) * (1 / 2) = 1 by norm_num, min_self]
  unfold gains
  rw [this]

theorem limited_bounds (x : ℝ) : -1 ≤ limited x ∧ limited x ≤ 1 :=
  ⟨le_max_left _ _, max_le (by norm_num) (min_le_right _ _)⟩

/-- The gains of any setting, against the law. -/
theorem gains_near (p : ℝ) : |(gains p).1 - cos (angle p)| ≤ θ / 2 ∧ |(gains p).2 - sin (angle p)| ≤ θ / 2 := by
  rw [gains_limited]
  exact pan_accuracy (limited_bounds p).1 (limited_bounds p).2

theorem gains_unit (p : ℝ) : (0 ≤ (gains p).1 ∧ (gains p).1 ≤ 1) ∧ 0 ≤ (gains p).2 ∧ (gains p).2 ≤ 1 := by
  obtain ⟨-, -, h, h'⟩ := pan_monotone (le_refl p)
  exact ⟨h, h'⟩

theorem envelope_eq (setting : ℝ) (mod : Option (Nat → ℝ)) (i : Nat) : envelope setting mod i = modulated setting mod i := by
  cases mod <;> simp [envelope, modulated]

/-! ## Theorems -/

/-- Every frame of the mono stage: the left channel of the input comes out of both channels, weighted with the gains of the
setting and its modulation at that frame. Nothing outside of the table is read. -/
theorem mono_stage (s : Settings) (buf : List (ℝ × ℝ)) :
    ∃ out, panStageMono true s buf = some out ∧ out.length = buf.length ∧
      ∀ i (h : i < buf.length), ∃ o, out[i]? = some o ∧
        |o.1 - gainMono * (place (modulated s.pan s.panMod i) (buf[i].1, buf[i].1)).1| ≤ gainMono * |buf[i].1| * (θ / 2) ∧
        |o.2 - gainMono * (place (modulated s.pan s.panMod i) (buf[i].1, buf[i].1)).2| ≤ gainMono * |buf[i].1| * (θ / 2) := by
  simp only [← envelope_eq]
  have e := frames_map tickPan panned (fun p l r => pan_defined p l r) (envelope s.pan s.panMod)
    (buf.map fun x => (x.1, x.1)) 0
  refine ⟨_, by simp only [panStageMono, if_true, e]; rfl, by simp [gain1], fun i h => ?_⟩
  refine ⟨_, by simp [gain1, h]; rfl, ?_⟩
  have g0 : (0 : ℝ) ≤ gainMono := by unfold gainMono; norm_num
  obtain ⟨n1, n2⟩ := gains_near (envelope s.pan s.panMod i)
  simp only [panned, place]
  constructor
  · rw [← mul_sub, ← mul_sub, abs_mul, abs_mul, abs_of_nonneg g0, mul_assoc]
    gcongr
  · rw [← mul_sub, ← mul_sub, abs_mul, abs_mul, abs_of_nonneg g0, mul_assoc]
    gcongr

theorem panned_near (p : ℝ) (s t : ℝ × ℝ) {ε δ S : ℝ} (hε : |s.1 - t.1| ≤ ε) (hδ : |s.2 - t.2| ≤ δ) (h1 : |t.1| ≤ S) (h2 : |t.2| ≤ S) :
    |(panned p s).1 - (place p t).1| ≤ ε + S * (θ / 2) ∧ |(panned p s).2 - (place p t).2| ≤ δ + S * (θ / 2) := by
  obtain ⟨n1, n2⟩ := gains_near p
  obtain ⟨⟨u1, u2⟩, u3, u4⟩ := gains_unit p
  have S0 : 0 ≤ S := (abs_nonneg _).trans h1
  simp only [panned, place]
  constructor
  · have : s.1 * (gains p).1 - t.1 * cos (angle p) = (s.1 - t.1) * (gains p).1 + t.1 * ((gains p).1 - cos (angle p)) := by ring
    rw [this]
    refine (abs_add_le _ _).trans (add_le_add ?_ ?_)
    · rw [abs_mul, abs_of_nonneg u1]
      exact (mul_le_of_le_one_right (abs_nonneg _) u2).trans hε
    · rw [abs_mul]
      exact mul_le_mul h1 n1 (abs_nonneg _) S0
  · have : s.2 * (gains p).2 - t.2 * sin (angle p) = (s.2 - t.2) * (gains p).2 + t.2 * ((gains p).2 - sin (angle p)) := by ring
    rw [this]
    refine (abs_add_le _ _).trans (add_le_add ?_ ?_)
    · rw [abs_mul, abs_of_nonneg u3]
      exact (mul_le_of_le_one_right (abs_nonneg _) u4).trans hδ
    · rw [abs_mul]
      exact mul_le_mul h2 n2 (abs_nonneg _) S0

theorem widened_near (w : ℝ) (s t : ℝ × ℝ) {ε δ S T : ℝ} (hε : |s.1 - t.1| ≤ ε) (hδ : |s.2 - t.2| ≤ δ) (h1 : |t.1| ≤ S) (h2 : |t.2| ≤ T) :
    |(widened w s).1 - (spread w t).1| ≤ ε + δ + (S + T) * (θ / 2) ∧ |(widened w s).2 - (spread w t).2| ≤ ε + δ + (S + T) * (θ / 2) := by
  obtain ⟨n1, n2⟩ := gains_near w
  obtain ⟨⟨u1, u2⟩, u3, u4⟩ := gains_unit w
  have S0 : 0 ≤ S := (abs_nonneg _).trans h1
  have T0 : 0 ≤ T := (abs_nonneg _).trans h2
  have part : ∀ {a b g c e B : ℝ}, |a - b| ≤ e → 0 ≤ g → g ≤ 1 → |g - c| ≤ θ / 2 → |b| ≤ B → 0 ≤ B →
      |a * g - b * c| ≤ e + B * (θ / 2) := by
    intro a b g c e B he g0 g1 hg hb hB
    have : a * g - b * c = (a - b) * g + b * (g - c) := by ring
    rw [this]
    refine (abs_add_le _ _).trans (add_le_add ?_ ?_)
    · rw [abs_mul, abs_of_nonneg g0]
      exact (mul_le_of_le_one_right (abs_nonneg _) g1).trans he
    · rw [abs_mul]
      exact mul_le_mul hb hg (abs_nonneg _) hB
  simp only [widened, spread]
  constructor
  · rw [show s.1 * (gains w).2 + s.2 * (gains w).1 - (t.1 * sin (angle w) + t.2 * cos (angle w)) =
      (s.1 * (gains w).2 - t.1 * sin (angle w)) + (s.2 * (gains w).1 - t.2 * cos (angle w)) by ring]
    refine (abs_add_le _ _).trans ?_
    have := part hε u3 u4 n2 h1 S0
    have := part hδ u1 u2 n1 h2 T0
    linarith
  · rw [show s.1 * (gains w).1 + s.2 * (gains w).2 - (t.1 * cos (angle w) + t.2 * sin (angle w)) =
      (s.1 * (gains w).1 - t.1 * cos (angle w)) + (s.2 * (gains w).2 - t.2 * sin (angle w)) by ring]
    refine (abs_add_le _ _).trans ?_
    have := part hε u1 u2 n1 h1 S0
    have := part hδ u3 u4 n2 h2 T0
    linarith

theorem place_le (p : ℝ) (s : ℝ × ℝ) : |(place p s).1| ≤ |s.1| ∧ |(place p s).2| ≤ |s.2| := by
  simp only [place, abs_mul]
  exact ⟨mul_le_of_le_one_right (abs_nonneg _) (abs_cos_le_one _), mul_le_of_le_one_right (abs_nonneg _) (abs_sin_le_one _)⟩

theorem spread_le (w : ℝ) (s : ℝ × ℝ) : |(spread w s).1| ≤ |s.1| + |s.2| ∧ |(spread w s).2| ≤ |s.1| + |s.2| := by
  simp only [spread]
  constructor <;> refine (abs_add_le _ _).trans (add_le_add ?_ ?_) <;> rw [abs_mul]
  · exact mul_le_of_le_one_right (abs_nonneg _) (abs_sin_le_one _)
  · exact mul_le_of_le_one_right (abs_nonneg _) (abs_cos_le_one _)
  · exact mul_le_of_le_one_right (abs_nonneg _) (abs_cos_le_one _)
  · exact mul_le_of_le_one_right (abs_nonneg _) (abs_sin_le_one _)

/-- The stereo stage as it stands: three passes over the frames. -/
theorem stereo_frames (s : Settings) (buf : List (ℝ × ℝ)) :
    panStageStereo true s buf = some (buf.mapIdx fun i x =>
      let y := panned (envelope s.position s.positionMod i)
        (widened (envelope s.width s.widthMod i) (panned (envelope s.pan s.panMod i) x))
      (gainStereo * y.1, gainStereo * y.2)) := by
  have a := frames_map tickPan panned (fun p l r => pan_defined p l r) (envelope s.pan s.panMod) buf 0
  have b := fun buf => frames_map tickWidth widened (fun p l r => width_defined p l r) (envelope s.width s.widthMod) buf 0
  have c := fun buf => frames_map tickPan panned (fun p l r => pan_defined p l r) (envelope s.position s.positionMod) buf 0
  simp only [panStageStereo, if_true, a, Option.bind_eq_bind, Option.bind_some, b, c, gain1]
  simp only [Nat.zero_add]
  refine congrArg some (List.ext_getElem (by simp) fun i h1 h2 => ?_)
  simp

/-- Every frame of the stereo stage: the sound is placed with `pan`, mixed with `width`, placed again with `position`, each with
its modulation at that frame, up to the resolution of the table. -/
theorem stereo_stage (s : Settings) (buf : List (ℝ × ℝ)) :
    ∃ out, panStageStereo true s buf = some out ∧ out.length = buf.length ∧
      ∀ i (h : i < buf.length), ∃ o, out[i]? = some o ∧
        let ideal := place (modulated s.position s.positionMod i)
          (spread (modulated s.width s.widthMod i) (place (modulated s.pan s.panMod i) buf[i]))
        |o.1 - gainStereo * ideal.1| ≤ 3 * θ * (|buf[i].1| + |buf[i].2|) ∧
        |o.2 - gainStereo * ideal.2| ≤ 3 * θ * (|buf[i].1| + |buf[i].2|) := by
  simp only [← envelope_eq]
  refine ⟨_, stereo_frames s buf, by simp, fun i h => ⟨_, by simp only [List.getElem?_mapIdx, List.getElem?_eq_getElem h, Option.map_some]; rfl, ?_⟩⟩
  have g0 : (0 : ℝ) ≤ gainStereo := by unfold gainStereo; norm_num
  have g2 : gainStereo ≤ 2 := by unfold gainStereo; norm_num
  have t := θ_pos
  generalize buf[i] = x
  generalize envelope s.pan s.panMod i = p
  generalize envelope s.width s.widthMod i = w
  generalize envelope s.position s.positionMod i = q
  have a0 : |x.1 - x.1| ≤ 0 := by simp
  have b0 : |x.2 - x.2| ≤ 0 := by simp
  obtain ⟨pl1, pl2⟩ := place_le p x
  have step1 : |(panned p x).1 - (place p x).1| ≤ |x.1| * (θ / 2) ∧ |(panned p x).2 - (place p x).2| ≤ |x.2| * (θ / 2) := by
    obtain ⟨n1, n2⟩ := gains_near p
    simp only [panned, place]
    rw [← mul_sub, ← mul_sub, abs_mul, abs_mul]
    exact ⟨mul_le_mul_of_nonneg_left n1 (abs_nonneg _), mul_le_mul_of_nonneg_left n2 (abs_nonneg _)⟩
  obtain ⟨w1, w2⟩ := widened_near w (panned p x) (place p x) step1.1 step1.2 pl1 pl2
  obtain ⟨sp1, sp2⟩ := spread_le w (place p x)
  have S1 : |(spread w (place p x)).1| ≤ |x.1| + |x.2| := by linarith
  have S2 : |(spread w (place p x)).2| ≤ |x.1| + |x.2| := by linarith
  obtain ⟨q1, q2⟩ := panned_near q (widened w (panned p x)) (spread w (place p x)) w1 w2 S1 S2
  have S0 : 0 ≤ |x.1| + |x.2| := by positivity
  have last : ∀ a b : ℝ, |a - b| ≤ |x.1| * (θ / 2) + |x.2| * (θ / 2) + (|x.1| + |x.2|) * (θ / 2) + (|x.1| + |x.2|) * (θ / 2) →
      |gainStereo * a - gainStereo * b| ≤ 3 * θ * (|x.1| + |x.2|) := by
    intro a b hab
    rw [← mul_sub, abs_mul, abs_of_nonneg g0]
    have e : |x.1| * (θ / 2) + |x.2| * (θ / 2) + (|x.1| + |x.2|) * (θ / 2) + (|x.1| + |x.2|) * (θ / 2) =
      3 / 2 * θ * (|x.1| + |x.2|) := by ring
    rw [e] at hab
    calc gainStereo * |a - b| ≤ 2 * (3 / 2 * θ * (|x.1| + |x.2|)) := mul_le_mul g2 hab (abs_nonneg _) (by norm_num)
      _ = _ := by ring
  exact ⟨last _ _ q1, last _ _ q2⟩

theorem gains_centre : gains 0 = (√2 / 2, √2 / 2) := by
  have h := pan_middle 1 1
  rw [pan_defined] at h
  simpa using h

theorem sqrt_two_bounds : 1.414 < √2 ∧ √2 < 1.4143 := by
  constructor
  · rw [Real.lt_sqrt (by norm_num)]; norm_num
  · rw [Real.sqrt_lt' (by norm_num)]; norm_num

/-- A mono sound in the centre comes out of both channels alike, at less than its own level, by less than 0.2 per cent. -/
theorem mono_centre {s : Settings} (h : s.pan = 0) (hm : s.panMod = none) :
    ∃ g : ℝ, 0.998 < g ∧ g < 1 ∧ ∀ buf, panStageMono true s buf = some (buf.map fun x => (g * x.1, g * x.1)) := by
  obtain ⟨b1, b2⟩ := sqrt_two_bounds
  refine ⟨gainMono * (√2 / 2), by unfold gainMono; linarith, ?_, fun buf => ?_⟩
  · have e : √2 * √2 = 2 := Real.mul_self_sqrt (by norm_num)
    have : (1.4125375446227544 : ℝ) < √2 := by
      rw [Real.lt_sqrt (by norm_num)]; norm_num
    unfold gainMono
    nlinarith
  · have e := frames_map tickPan panned (fun p l r => pan_defined p l r) (envelope s.pan s.panMod)
      (buf.map fun x => (x.1, x.1)) 0
    simp only [panStageMono, if_true, Option.bind_eq_bind]
    rw [e]
    simp only [Option.bind_some, gain1, hm, h, envelope, panned, gains_centre]
    refine congrArg some (List.ext_getElem (by simp) fun i h1 h2 => ?_)
    simp only [List.getElem_map, List.getElem_mapIdx]
    ext <;> simp <;> ring

/-- A stereo sound with the default settings comes out with its channels apart, both at the same level, less than their own by
less than 0.3 per cent. -/
theorem stereo_default {s : Settings} (hp : s.pan = 0) (hw : s.width = 1) (hq : s.position = 0)
    (mp : s.panMod = none) (mw : s.widthMod = none) (mq : s.positionMod = none) :
    ∃ g : ℝ, 0.997 < g ∧ g < 1 ∧ ∀ buf, panStageStereo true s buf = some (buf.map fun x => (g * x.1, g * x.2)) := by
  refine ⟨gainStereo / 2, by unfold gainStereo; norm_num, by unfold gainStereo; norm_num, fun buf => ?_⟩
  have e : √2 * √2 = 2 := Real.mul_self_sqrt (by norm_num)
  have w1 : ∀ x : ℝ × ℝ, widened 1 x = x := fun x => by
    have h := (width_settings x.1 x.2).1 1 le_rfl
    rw [width_defined] at h
    exact Option.some.inj h
  rw [stereo_frames]
  refine congrArg some (List.ext_getElem (by simp) fun i h1 h2 => ?_)
  simp only [List.getElem_map, List.getElem_mapIdx, hp, hw, hq, mp, mw, mq, envelope, panned, gains_centre, w1]
  have hi : i < buf.length := by simpa using h2
  ext
  · show gainStereo * (buf[i].1 * (√2 / 2) * (√2 / 2)) = gainStereo / 2 * buf[i].1
    linear_combination (gainStereo * buf[i].1 / 4) * e
  · show gainStereo * (buf[i].2 * (√2 / 2) * (√2 / 2)) = gainStereo / 2 * buf[i].2
    linear_combination (gainStereo * buf[i].2 / 4) * e

/-- With no free buffer in the pool the stage does nothing: a mono sound, whose right channel is silent so far, is heard on the
left, wherever it is panned to. -/
theorem no_buffer_violated : ∃ s : Settings, s.pan = 1 ∧ ∃ l : ℝ, 0 < l ∧ panStageMono false s [(1, 0)] = some [(l, 0)] :=
  ⟨⟨1, 1, 0, none, none, none⟩, rfl, 1, one_pos, rfl⟩

/-! ### The vector code for ARM processors -/

theorem neon_defined (pan left right : ℝ) :
    neonPan pan left right = some (left * cos (neonIndex pan * θ), right * sin (neonIndex pan * θ)) := by
  have hb : neonIndex pan ≤ 4094 := min_le_right _ _
  have r : (panSize : Int) - neonIndex pan - 1 = ((4094 - neonIndex pan : Nat) : Int) := by
    unfold panSize; push_cast [Nat.cast_sub hb]; ring
  simp only [neonPan]
  rw [panData_eq (by omega) (by exact_mod_cast hb), r, panData_eq (by omega) (by omega)]
  have e : (((4094 - neonIndex pan : Nat) : Int) : ℝ) * θ = π / 2 - neonIndex pan * θ := by
    push_cast [Nat.cast_sub hb]; rw [sub_mul, θ_full]
  rw [e, cos_pi_div_two_sub]
  rfl

/-- The vector code keeps the power of the two channels together, for every setting. -/
theorem neon_power (pan x : ℝ) : ∃ l r, neonPan pan x x = some (l, r) ∧ l ^ 2 + r ^ 2 = x ^ 2 := by
  refine ⟨_, _, neon_defined pan x x, ?_⟩
  have := sin_sq_add_cos_sq (neonIndex pan * θ)
  nlinarith

/-- The gains of the vector code follow the law up to one step and a half of the table. -/
theorem neon_accuracy (pan : ℝ) : ∃ g : ℝ × ℝ, (∀ l r, neonPan pan l r = some (l * g.1, r * g.2)) ∧
    |g.1 - cos (angle pan)| ≤ 3 / 2 * θ ∧ |g.2 - sin (angle pan)| ≤ 3 / 2 * θ := by
  refine ⟨(cos (neonIndex pan * θ), sin (neonIndex pan * θ)), neon_defined pan, ?_⟩
  have t := θ_pos
  have key : |(neonIndex pan : ℝ) * θ - angle pan| ≤ 3 / 2 * θ := by
    have ea : angle pan = (limited pan + 1) * 2047 * θ := by unfold angle; rw [show π = 2 * (4094 * θ) by rw [θ_full]; ring]; ring
    rw [ea, ← sub_mul, abs_mul, abs_of_pos t]
    refine mul_le_mul_of_nonneg_right ?_ t.le
    have e : (pan + 1) * (1 / 2 * (panSize : ℝ)) + 1 / 2 = (pan + 1) * 2047.5 + 1 / 2 := by unfold panSize; norm_num
    unfold neonIndex
    rw [e]
    have e2 : panSize - 1 = 4094 := rfl
    rw [e2]
    unfold limited
    rcases le_total pan (-1) with h | h
    · rw [min_eq_left (by linarith : pan ≤ 1), max_eq_left h]
      have : ⌊(pan + 1) * 2047.5 + 1 / 2⌋₊ = 0 := by rw [Nat.floor_eq_zero]; linarith
      rw [this]; norm_num
    · have hn : (0 : ℝ) ≤ (pan + 1) * 2047.5 + 1 / 2 := by linarith
      have f1 := Nat.floor_le hn
      have f2 := Nat.lt_floor_add_one ((pan + 1) * 2047.5 + 1 / 2)
      rcases le_total pan 1 with h1 | h1
      · rw [min_eq_left h1, max_eq_right h, abs_le]
        rcases le_total ⌊(pan + 1) * 2047.5 + 1 / 2⌋₊ 4094 with hc | hc
        · rw [min_eq_left hc]
          constructor <;> linarith
        · rw [min_eq_right hc]
          have : (4094 : ℝ) ≤ ⌊(pan + 1) * 2047.5 + 1 / 2⌋₊ := by exact_mod_cast hc
          push_cast
          constructor <;> linarith
      · rw [min_eq_right h1, max_eq_right (by norm_num)]
        have : 4094 ≤ ⌊(pan + 1) * 2047.5 + 1 / 2⌋₊ := by
          apply Nat.le_floor; push_cast; linarith
        rw [min_eq_right this]; norm_num
  exact ⟨(abs_cos_sub_cos_le _ _).trans key, (abs_sin_sub_sin_le _ _).trans key⟩

theorem neonIndex_zero : neonIndex 0 = 2048 := by
  unfold neonIndex panSize
  have : ⌊((0 : ℝ) + 1) * (1 / 2 * ((4095 : ℕ) : ℝ)) + 1 / 2⌋₊ = 2048 := by
    rw [Nat.floor_eq_iff (by norm_num)]; norm_num
  rw [this]; rfl

/-- In the vector code a sound panned to the centre is louder on the right. -/
theorem neon_centre_violated : ∃ l r : ℝ, neonPan 0 1 1 = some (l, r) ∧ l < r := by
  refine ⟨_, _, neon_defined 0 1 1, ?_⟩
  rw [neonIndex_zero, one_mul, one_mul]
  have e : ((2048 : ℕ) : ℝ) * θ = π / 4 + θ := by
    rw [show π / 4 = 2047 * θ by unfold θ; ring]; push_cast; ring
  rw [e, ← cos_pi_div_two_sub]
  apply cos_lt_cos_of_nonneg_of_le_pi
  · have := θ_full; have := θ_pos; have := pi_pos; linarith
  · have := θ_full; have := θ_pos; have := pi_pos; linarith
  · have := θ_pos; linarith

/-- On ARM a steady sound with a steady setting does not stay steady: the frames left over after the groups of four are panned
otherwise than those before. -/
theorem arm_steady_violated : ∃ a b : ℝ × ℝ, a ≠ b ∧
    panArm 0 (fun _ => 0) [(1, 1), (1, 1), (1, 1), (1, 1), (1, 1)] = some [a, a, a, a, b] := by
  obtain ⟨l, r, h, hlt⟩ := neon_centre_violated
  refine ⟨(l, r), (√2 / 2, √2 / 2), fun e => ?_, ?_⟩
  · simp only [Prod.mk.injEq] at e
    linarith [e.1, e.2]
  · have m := pan_middle 1 1
    simp only [one_mul] at m
    simp [panArm, frames, h, m]

/-! ### Examples -/

/-- A sound swept from left to right by its modulation: silent on the other side at both ends. -/
example : ∃ g, panStageMono true ⟨0, 1, 0, some fun i => if i = 0 then -1 else 1, none, none⟩ [(1, 0), (1, 0)] =
    some [(g, 0), (0, g)] := by
  refine ⟨gainMono, ?_⟩
  have a := pan_ends (pan := -1) 1 1
  have b := pan_ends (pan := 1) 1 1
  simp [panStageMono, frames, envelope, gain1, a, b]

end Verif.Pan
