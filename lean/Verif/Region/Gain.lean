import Verif.Region.Props
import Verif.Curve.Props
import Verif.Crossfade.Props
import Mathlib.Analysis.SpecialFunctions.Pow.Real

/-!
The loudness and the pitch a note starts with (property C76). Models `velocityCurve`, `noteGain`, `crossfadeGain`,
`basePitchVariation` and `baseVolumedB` (/repo/src/sfizz/RegionStateful.cpp:12-22, 75-162), with exact numbers where the
code computes in `float`: rationals for the velocity, reals once powers and roots are taken.
-/
namespace Verif.Region

/-! ### Model -/

/-- A velocity track with its modulations: the controller, the curve it goes through (`curveSet.getCurve`, see C33) and the
modifier. -/
structure Track where
  base : ℚ
  mods : List (Nat × Curve.Points × ℚ) := []

/-- The loops over `ampVeltrackCC` and `pitchVeltrackCC` (RegionStateful.cpp:128-134, 151-157). -/
def Track.value (t : Track) (cc : Nat → ℚ) : Option ℚ :=
  t.mods.foldlM (fun (x : ℚ) m => do return x + (← Curve.evalNormalized m.2.1 (cc m.1)) * m.2.2) t.base

/-- `velocityCurve` (RegionStateful.cpp:118-140). -/
def velocityCurve (curve : Option Curve.Points) (t : Track) (velocity : ℚ) (cc : Nat → ℚ) : Option ℚ := do
  let gain ← match curve with
    | some c => Curve.evalNormalized c velocity
    | none => some (velocity * velocity)
  let veltrack ← t.value cc
  let gain := |veltrack| * (1 - gain)
  return if veltrack < 0 then gain else 1 - gain

/-- `db2mag` (MathHelpers.h:105-109). -/
noncomputable def db2mag (x : ℝ) : ℝ := (10 : ℝ) ^ (x * 0.05)

/-- A crossfade range `lo`, `hi` of an opcode pair; none when the opcodes are absent: the defaults give the gain 1. -/
abbrev Fade := Option (Nat × Nat)

/-- The opcodes of a region that set the gain of a note. -/
structure Amp where
  keytrack : ℝ := 0
  keycenter : Int := 60
  keyIn : Fade := none
  keyOut : Fade := none
  velIn : Fade := none
  velOut : Fade := none
  keyCurve : Crossfade.Curve := .power
  velCurve : Crossfade.Curve := .power
  curve : Option Curve.Points := none
  veltrack : Track := { base := 1 }

/-- A fade of a note gain: the gain 1 without the opcodes. -/
noncomputable def faded (f : Nat → Nat → ℝ) : Fade → ℝ
  | none => 1
  | some (lo, hi) => f lo hi

/-- `noteGain` (RegionStateful.cpp:75-96). -/
noncomputable def noteGain (a : Amp) (note : Int) (velocity : ℚ) (cc : Nat → ℚ) : Option ℝ := do
  let v ← velocityCurve a.curve a.veltrack velocity cc
  return db2mag (a.keytrack * ((note - a.keycenter : Int) : ℝ))
    * faded (fun lo hi => Crossfade.keyIn lo hi note a.keyCurve) a.keyIn
    * faded (fun lo hi => Crossfade.keyOut lo hi note a.keyCurve) a.keyOut
    * (v : ℝ)
    * faded (fun lo hi => Crossfade.valueIn lo hi velocity a.velCurve) a.velIn
    * faded (fun lo hi => Crossfade.valueOut lo hi velocity a.velCurve) a.velOut

/-- `crossfadeGain` (RegionStateful.cpp:98-116): ranges per controller. -/
noncomputable def crossfadeGain (ins outs : List (Nat × Nat × Nat)) (cc : Nat → ℝ) (c : Crossfade.Curve) : ℝ :=
  outs.foldl (fun g r => g * Crossfade.valueOut r.2.1 r.2.2 (cc r.1) c)
    (ins.foldl (fun g r => g * Crossfade.valueIn r.2.1 r.2.2 (cc r.1) c) 1)

/-- The opcodes of a region that set the pitch of a note, in cents; `transpose` in semitones. -/
structure Pitch where
  keytrack : ℝ := 100
  keycenter : ℝ := 60
  tune : ℝ := 0
  transpose : ℝ := 0
  veltrack : Track := { base := 0 }
  random : ℝ := 0

/-- `centsFactor` (SfzHelpers.h:110-114). -/
noncomputable def centsFactor (cents : ℝ) : ℝ := (2 : ℝ) ^ (cents / 1200)

/-- `basePitchVariation` (RegionStateful.cpp:142-162); `draw`, between 0 and 1, is the place of the random number in its
interval (`draw_between`). -/
noncomputable def basePitch (p : Pitch) (note : ℝ) (velocity : ℚ) (cc : Nat → ℚ) (draw : ℝ) : Option ℝ := do
  let veltrack ← p.veltrack.value cc
  return centsFactor (p.keytrack * (note - p.keycenter) + p.tune + 100 * p.transpose + (velocity : ℝ) * (veltrack : ℝ)
    + draw * p.random)

/-- The opcodes of a region that set its volume in decibels. -/
structure Volume where
  region : ℚ := 0
  global : ℚ := 0
  master : ℚ := 0
  group : ℚ := 0
  random : ℚ := 0
  rtDecay : ℚ := 0
  release : Bool := false

/-- `baseVolumedB` (RegionStateful.cpp:12-22); `held` is the duration of the note in seconds. -/
def baseVolume (v : Volume) (held : ℚ) (g : Nat) : ℚ :=
  let x := v.region + realDraw 0 v.random g
  let x := x + v.global
  let x := x + v.master
  let x := x + v.group
  if v.release then x - v.rtDecay * held else x

/-! ### Specification -/

/-- A velocity response: what a region would play at each velocity with `amp_veltrack=100`. -/
def response (curve : Option Curve.Points) (velocity y : ℚ) : Prop :=
  match curve with
  | none => y = velocity ^ 2
  | some c => Curve.evalNormalized c velocity = some y

/-- The tracking amount in force: the opcode plus each controller through its curve times its modifier. -/
inductive Tracks (cc : Nat → ℚ) : List (Nat × Curve.Points × ℚ) → ℚ → ℚ → Prop
  | nil (x) : Tracks cc [] x x
  | cons (m ms x y z) : Curve.evalNormalized m.2.1 (cc m.1) = some y → Tracks cc ms (x + y * m.2.2) z → Tracks cc (m :: ms) x z

/-! ### Lemmas -/

theorem response_exists (curve : Option Curve.Points) (v : ℚ) : ∃ y, response curve v y := by
  cases curve with
  | none => exact ⟨v ^ 2, rfl⟩
  | some c =>
    obtain ⟨y, _, h, _⟩ := Curve.eval_defined c (v * 127)
    exact ⟨y, h⟩

theorem track_value (cc : Nat → ℚ) (ms : List (Nat × Curve.Points × ℚ)) : ∀ x, ∃ z, Tracks cc ms x z ∧
    ms.foldlM (fun (x : ℚ) m => do return x + (← Curve.evalNormalized m.2.1 (cc m.1)) * m.2.2) x = some z := by
  induction ms with
  | nil => intro x; exact ⟨x, .nil x, rfl⟩
  | cons m ms ih =>
    intro x
    obtain ⟨y, _, h, _⟩ := Curve.eval_defined m.2.1 (cc m.1 * 127)
    obtain ⟨z, hz, hf⟩ := ih (x + y * m.2.2)
    refine ⟨z, .cons m ms x y z h hz, ?_⟩
    have h' : Curve.evalNormalized m.2.1 (cc m.1) = some y := h
    simp only [List.foldlM_cons, h', Option.bind_eq_bind, Option.bind_some, Option.pure_def] at hf ⊢
    exact hf

theorem tracks_unique {cc : Nat → ℚ} {ms : List (Nat × Curve.Points × ℚ)} {x z z' : ℚ} (h : Tracks cc ms x z)
    (h' : Tracks cc ms x z') : z = z' := by
  induction h with
  | nil => cases h'; rfl
  | cons m ms x y z hy _ ih =>
    cases h' with
    | cons _ _ _ y' _ hy' h' =>
      rw [hy] at hy'
      cases Option.some.inj hy'
      exact ih h'

/-! ### Velocity -/

/-- C76, velocity: for every curve, tracking amount and controllers the gain of a velocity is defined; with tracking `t` not
negative it is `1 - t (1 - y)` and with `t` negative `-t (1 - y)`, `y` being the response of the curve (the square of the
velocity by default). -/
theorem velocity_gain (curve : Option Curve.Points) (t : Track) (v y x : ℚ) (cc : Nat → ℚ) (hy : response curve v y)
    (hx : Tracks cc t.mods t.base x) :
    velocityCurve curve t v cc = some (if x < 0 then -x * (1 - y) else 1 - x * (1 - y)) := by
  obtain ⟨x', hx', he⟩ := track_value cc t.mods t.base
  cases tracks_unique hx hx'
  have e : t.value cc = some x := he
  have fin : ∀ w : ℚ, w = y → (some (if x < 0 then |x| * (1 - w) else 1 - |x| * (1 - w)) : Option ℚ)
      = some (if x < 0 then -x * (1 - y) else 1 - x * (1 - y)) := by
    intro w hw
    subst hw
    split
    · rename_i h; rw [abs_of_neg h]
    · rename_i h; rw [abs_of_nonneg (not_lt.mp h)]
  cases curve with
  | none =>
    simp only [velocityCurve, Option.bind_eq_bind, Option.bind_some, e, Option.pure_def]
    exact fin _ (by simp only [response] at hy; rw [hy, sq])
  | some c =>
    have hy' : Curve.evalNormalized c v = some y := hy
    simp only [velocityCurve, hy', Option.bind_eq_bind, Option.bind_some, e, Option.pure_def]
    exact fin _ rfl

/-- C76, velocity: with tracking between -100 % and 100 % and a response between 0 and 1, the gain is between 0 and 1. Missing:
tracking beyond 100 % (`velocity_gain_violated`). -/
theorem velocity_gain_range_partial (curve : Option Curve.Points) (t : Track) (v y x g : ℚ) (cc : Nat → ℚ)
    (hy : response curve v y) (hx : Tracks cc t.mods t.base x) (h0 : 0 ≤ y) (h1 : y ≤ 1) (hx0 : -1 ≤ x) (hx1 : x ≤ 1)
    (hg : velocityCurve curve t v cc = some g) : 0 ≤ g ∧ g ≤ 1 := by
  rw [velocity_gain curve t v y x cc hy hx] at hg
  have hg := Option.some.inj hg
  rw [← hg]
  split
  · rename_i h; constructor <;> nlinarith
  · rename_i h; constructor <;> nlinarith

/-- C76, velocity: with tracking not negative, playing harder is never softer, and with negative tracking never louder, for
any response that does not fall. -/
theorem velocity_gain_monotone (curve : Option Curve.Points) (t : Track) (v w y z x g k : ℚ) (cc : Nat → ℚ)
    (hy : response curve v y) (hz : response curve w z) (hyz : y ≤ z) (hx : Tracks cc t.mods t.base x)
    (hg : velocityCurve curve t v cc = some g) (hk : velocityCurve curve t w cc = some k) :
    (0 ≤ x → g ≤ k) ∧ (x < 0 → k ≤ g) := by
  rw [velocity_gain curve t v y x cc hy hx] at hg
  rw [velocity_gain curve t w z x cc hz hx] at hk
  have hg := Option.some.inj hg
  have hk := Option.some.inj hk
  rw [← hg, ← hk]
  constructor
  · intro h
    rw [if_neg (not_lt.mpr h), if_neg (not_lt.mpr h)]
    nlinarith
  · intro h
    rw [if_pos h, if_pos h]
    nlinarith

/-- C76, velocity: the response without a curve rises with the velocity from 0 to 1. -/
theorem default_response (v w : ℚ) (h0 : 0 ≤ v) (h : v ≤ w) (h1 : w ≤ 1) :
    ∃ y z, response none v y ∧ response none w z ∧ 0 ≤ y ∧ y ≤ z ∧ z ≤ 1 :=
  ⟨v ^ 2, w ^ 2, rfl, rfl, by positivity, by nlinarith, by nlinarith⟩

/-- C76, velocity: the full velocity plays at full gain for any tracking not negative, when the curve ends at 1. -/
theorem full_velocity (curve : Option Curve.Points) (t : Track) (x : ℚ) (cc : Nat → ℚ) (hy : response curve 1 1)
    (hx : Tracks cc t.mods t.base x) (h : 0 ≤ x) : velocityCurve curve t 1 cc = some 1 := by
  rw [velocity_gain curve t 1 1 x cc hy hx, if_neg (not_lt.mpr h)]; norm_num

example : velocityCurve none { base := 1/2 } (1/2) (fun _ => 0) = some (5/8) := by decide +kernel
example : response none 1 1 := by simp [response]
example : Tracks (fun _ => 0) (Track.mods { base := 1/2 }) (Track.base { base := 1/2 }) (1/2) := .nil _

/-- `amp_veltrack=200`, which the parser accepts: soft notes have a negative gain, that is an inverted signal. -/
theorem velocity_gain_violated : ∃ (t : Track) (v g : ℚ), 0 ≤ v ∧ v ≤ 1 ∧ velocityCurve none t v (fun _ => 0) = some g ∧ g < 0 :=
  ⟨{ base := 2 }, 1/2, -1/2, by norm_num, by norm_num, by decide +kernel, by norm_num⟩

/-- Tracking is not continuous at 0: just below it the full velocity is silent instead of full. -/
theorem velocity_track_jump : velocityCurve none { base := 0 } 1 (fun _ => 0) = some 1 ∧
    ∀ e : ℚ, 0 < e → velocityCurve none { base := -e } 1 (fun _ => 0) = some 0 := by
  refine ⟨by decide +kernel, ?_⟩
  intro e he
  rw [velocity_gain none { base := -e } 1 1 (-e) _ (by simp [response]) (.nil _), if_pos (by linarith)]
  norm_num

/-! ### Note gain -/

theorem faded_mem (f : Nat → Nat → ℝ) (r : Fade) (h : ∀ lo hi, r = some (lo, hi) → 0 ≤ f lo hi ∧ f lo hi ≤ 1) :
    0 ≤ faded f r ∧ faded f r ≤ 1 := by
  cases r with
  | none => simp [faded]
  | some p => exact h p.1 p.2 rfl

theorem db2mag_pos (x : ℝ) : 0 < db2mag x := Real.rpow_pos_of_pos (by norm_num) _

/-- A proper range of the opcodes. -/
def Proper (top : Nat) (r : Fade) : Prop := ∀ lo hi, r = some (lo, hi) → lo < hi ∧ hi ≤ top

/-- C76, note gain: for proper fade ranges, a velocity of 7 bits and a velocity gain in [0, 1], the gain of a note is not
negative, and at most what key tracking alone gives. In particular it is at most 1 without key tracking. -/
theorem note_gain_range (a : Amp) (note : Int) (k : Nat) (hk : k ≤ 127) (cc : Nat → ℚ) (v : ℚ)
    (hv : velocityCurve a.curve a.veltrack ((k : ℚ) / 127) cc = some v) (h0 : 0 ≤ v) (h1 : v ≤ 1)
    (hki : Proper 127 a.keyIn) (hko : Proper 127 a.keyOut) (hvi : Proper 126 a.velIn) (hvo : Proper 126 a.velOut) :
    ∃ g, noteGain a note ((k : ℚ) / 127) cc = some g ∧ 0 ≤ g
      ∧ g ≤ db2mag (a.keytrack * ((note - a.keycenter : Int) : ℝ)) ∧ (a.keytrack = 0 → g ≤ 1) := by
  have hn : ((note : ℝ)) ∈ Crossfade.keys := ⟨note, rfl⟩
  have hs : (((k : ℚ) / 127 : ℚ) : ℝ) ∈ Crossfade.sevenBit := ⟨k, hk, by push_cast; rfl⟩
  have e1 := faded_mem (fun lo hi => Crossfade.keyIn lo hi note a.keyCurve) a.keyIn (fun lo hi h =>
    (Crossfade.key_fade_in lo hi (hki lo hi h).1 (by have := (hki lo hi h).2; omega) a.keyCurve).mem _ hn)
  have e2 := faded_mem (fun lo hi => Crossfade.keyOut lo hi note a.keyCurve) a.keyOut (fun lo hi h =>
    (Crossfade.key_fade_out lo hi (hko lo hi h).1 (by have := (hko lo hi h).2; omega) a.keyCurve).mem _ hn)
  have e3 := faded_mem (fun lo hi => Crossfade.valueIn lo hi (((k : ℚ) / 127 : ℚ) : ℝ) a.velCurve) a.velIn (fun lo hi h =>
    (Crossfade.value_fade_in_partial lo hi (hvi lo hi h).1 (hvi lo hi h).2 a.velCurve).mem _ hs)
  have e4 := faded_mem (fun lo hi => Crossfade.valueOut lo hi (((k : ℚ) / 127 : ℚ) : ℝ) a.velCurve) a.velOut (fun lo hi h =>
    (Crossfade.value_fade_out lo hi (hvo lo hi h).1 (hvo lo hi h).2 a.velCurve).mem _ trivial)
  have e5 : (0 : ℝ) ≤ v ∧ (v : ℝ) ≤ 1 := ⟨by exact_mod_cast h0, by exact_mod_cast h1⟩
  have hd := db2mag_pos (a.keytrack * ((note - a.keycenter : Int) : ℝ))
  refine ⟨_, by unfold noteGain; rw [hv]; rfl, ?_, ?_⟩
  · have := e1.1; have := e2.1; have := e3.1; have := e4.1; have := e5.1; positivity
  have hle : ∀ {x y d : ℝ}, 0 ≤ x → x ≤ d → 0 ≤ y ∧ y ≤ 1 → 0 ≤ x * y ∧ x * y ≤ d := by
    intro x y d hx hxd hy
    exact ⟨mul_nonneg hx hy.1, le_trans (mul_le_of_le_one_right hx hy.2) hxd⟩
  have p1 := hle hd.le (le_refl _) e1
  have p2 := hle p1.1 p1.2 e2
  have p3 := hle p2.1 p2.2 e5
  have p4 := hle p3.1 p3.2 e3
  have p5 := hle p4.1 p4.2 e4
  refine ⟨p5.2, ?_⟩
  intro hkt
  have p5 := p5.2
  rw [hkt, zero_mul] at p5 ⊢
  have : db2mag 0 = 1 := by simp [db2mag]
  rw [this] at p5 ⊢
  exact p5

example : Proper 126 (some (10, 20)) ∧ velocityCurve none { base := 1 } ((64 : Nat) / 127) (fun _ => 0) = some (4096 / 16129) := by
  refine ⟨?_, by decide +kernel⟩
  intro lo hi h; cases h; decide

/-- C76, note gain: without key fades, `d` keys higher multiply the gain by `keytrack * d` decibels, a factor of 10 for 20
decibels. -/
theorem key_tracking (a : Amp) (note d : Int) (v : ℚ) (cc : Nat → ℚ) (hi : a.keyIn = none) (ho : a.keyOut = none) :
    ∃ g g', noteGain a note v cc = some g ∧ noteGain a (note + d) v cc = some g' ∧ g' = g * (10 : ℝ) ^ (a.keytrack * d / 20) := by
  obtain ⟨y, hy⟩ := response_exists a.curve v
  obtain ⟨x, hx, _⟩ := track_value cc a.veltrack.mods a.veltrack.base
  have e := velocity_gain a.curve a.veltrack v y x cc hy hx
  refine ⟨_, _, by unfold noteGain; rw [e]; rfl, by unfold noteGain; rw [e]; rfl, ?_⟩
  have hm : db2mag (a.keytrack * ((note + d - a.keycenter : Int) : ℝ))
      = db2mag (a.keytrack * ((note - a.keycenter : Int) : ℝ)) * (10 : ℝ) ^ (a.keytrack * d / 20) := by
    unfold db2mag
    rw [← Real.rpow_add (by norm_num)]
    congr 1; push_cast; ring
  rw [hm, hi, ho]
  simp only [faded]
  ring

example : (10 : ℝ) ^ ((1 : ℝ) * (20 : Int) / 20) = 10 := by norm_num

theorem prod_mem (f : Nat × Nat × Nat → ℝ) (rs : List (Nat × Nat × Nat)) (h : ∀ r ∈ rs, 0 ≤ f r ∧ f r ≤ 1) :
    ∀ x : ℝ, 0 ≤ x ∧ x ≤ 1 → 0 ≤ rs.foldl (fun g r => g * f r) x ∧ rs.foldl (fun g r => g * f r) x ≤ 1 := by
  induction rs with
  | nil => intro x hx; exact hx
  | cons r rs ih =>
    intro x hx
    have hr := h r (by simp)
    exact ih (fun q hq => h q (by simp [hq])) _ ⟨mul_nonneg hx.1 hr.1, le_trans (mul_le_of_le_one_right hx.1 hr.2) hx.2⟩

theorem prod_zero (f : Nat × Nat × Nat → ℝ) (rs : List (Nat × Nat × Nat)) :
    ∀ x : ℝ, (x = 0 ∨ ∃ r ∈ rs, f r = 0) → rs.foldl (fun g r => g * f r) x = 0 := by
  induction rs with
  | nil => intro x h; simpa using h
  | cons r rs ih =>
    intro x h
    simp only [List.foldl_cons]
    apply ih
    rcases h with h | ⟨q, hq, h⟩
    · left; rw [h, zero_mul]
    · rcases List.mem_cons.mp hq with rfl | hq
      · left; rw [h, mul_zero]
      · right; exact ⟨q, hq, h⟩

theorem prod_one (f : Nat × Nat × Nat → ℝ) (rs : List (Nat × Nat × Nat)) (h : ∀ r ∈ rs, f r = 1) :
    ∀ x : ℝ, rs.foldl (fun g r => g * f r) x = x := by
  induction rs with
  | nil => intro x; rfl
  | cons r rs ih =>
    intro x
    simp only [List.foldl_cons]
    rw [ih (fun q hq => h q (by simp [hq])), h r (by simp), mul_one]

/-- C76, controller fades: for any number of proper ranges and controllers of 7 bits, the gain is in [0, 1]; it is 0 as soon as
one controller is below its fade-in or past its fade-out, and 1 when every controller is past its fade-in and before its
fade-out. -/
theorem crossfade_gain_range (ins outs : List (Nat × Nat × Nat)) (cc : Nat → ℝ) (c : Crossfade.Curve)
    (hi : ∀ r ∈ ins, r.2.1 < r.2.2 ∧ r.2.2 ≤ 126) (ho : ∀ r ∈ outs, r.2.1 < r.2.2 ∧ r.2.2 ≤ 126)
    (hc : ∀ n, cc n ∈ Crossfade.sevenBit) :
    (0 ≤ crossfadeGain ins outs cc c ∧ crossfadeGain ins outs cc c ≤ 1) ∧
    ((∃ r ∈ ins, cc r.1 < (r.2.1 : ℝ) / 127) → crossfadeGain ins outs cc c = 0) ∧
    ((∃ r ∈ outs, (r.2.2 : ℝ) / 127 ≤ cc r.1) → crossfadeGain ins outs cc c = 0) ∧
    ((∀ r ∈ ins, (r.2.2 : ℝ) / 127 ≤ cc r.1) → (∀ r ∈ outs, cc r.1 ≤ (r.2.1 : ℝ) / 127) → crossfadeGain ins outs cc c = 1) := by
  have fi := fun r hr => Crossfade.value_fade_in_partial r.2.1 r.2.2 (hi r hr).1 (hi r hr).2 c
  have fo := fun r hr => Crossfade.value_fade_out r.2.1 r.2.2 (ho r hr).1 (ho r hr).2 c
  unfold crossfadeGain
  refine ⟨?_, ?_, ?_, ?_⟩
  · exact prod_mem (fun r => Crossfade.valueOut r.2.1 r.2.2 (cc r.1) c) outs (fun r hr => (fo r hr).mem _ trivial) _
      (prod_mem (fun r => Crossfade.valueIn r.2.1 r.2.2 (cc r.1) c) ins (fun r hr => (fi r hr).mem _ (hc _)) 1 (by norm_num))
  · rintro ⟨r, hr, h⟩
    apply prod_zero
    left
    apply prod_zero
    right
    exact ⟨r, hr, (fi r hr).before _ (hc _) h⟩
  · rintro ⟨r, hr, h⟩
    apply prod_zero
    right
    exact ⟨r, hr, (fo r hr).after _ trivial h⟩
  · intro h1 h2
    rw [prod_one (fun r => Crossfade.valueOut r.2.1 r.2.2 (cc r.1) c) outs (fun r hr => (fo r hr).before _ trivial (h2 r hr)),
      prod_one (fun r => Crossfade.valueIn r.2.1 r.2.2 (cc r.1) c) ins (fun r hr => (fi r hr).after _ (hc _) (h1 r hr))]

/-! ### Pitch -/

theorem centsFactor_add (x y : ℝ) : centsFactor (x + y) = centsFactor x * centsFactor y := by
  unfold centsFactor
  rw [add_div, Real.rpow_add (by norm_num)]

/-- C76, pitch: for all opcodes, keys, velocities, controllers and draws, the speed ratio of a note is defined and positive; `d`
keys higher multiply it by `2 ^ (keytrack d / 1200)`, for the default tracking an octave per 12 keys. -/
theorem pitch_of_key (p : Pitch) (note : ℝ) (v : ℚ) (cc : Nat → ℚ) (draw d : ℝ) :
    ∃ r r', basePitch p note v cc draw = some r ∧ basePitch p (note + d) v cc draw = some r' ∧ 0 < r ∧
      r' = r * (2 : ℝ) ^ (p.keytrack * d / 1200) ∧ (p.keytrack = 100 → d = 12 → r' = 2 * r) := by
  obtain ⟨x, _, he⟩ := track_value cc p.veltrack.mods p.veltrack.base
  have e : p.veltrack.value cc = some x := he
  have hmul : centsFactor (p.keytrack * (note + d - p.keycenter) + p.tune + 100 * p.transpose + (v : ℝ) * (x : ℝ) + draw * p.random)
      = centsFactor (p.keytrack * (note - p.keycenter) + p.tune + 100 * p.transpose + (v : ℝ) * (x : ℝ) + draw * p.random)
        * (2 : ℝ) ^ (p.keytrack * d / 1200) := by
    rw [show p.keytrack * (note + d - p.keycenter) + p.tune + 100 * p.transpose + (v : ℝ) * (x : ℝ) + draw * p.random
      = (p.keytrack * (note - p.keycenter) + p.tune + 100 * p.transpose + (v : ℝ) * (x : ℝ) + draw * p.random) + p.keytrack * d by ring,
      centsFactor_add]; rfl
  refine ⟨_, _, by unfold basePitch; rw [e]; rfl, by unfold basePitch; rw [e]; rfl, Real.rpow_pos_of_pos (by norm_num) _, hmul, ?_⟩
  intro hk hd
  rw [hmul, hk, hd, show (100 * 12 / 1200 : ℝ) = 1 by norm_num, Real.rpow_one]; exact mul_comm _ _

/-- C76, pitch: at the key of the sample, without tuning, velocity tracking and random part, the sample plays at its own
pitch; a tuning of `c` cents and a transposition of `s` semitones multiply the speed by `2 ^ (c / 1200)` and `2 ^ (s / 12)`. -/
theorem pitch_of_tuning (p : Pitch) (v : ℚ) (cc : Nat → ℚ) (draw : ℝ) (hv : p.veltrack = { base := 0 }) (hr : p.random = 0) :
    basePitch p p.keycenter v cc draw = some ((2 : ℝ) ^ (p.tune / 1200) * (2 : ℝ) ^ (p.transpose / 12)) := by
  have e : p.veltrack.value cc = some 0 := by rw [hv]; rfl
  unfold basePitch
  rw [e]
  simp only [Option.bind_eq_bind, Option.bind_some, Option.pure_def, Option.some.injEq, hr]
  rw [show p.keytrack * (p.keycenter - p.keycenter) + p.tune + 100 * p.transpose + (v : ℝ) * ((0 : ℚ) : ℝ) + draw * 0
    = p.tune + 100 * p.transpose by push_cast; ring, centsFactor_add]
  unfold centsFactor
  congr 2
  ring

example : basePitch {} 60 (1/2) (fun _ => 0) 0 = some 1 := by
  have := pitch_of_tuning {} (1/2) (fun _ => 0) 0 rfl rfl
  simpa using this

/-- C76, pitch: a velocity tracking of `x` cents raises the full velocity `x` cents above the velocity 0, proportionally in
between. -/
theorem pitch_of_velocity (p : Pitch) (note : ℝ) (v x : ℚ) (cc : Nat → ℚ) (draw : ℝ) (hx : Tracks cc p.veltrack.mods p.veltrack.base x) :
    ∃ r r', basePitch p note 0 cc draw = some r ∧ basePitch p note v cc draw = some r' ∧ r' = r * (2 : ℝ) ^ ((v : ℝ) * x / 1200) := by
  obtain ⟨x', hx', he⟩ := track_value cc p.veltrack.mods p.veltrack.base
  cases tracks_unique hx hx'
  have e : p.veltrack.value cc = some x := he
  refine ⟨_, _, by unfold basePitch; rw [e]; rfl, by unfold basePitch; rw [e]; rfl, ?_⟩
  rw [show p.keytrack * (note - p.keycenter) + p.tune + 100 * p.transpose + (v : ℝ) * (x : ℝ) + draw * p.random
    = (p.keytrack * (note - p.keycenter) + p.tune + 100 * p.transpose + ((0 : ℚ) : ℝ) * (x : ℝ) + draw * p.random) + (v : ℝ) * x by
      push_cast; ring, centsFactor_add]
  rfl

/-! ### Volume -/

/-- C76, volume: the volumes of all headers add up in decibels, plus a part of `amp_random`; a release sample loses `rt_decay`
decibels per second the note was held, so it is never louder after a longer note, and other regions do not depend on it. -/
theorem volume_sum (v : Volume) (held held' : ℚ) (g : Nat) (hg : g < 2 ^ 32) :
    (∃ r, min 0 v.random ≤ r ∧ r ≤ max 0 v.random ∧
      baseVolume v held g = v.region + v.global + v.master + v.group + r - (if v.release then v.rtDecay * held else 0)) ∧
    (v.release = false → baseVolume v held g = baseVolume v held' g) ∧
    (0 ≤ v.rtDecay → held ≤ held' → baseVolume v held' g ≤ baseVolume v held g) := by
  have hg' : (g : ℚ) ≤ 2 ^ 32 - 1 := by
    have h2 : ((g + 1 : Nat) : ℚ) ≤ ((2 ^ 32 : Nat) : ℚ) := by exact_mod_cast hg
    push_cast at h2; linarith
  have hq : (0 : ℚ) ≤ g / (2 ^ 32 - 1) ∧ (g : ℚ) / (2 ^ 32 - 1) ≤ 1 :=
    ⟨div_nonneg (by positivity) (by norm_num), by rw [div_le_one (by norm_num)]; exact hg'⟩
  refine ⟨⟨v.random * (g / (2 ^ 32 - 1)), ?_, ?_, ?_⟩, ?_, ?_⟩
  · rcases le_total 0 v.random with h | h
    · rw [min_eq_left h]; exact mul_nonneg h hq.1
    · rw [min_eq_right h]; nlinarith [hq.1, hq.2]
  · rcases le_total 0 v.random with h | h
    · rw [max_eq_right h]; nlinarith [hq.1, hq.2]
    · rw [max_eq_left h]; exact mul_nonpos_of_nonpos_of_nonneg h hq.1
  · unfold baseVolume realDraw
    simp only
    split <;> ring
  · intro h; unfold baseVolume; simp [h]
  · intro h0 h
    unfold baseVolume
    simp only
    split
    · nlinarith
    · exact le_refl _

example : baseVolume { region := -6, group := 3, rtDecay := 2, release := true } 5 0 = -13 := by decide +kernel

end Verif.Region
