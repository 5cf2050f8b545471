import Verif.Wavetable.Model
import Mathlib.Analysis.SpecialFunctions.Pow.Real

/-!
# Voices that play oscillators

Models `Voice::Impl::fillWithGenerator` (`Voice.cpp:1498-1642`) for wavetable oscillators, their start (`Voice.cpp:446-477`,
`setupOscillatorUnison` 1909-1954, `Region::getPhase`, Region.cpp:1791-1801) and how the start phase is set
(Region.cpp:149-154, SynthMessaging.cpp:461).

Simplifications. Numbers are real, with the rounding function of `Wavetable` in the oscillators. The pitch in cents of every
frame (`pitchEnvelope`, module `Render`) and the modulations of the detuning and of the depth are parameters, frame by frame.
The buffers of the pool are there (C63). The noise generators are not modelled.
-/
namespace Verif.Generator

open Verif.Wavetable

/-- `centsFactor` (SfzHelpers.h:110-114). -/
noncomputable def centsFactor (c : ℝ) : ℝ := (2 : ℝ) ^ (c / 1200)

/-- The opcodes `oscillator_mode`, `oscillator_multi`, `oscillator_detune` and `oscillator_mod_depth` (Region.h:258-261). -/
structure Settings where
  mode : ℤ
  multi : ℕ
  detune : ℚ
  depth : ℝ

/-! ### The start phase -/

/-- `wrapPhase` (MathHelpers.h:321-327). -/
noncomputable def wrapPhase (x : ℝ) : ℝ :=
  let w := x - trunc x
  if w < 0 then w + 1 else w

/-- The opcode `oscillator_phase` (Region.cpp:149-154). -/
noncomputable def readPhase (x : ℝ) : ℝ := if 0 ≤ x then wrapPhase x else -1

/-- The message `/region&/oscillator_phase` (SynthMessaging.cpp:461, SynthMessagingHelper.hpp:256): the bounds are permissive,
so the number is kept as it is. -/
def setPhase (x : ℝ) : ℝ := x

/-- `Region::getPhase` (Region.cpp:1791-1801); `u` is a draw from 0 to 1. -/
noncomputable def startPhase (setting u : ℝ) : ℝ := if 0 ≤ setting then setting else 0.0001 + u * (0.9999 - 0.0001)

/-! ### Start -/

/-- What the voice keeps about its oscillators: `waveUnisonSize_`, `waveDetuneRatio_`, `waveLeftGain_`, `waveRightGain_` and the
phases of the oscillators. -/
structure Oscillators where
  size : ℕ
  ratio : ℕ → ℝ
  left : ℕ → ℚ
  right : ℕ → ℚ
  phase : ℕ → ℝ

/-- `setupOscillatorUnison` (Voice.cpp:1909-1954). -/
noncomputable def setup (s : Settings) (o : Oscillators) : Oscillators :=
  if s.multi < 3 ∨ 0 < s.mode then
    { o with
        size := 1
        ratio := Function.update (Function.update o.ratio 0 1) 1 (centsFactor s.detune)
        left := Function.update o.left 0 1
        right := Function.update o.right 0 1 }
  else
    { o with
        size := s.multi
        ratio := fun i => if i < s.multi then centsFactor (Wavetable.detune s.detune i) else o.ratio i
        left := (gains s.multi o.left o.right).1
        right := (gains s.multi o.left o.right).2 }

/-- `startVoice` for oscillators (Voice.cpp:470-478): all of them start at the same phase. The gains
that `setupOscillatorUnison` gives to the modulator (1924-1925) are never read. `old` is what an earlier note left. -/
noncomputable def start (s : Settings) (phase : ℝ) (old : Oscillators) : Oscillators :=
  setup s { old with phase := fun _ => phase }

/-! ### A block -/

/-- What a frame is given: its pitch in cents and the modulations of `oscillator_detune` and `oscillator_mod_depth`, where something
modulates them. -/
structure Frame where
  cents : ℝ
  detune : Option ℝ
  depth : Option ℝ

/-- The frequency of a frame (Voice.cpp:1530-1534); `base` is the product of `pitchRatio_` and the frequency of the key centre. -/
noncomputable def Frame.frequency (base : ℝ) (f : Frame) : ℝ := base * centsFactor f.cents

/-- The ratio of a frame for one oscillator (Voice.cpp:1569-1575, 1607-1613). -/
noncomputable def Frame.ratio (ratio : ℝ) (f : Frame) : ℝ :=
  match f.detune with
  | none => ratio
  | some c => ratio * centsFactor c

/-- The gain of the modulator in a frame (Voice.cpp:1617-1623). -/
noncomputable def Frame.gain (depth : ℝ) (f : Frame) : ℝ :=
  (if depth ≠ 1 then depth else 1) * f.depth.getD 1

/-- What does not change: rounding, the waveform, the quality, the length of a frame in seconds and the base frequency. -/
structure Const where
  r : ℝ → ℝ
  wave : Multi
  quality : ℤ
  interval : ℝ
  base : ℝ

/-- `processModulated` of oscillator `u` with a list of frequencies and ratios; its phase is kept. -/
noncomputable def oscillator (c : Const) (o : Oscillators) (u : ℕ) (l : List (ℝ × ℝ)) : Option (List ℝ × Oscillators) :=
  (processModulated c.r c.wave c.quality c.interval (o.phase u) l).map fun p =>
    (p.1, { o with phase := Function.update o.phase u p.2 })

/-- One pass of the loop over the oscillators of a unison (Voice.cpp:1566-1586): `tempLeftSpan` and `tempRightSpan` are written
by the first one, added to by the others. -/
noncomputable def unisonPass (c : Const) (b : List Frame) (acc : Option ((List ℝ × List ℝ) × Oscillators)) (u : ℕ) :
    Option ((List ℝ × List ℝ) × Oscillators) :=
  acc.bind fun a =>
    (oscillator c a.2 u (b.map fun f => (f.frequency c.base, f.ratio (a.2.ratio u)))).map fun x =>
      (if u = 0 then (x.1.map ((a.2.left u : ℝ) * ·), x.1.map ((a.2.right u : ℝ) * ·))
        else (List.zipWith (fun y z => z + (a.2.left u : ℝ) * y) x.1 a.1.1,
          List.zipWith (fun y z => z + (a.2.right u : ℝ) * y) x.1 a.1.2), x.2)

/-- `fillWithGenerator` (Voice.cpp:1524-1642): left and right channel. `junk` is what the temporary buffers held. -/
noncomputable def fill (c : Const) (s : Settings) (junk : List ℝ) (o : Oscillators) (b : List Frame) :
    Option ((List ℝ × List ℝ) × Oscillators) :=
  if s.mode ≤ 0 ∧ s.multi < 2 then
    (oscillator c o 0 (b.map fun f => (f.frequency c.base, 1))).map fun x => ((x.1, x.1), x.2)
  else if s.mode ≤ 0 ∧ 3 ≤ s.multi then
    (List.range o.size).foldl (unisonPass c b) (some ((junk, junk), o))
  else
    (oscillator c o 1 (b.map fun f => (f.frequency c.base, f.ratio (o.ratio 1)))).bind fun m =>
      let modulator := List.zipWith (fun x f => x * f.gain s.depth) m.1 b
      if s.mode = 1 ∨ s.mode = 2 then
        (oscillator c m.2 0 (List.zipWith (fun y f => (f.frequency c.base + y * f.frequency c.base, 1)) modulator b)).map
          fun x => ((x.1, x.1), x.2)
      else
        (oscillator c m.2 0 (b.map fun f => (f.frequency c.base, 1))).map fun x =>
          ((List.zipWith (· * ·) modulator x.1, List.zipWith (· * ·) modulator x.1), x.2)

/-- The blocks of a note, each with what the temporary buffers held. -/
noncomputable def play (c : Const) (s : Settings) : Oscillators → List (List ℝ × List Frame) → Option (List ℝ × List ℝ)
  | _, [] => some ([], [])
  | o, (junk, b) :: bs =>
    (fill c s junk o b).bind fun x => (play c s x.2 bs).map fun y => (x.1.1 ++ y.1, x.1.2 ++ y.2)

end Verif.Generator
