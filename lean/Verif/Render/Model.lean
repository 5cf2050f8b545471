import Verif.Envelope.Model
import Verif.Playback.Model
import Verif.Smoother.Model

/-!
Model of the rendering of one voice block after block, /repo/src/sfizz/Voice.cpp: the start of the voice (`startVoice`, lines
408-542), `renderBlock` (776-832) with its counters (`initialDelay_`, `triggerDelay_`, `age_`), the gain of each frame
(`resetCrossfades` 834-852, `applyCrossfades` 854-891, `amplitudeEnvelope` 894-921, `ampStageMono` 923-938, `ampStageStereo`
940-954), the pitch of each frame (`pitchEnvelope` 1980-2000) and where `fillWithData` (1067-1357, module `Playback`) gets its
speeds from.

It puts together the models of the MIDI state, of the rendering of events to envelopes, of the smoothers and of sample playback.
Values are exact rationals where the code computes in `float`; `db2mag`, `centsFactor` and the crossfade gains are arbitrary
functions. Modelled is a region that plays a sample and goes on playing (no release, no switching off). The buffers taken from the
pool are there (module `BufferPool`); otherwise the stages return early. Panning, filters and the power follower come after and
are not in here.
-/
namespace Verif.Render
open Verif.Midi (EventVector)

/-- One entry of `crossfadeCCInRange` or `crossfadeCCOutRange`: the controller and the gain it gives,
`x ↦ crossfadeIn(mod.data, x, xfCurve)` or `x ↦ crossfadeOut(mod.data, x, xfCurve)`. -/
structure Fade where
  cc : Nat
  gain : ℚ → ℚ

/-- What does not change while the voice plays: of the region, of the engine, and what `startVoice` computes (Voice.cpp:497-505,
519-521). -/
structure Const where
  fadesIn : List Fade
  fadesOut : List Fade
  bendUp : ℚ
  bendDown : ℚ
  bendStep : ℚ
  bendSmooth : Nat
  sampleRate : ℚ
  db2mag : ℚ → ℚ
  centsFactor : ℚ → ℚ
  baseGain : ℚ
  baseVolume : ℚ
  baseRatio : ℚ
  sample : Playback.Setup

/-- `Region::getBendInCents` (Region.cpp:1848-1851). -/
def Const.bendInCents (c : Const) (bend : ℚ) : ℚ := if 0 < bend then bend * c.bendUp else -bend * c.bendDown

/-- The members of the voice that rendering changes. -/
structure Voice where
  initialDelay : Nat
  triggerDelay : Option Int
  age : Int
  play : Playback.State
  bend : Smoother.State
  fade : Smoother.State
  gain : Smoother.State

/-- The frames of the three smoothers: `setSmoothing` with `config::gainSmoothing` 0 and `config::xfadeSmoothing` 5 (Voice.cpp:742-743,
Config.h:40-41) and with `bend_smooth` (Voice.cpp:521). -/
def Const.gainFrames (c : Const) : Int := Smoother.smoothFrames 0 c.sampleRate
def Const.fadeFrames (c : Const) : Int := Smoother.smoothFrames 5 c.sampleRate
def Const.bendFrames (c : Const) : Int := Smoother.smoothFrames c.bendSmooth c.sampleRate

/-- `MidiState::getCCValue` (MidiState.cpp:208-212); the vectors are never empty (`Midi.midi_events_sorted`). -/
def ccValue (m : Midi.State) (cc : Nat) : ℚ := (Midi.getCCValue m cc).getD 0

/-- `MidiState::getPitchBend` (MidiState.cpp:167-171). -/
def bendValue (m : Midi.State) : ℚ := (Midi.backValue m.pitch).getD 0

/-- The value `resetCrossfades` computes (Voice.cpp:836-849). -/
def fadeValue (c : Const) (m : Midi.State) : ℚ :=
  let x := c.fadesIn.foldl (fun x f => x * f.gain (ccValue m f.cc)) 1
  c.fadesOut.foldl (fun x f => x * f.gain (ccValue m f.cc)) x

/-- `startVoice` (Voice.cpp:434-435, 488, 507-508, 521-522) and `reset` (1708-1712) for a trigger at frame `delay` of the block;
`extra` is the delay of the region in frames. -/
def start (c : Const) (m : Midi.State) (delay extra : Nat) : Voice where
  initialDelay := delay + extra
  triggerDelay := some delay
  age := 0
  play := c.sample.init
  bend := Smoother.reset (c.bendInCents (bendValue m))
  fade := Smoother.reset (fadeValue c m)
  gain := Smoother.reset 0

/-- The content of a buffer of `n` frames after an envelope was rendered to it: `none` when the rendering fails, or leaves a frame
as it was. -/
def frames (n : Nat) (log : Option Envelope.Log) : Option (List ℚ) :=
  log.bind fun l => (List.range n).mapM fun i => (l i).getLast?

/-- One pass of the loops of `applyCrossfades` (Voice.cpp:871-878 and 880-887). -/
def applyFade (m : Midi.State) (n : Nat) (acc : Option (List ℚ × Bool)) (f : Fade) : Option (List ℚ × Bool) :=
  acc.bind fun a => (frames n (Envelope.linearEnvelope f.gain (m.cc f.cc) n)).map fun t =>
    (List.zipWith (· * ·) t a.1, a.2 && (m.cc f.cc).length == 1)

/-- `xfadeSpan` and `canShortcut` before smoothing (Voice.cpp:868-887). -/
def fadeInput (c : Const) (m : Midi.State) (n : Nat) : Option (List ℚ × Bool) :=
  c.fadesOut.foldl (applyFade m n) (c.fadesIn.foldl (applyFade m n) (some (List.replicate n 1, true)))

/-- What a block is given: its size, the buffers of the modulation matrix (amplitude EG, and amplitude, volume and pitch
when something modulates them; frame by frame of the block), and for playback the loop points, whether the voice is released and
how many frames of the sample are loaded. -/
structure Block where
  size : Nat
  eg : Nat → ℚ
  amplitude : Option (Nat → ℚ)
  volume : Option (Nat → ℚ)
  pitch : Option (Nat → ℚ)
  loopStart : Int
  loopEnd : Int
  released : Bool
  loaded : Int

/-- A modulation that is there multiplies the frames, transformed by `g` (Voice.cpp:907-910 and 914-917). -/
def modulate (g : ℚ → ℚ) (mod : Option (Nat → ℚ)) (xs : List ℚ) : List ℚ :=
  match mod with
  | none => xs
  | some f => xs.mapIdx fun i x => x * g (f i)

/-- `amplitudeEnvelope` (Voice.cpp:894-921). -/
def amplitudeEnvelope (c : Const) (s : Smoother.State) (b : Block) : List ℚ × Smoother.State :=
  let xs := (List.range b.size).map b.eg
  let xs := xs.map (c.baseGain * ·)
  let xs := modulate id b.amplitude xs
  let xs := xs.map (c.db2mag c.baseVolume * ·)
  let xs := modulate c.db2mag b.volume xs
  Smoother.process c.gainFrames s xs false

/-- `pitchEnvelope` (Voice.cpp:1980-2000) for a buffer of `n` frames. The modulation is read from its first frame on. -/
def pitchEnvelope (c : Const) (m : Midi.State) (s : Smoother.State) (mod : Option (Nat → ℚ)) (n : Nat) :
    Option (List ℚ × Smoother.State) :=
  (frames n (if 1 < c.bendStep then Envelope.quantEnvelope c.bendInCents m.pitch n c.bendStep
      else Envelope.linearEnvelope c.bendInCents m.pitch n)).map fun xs =>
    let p := Smoother.process c.bendFrames s xs false
    (match mod with
      | none => p.1
      | some f => p.1.mapIdx fun i x => x + f i, p.2)

/-- What a block gives: for every frame the place in the sample that is read (`none`: silence), the pitch in cents for the frames
that sound, the gain of the crossfade and the gain the frame is multiplied by. -/
structure Out where
  source : List (Option (Int × ℚ))
  cents : List ℚ
  fade : List ℚ
  level : List ℚ

/-- `age_` after a block of `n` frames (Voice.cpp:819-824). -/
def ageAfter (age : Int) (trigger : Option Int) (n : Nat) : Int :=
  match trigger with
  | none => age + n
  | some d => min (age + n - d) 0

/-- `renderBlock` (Voice.cpp:776-832). -/
def render (c : Const) (m : Midi.State) (v : Voice) (b : Block) : Option (Out × Voice) :=
  let delay := min v.initialDelay b.size
  let rest := b.size - delay
  (if rest = 0 ∨ b.loaded = 0 then some ([], v.bend) else pitchEnvelope c m v.bend b.pitch rest).bind fun pitch =>
  (fadeInput c m b.size).map fun x =>
    let played := Playback.fillBlock c.sample v.play
      { jumps := pitch.1.map fun p => c.baseRatio * c.centsFactor p, loopStart := b.loopStart, loopEnd := b.loopEnd,
        released := b.released, fresh := decide (v.age = 0), frames := b.loaded }
    let amp := amplitudeEnvelope c v.gain b
    let fade := Smoother.process c.fadeFrames v.fade x.1 x.2
    ({ source := List.replicate delay none ++ (if b.loaded = 0 then List.replicate rest none else played.frames.map some),
       cents := pitch.1, fade := fade.1, level := List.zipWith (· * ·) fade.1 amp.1 },
     { initialDelay := v.initialDelay - delay, triggerDelay := none, age := ageAfter v.age v.triggerDelay b.size,
       play := played.st, bend := pitch.2, fade := fade.2, gain := amp.2 })

/-- Block after block: the messages that arrive for the block, its rendering, then `MidiState::advanceTime` at its end
(Synth.cpp:1243). -/
def session (c : Const) (m : Midi.State) (v : Voice) : List (List Midi.Op × Block) → Option (List Out)
  | [] => some []
  | (ops, b) :: bs =>
    (render c (ops.foldl Midi.step m) v b).bind fun r =>
      (session c (Midi.advanceTime (ops.foldl Midi.step m) b.size) r.2 bs).map (r.1 :: ·)

end Verif.Render
