import Mathlib.Algebra.Order.Field.Rat
import Mathlib.Data.Rat.Floor

/-!
Model of `BeatClock` (`src/sfizz/BeatClock.{h,cpp}`) and of its use by `Synth` (Synth.cpp:1140-1141, 1234-1235, 1605-1652).

Floating-point numbers are exact rationals; `int` overflow of the bar number is not modelled. The running buffers are
functions of the frame; a write beyond their size gives `none`. `getRunning...` only call `fillBufferUpTo(frames)`, as
`endCycle` does. A tempo of 0 seconds per beat (infinite in the code) is 0 beats per second here.
-/
namespace Verif.BeatClock

/-- `TimeSignature` (BeatClock.h:18-39). -/
structure Sig where
  beatsPerBar : Int
  beatUnit : Int
  deriving DecidableEq

/-- `TimeSignature::valid` (BeatClock.h:26). -/
def Sig.valid (s : Sig) : Bool := decide (0 < s.beatsPerBar) && decide (0 < s.beatUnit)

/-- `BBT` (BeatClock.h:44-73). -/
structure BBT where
  bar : Int
  beat : ℚ
  deriving DecidableEq

/-- `static_cast<int>`: towards zero. -/
def trunc (x : ℚ) : Int := if 0 ≤ x then ⌊x⌋ else ⌈x⌉

/-- `toBeats` (BeatClock.cpp:34-37). -/
def BBT.toBeats (p : BBT) (s : Sig) : ℚ := p.beat + p.bar * s.beatsPerBar

/-- `fromBeats` (BeatClock.cpp:39-44). -/
def BBT.fromBeats (s : Sig) (beats : ℚ) : BBT :=
  let bar := trunc (beats / s.beatsPerBar)
  { bar := bar, beat := beats - bar * s.beatsPerBar }

/-- `toSignature` (BeatClock.cpp:27-32). -/
def BBT.toSignature (p : BBT) (old new : Sig) : BBT :=
  BBT.fromBeats new (p.toBeats old * new.beatUnit / old.beatUnit)

/-- The clock (BeatClock.h:176-204). -/
structure Clock where
  samplePeriod : ℚ
  frames : Nat := 0
  fill : Nat := 0
  beatsPerSecond : ℚ := 2
  sig : Sig := ⟨4, 4⟩
  playing : Bool := false
  hostPos : BBT := ⟨0, 0⟩
  mustApply : Bool := false
  clientPos : BBT := ⟨0, 0⟩
  bufferSize : Nat
  position : Nat → ℚ := fun _ => 0
  number : Nat → Int := fun _ => 0
  perBar : Nat → Int := fun _ => 0

/-- `getBeatsPerFrame` (BeatClock.h:154). -/
def Clock.beatsPerFrame (c : Clock) : ℚ := c.beatsPerSecond * c.samplePeriod

/-- `dequantize<int>(quantize(beats))` (BeatClock.cpp:54-65). -/
def beatNumber (beats : ℚ) : Int :=
  let d := beats * 65536
  let q := trunc (if 0 ≤ d then 1 / 2 + |d| else -(1 / 2 + |d|))
  Int.tdiv q 65536

/-- Writing one frame of the running buffers. -/
def Clock.write (c : Clock) (i : Nat) (beats : ℚ) : Clock :=
  { c with
    position := fun j => if j = i then beats else c.position j
    number := fun j => if j = i then beatNumber beats else c.number j }

/-- One turn of the loop when playing (BeatClock.cpp:200-207). -/
def Clock.tick (c : Clock) : Clock :=
  let moved := BBT.fromBeats c.sig (c.clientPos.toBeats c.sig + c.beatsPerFrame)
  let pos := if c.mustApply then c.hostPos else moved
  { (c.write c.fill (pos.toBeats c.sig)) with clientPos := pos, mustApply := false, fill := c.fill + 1 }

/-- The loop when playing (BeatClock.cpp:199-208), `n` turns. -/
def Clock.ticks (c : Clock) : Nat → Clock
  | 0 => c
  | n + 1 => (c.tick).ticks n

/-- The fills when stopped (BeatClock.cpp:187-197). -/
def Clock.hold (c : Clock) (delay : Nat) : Clock :=
  let pos := if c.mustApply then c.hostPos else c.clientPos
  let beats := pos.toBeats c.sig
  { c with
    clientPos := pos
    mustApply := false
    position := fun j => if c.fill ≤ j ∧ j < delay then beats else c.position j
    number := fun j => if c.fill ≤ j ∧ j < delay then beatNumber beats else c.number j
    fill := max c.fill delay }

/-- The signature buffer (BeatClock.cpp:179-181). -/
def Clock.fillPerBar (c : Clock) (delay : Nat) : Clock :=
  { c with perBar := fun j => if c.fill ≤ j ∧ j < delay then c.sig.beatsPerBar else c.perBar j }

/-- `fillBufferUpTo` (BeatClock.cpp:172-215); `none` is a write beyond the buffers. -/
def Clock.fillTo (c : Clock) (delay : Nat) : Option Clock :=
  if c.fill < delay ∧ c.bufferSize < delay then none
  else
    let c := c.fillPerBar delay
    some (if c.playing then c.ticks (delay - c.fill) else c.hold delay)

/-- `beginCycle` (BeatClock.cpp:78-83); `currentCycleStartPos_` is never read. -/
def Clock.beginCycle (c : Clock) (n : Nat) : Clock := { c with frames := n, fill := 0 }

/-- `endCycle` (BeatClock.cpp:85-88). -/
def Clock.endCycle (c : Clock) : Option Clock := c.fillTo c.frames

/-- The calls that bring events. -/
inductive Event where
  | tempo (secondsPerBeat : ℚ)
  | signature (s : Sig)
  | position (p : BBT)
  | playing (b : Bool)
  deriving DecidableEq

/-- What the calls do after `fillBufferUpTo`. -/
def Clock.apply (c : Clock) : Event → Clock
  | .tempo spb => { c with beatsPerSecond := 1 / spb }
  | .signature s =>
    if s.valid = false then c
    else if c.sig = s then c
    else { c with sig := s, hostPos := c.hostPos.toSignature c.sig s, clientPos := c.clientPos.toSignature c.sig s }
  | .position p => { c with hostPos := p, mustApply := true }
  | .playing b => { c with playing := b }

/-- `setTempo`, `setTimeSignature`, `setTimePosition`, `setPlaying` (BeatClock.cpp:102-144). -/
def Clock.event (c : Clock) (delay : Nat) (e : Event) : Option Clock := (c.fillTo delay).map (·.apply e)

/-- Successive events. -/
def Clock.events (c : Clock) : List (Nat × Event) → Option Clock
  | [] => some c
  | (d, e) :: rest => (c.event d e).bind (·.events rest)

/-- A cycle with the events received inside. -/
def Clock.cycle (c : Clock) (n : Nat) (evs : List (Nat × Event)) : Option Clock :=
  ((c.beginCycle n).events evs).bind (·.endCycle)

/-- A block as `Synth` runs it: the events come before `renderBlock`, which begins and ends the cycle. -/
def Clock.block (c : Clock) (evs : List (Nat × Event)) (n : Nat) : Option Clock :=
  (c.events evs).bind (fun c => (c.beginCycle n).endCycle)

end Verif.BeatClock
