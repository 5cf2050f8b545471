import Verif.Common.LowerBound
import Mathlib.Data.Rat.Defs
import Mathlib.Algebra.Order.Ring.Rat
import Mathlib.Algebra.Order.Group.Unbundled.Abs

/-!
Model of `MidiState` (`src/sfizz/MidiState.{h,cpp}`).

Values are exact rationals (the code copies floats around; the only arithmetic is `note/127` and an absolute value).
Arrays indexed by controller or note number are functions; the code indexes `ccEvents[ccNumber]` with numbers below
`config::numCCs` (callers check this, see the CC bounds model). Clocks are `unsigned`, i.e. modulo 2^32.
The two random numbers drawn at each note are parameters.
-/
namespace Verif.Midi

open Verif.Common

/-- `MidiEvent` (SfzHelpers.h:60-63). -/
structure Event where
  delay : Int
  value : ℚ
  deriving DecidableEq, Repr

/-- `EventVector` (SfzHelpers.h:65). -/
abbrev EventVector := List Event

/-- `MidiEventDelayComparator::operator()(event, delay)` (SfzHelpers.h:68-71). -/
def before (delay : Int) (e : Event) : Bool := decide (e.delay < delay)

/-- `insertEventInVector` (MidiState.cpp:152-159). `none`: `lower_bound` left the vector. -/
def insertEvent? (events : EventVector) (delay : Int) (value : ℚ) : Option EventVector :=
  match lowerBound (before delay) events with
  | none => none
  | some i =>
    match events[i]? with
    | none => some (events.insertIdx i ⟨delay, value⟩)
    | some e =>
      if e.delay ≠ delay then some (events.insertIdx i ⟨delay, value⟩)
      else some (events.set i { e with value := value })

/-- The same, leaving the vector alone in the impossible case. -/
def insertEvent (events : EventVector) (delay : Int) (value : ℚ) : EventVector :=
  (insertEvent? events delay value).getD events

/-- `flushEventVector` (MidiState.cpp:90-95): `none` on an empty vector (undefined behaviour of `front`). -/
def flushVector? (events : EventVector) : Option EventVector :=
  match events.head?, events.getLast? with
  | some _, some b => some [⟨0, b.value⟩]
  | _, _ => none

/-- The same, total. -/
def flushVector (events : EventVector) : EventVector := (flushVector? events).getD []

/-- `events.back().value` (MidiState.cpp:170, 191, 200, 211); `none` on an empty vector. -/
def backValue (events : EventVector) : Option ℚ := events.getLast?.map (·.value)

/-- `getCCValueAt` (MidiState.cpp:214-223) on the vector of the controller. -/
def valueAt (events : EventVector) (delay : Int) : Option ℚ :=
  match lowerBound (before delay) events with
  | none => none
  | some i =>
    match events[i]? with
    | some e => some e.value
    | none => backValue events

/-- Members of `MidiState` (MidiState.h:230-300). -/
structure State where
  activeNotes : Nat := 0
  noteOnTimes : Nat → Nat := fun _ => 0
  noteOffTimes : Nat → Nat := fun _ => 0
  noteStates : Nat → Bool := fun _ => false
  lastNoteVelocities : Nat → ℚ := fun _ => 0
  velocityOverride : ℚ := 0
  lastNotePlayed : Option Nat := none
  cc : Nat → EventVector := fun _ => [⟨0, 0⟩]
  pitch : EventVector := [⟨0, 0⟩]
  channelAftertouch : EventVector := [⟨0, 0⟩]
  polyAftertouch : Nat → EventVector := fun _ => [⟨0, 0⟩]
  currentProgram : Int := 0
  alternate : ℚ := 0
  internalClock : Nat := 0

/-- Extended controllers (SfzHelpers.h:213-231). -/
def ccNoteOnVelocity : Nat := 131
def ccNoteOffVelocity : Nat := 132
def ccKeyboardNoteNumber : Nat := 133
def ccKeyboardNoteGate : Nat := 134
def ccUnipolarRandom : Nat := 135
def ccBipolarRandom : Nat := 136
def ccAlternate : Nat := 137
def ccKeydelta : Nat := 140
def ccAbsoluteKeydelta : Nat := 141

/-- Update of one entry of an array. -/
def upd {α : Type*} (f : Nat → α) (i : Nat) (v : α) : Nat → α := fun j => if j = i then v else f j

/-- `ccEvent` (MidiState.cpp:203-206). -/
def ccEvent (s : State) (delay : Int) (n : Nat) (v : ℚ) : State :=
  { s with cc := upd s.cc n (insertEvent (s.cc n) delay v) }

/-- `static_cast<unsigned>(delay)` added to the clock, in `unsigned`. -/
def clockPlus (clock : Nat) (delay : Int) : Nat := ((clock + delay) % 2 ^ 32).toNat

/-- `normalize7Bits` (SfzHelpers.h:126-130) of a note number, in exact arithmetic. -/
def normalize7Bits (n : Nat) : ℚ := (min n 127 : Nat) / 127

/-- The interval to the previous note (MidiState.cpp:23-26). -/
def keydelta (s : State) (n : Nat) : ℚ :=
  match s.lastNotePlayed with
  | some l => ((n : Int) - l : Int)
  | none => 0

/-- `noteOnEvent` (MidiState.cpp:17-47); `u` and `b` are the random draws. -/
def noteOn (s : State) (delay : Int) (note : Int) (velocity u b : ℚ) : State :=
  if 0 ≤ note ∧ note < 128 then
    let n := note.toNat
    let delta := keydelta s n
    let override := match s.lastNotePlayed with
      | some l => s.lastNoteVelocities l
      | none => s.velocityOverride
    let s := { s with velocityOverride := override }
    let s := { s with lastNoteVelocities := upd s.lastNoteVelocities n velocity,
                      noteOnTimes := upd s.noteOnTimes n (clockPlus s.internalClock delay),
                      lastNotePlayed := some n,
                      noteStates := upd s.noteStates n true }
    let s := ccEvent s delay ccNoteOnVelocity velocity
    let s := ccEvent s delay ccKeyboardNoteNumber (normalize7Bits n)
    let s := ccEvent s delay ccUnipolarRandom u
    let s := ccEvent s delay ccBipolarRandom b
    let s := ccEvent s delay ccKeyboardNoteGate (if s.activeNotes > 0 then 1 else 0)
    let s := ccEvent s delay ccKeydelta delta
    let s := ccEvent s delay ccAbsoluteKeydelta |delta|
    let s := { s with activeNotes := s.activeNotes + 1 }
    let s := ccEvent s delay ccAlternate s.alternate
    { s with alternate := if s.alternate = 0 then 1 else 0 }
  else s

/-- `noteOffEvent` (MidiState.cpp:49-66). -/
def noteOff (s : State) (delay : Int) (note : Int) (velocity u b : ℚ) : State :=
  if 0 ≤ note ∧ note < 128 then
    let n := note.toNat
    let s := { s with noteOffTimes := upd s.noteOffTimes n (clockPlus s.internalClock delay) }
    let s := ccEvent s delay ccNoteOffVelocity velocity
    let s := ccEvent s delay ccKeyboardNoteNumber (normalize7Bits n)
    let s := ccEvent s delay ccUnipolarRandom u
    let s := ccEvent s delay ccBipolarRandom b
    let s := { s with activeNotes := if s.activeNotes > 0 then s.activeNotes - 1 else s.activeNotes }
    { s with noteStates := upd s.noteStates n false }
  else s

/-- The loop of `allNotesOff` (MidiState.cpp:68-72) over the notes below `n`; `rnd` gives the draws. -/
def allNotesOffLoop (s : State) (delay : Int) (rnd : Nat → ℚ × ℚ) : Nat → State
  | 0 => s
  | n + 1 => let s := allNotesOffLoop s delay rnd n
             noteOff s delay (n : Int) 0 (rnd n).1 (rnd n).2

/-- `allNotesOff` (MidiState.cpp:68-72). -/
def allNotesOff (s : State) (delay : Int) (rnd : Nat → ℚ × ℚ) : State := allNotesOffLoop s delay rnd 128

/-- `flushEvents` (MidiState.cpp:88-105). -/
def flushEvents (s : State) : State :=
  { s with cc := fun i => flushVector (s.cc i), polyAftertouch := fun i => flushVector (s.polyAftertouch i),
           pitch := flushVector s.pitch, channelAftertouch := flushVector s.channelAftertouch }

/-- `advanceTime` (MidiState.cpp:82-86). -/
def advanceTime (s : State) (numSamples : Nat) : State :=
  flushEvents { s with internalClock := (s.internalClock + numSamples) % 2 ^ 32 }

/-- `setSampleRate` (MidiState.cpp:74-80), the rate itself being kept outside. -/
def setSampleRate (s : State) : State :=
  { s with internalClock := 0, noteOnTimes := fun _ => 0, noteOffTimes := fun _ => 0 }

/-- `pitchBendEvent` (MidiState.cpp:161-165). -/
def pitchBend (s : State) (delay : Int) (v : ℚ) : State := { s with pitch := insertEvent s.pitch delay v }

/-- `channelAftertouchEvent` (MidiState.cpp:173-177). -/
def chanAftertouch (s : State) (delay : Int) (v : ℚ) : State :=
  { s with channelAftertouch := insertEvent s.channelAftertouch delay v }

/-- `polyAftertouchEvent` (MidiState.cpp:179-186). -/
def polyAftertouch (s : State) (delay : Int) (note : Int) (v : ℚ) : State :=
  if note < 0 ∨ note ≥ 128 then s
  else
    let n := note.toNat
    { s with polyAftertouch := upd s.polyAftertouch n (insertEvent (s.polyAftertouch n) delay v) }

/-- `programChangeEvent` (MidiState.cpp:301-306). -/
def programChange (s : State) (p : Int) : State := { s with currentProgram := p }

/-- `setEvents` (MidiState.cpp:236-239). -/
def setEvents (s : State) (n : Nat) (v : ℚ) : State := { s with cc := upd s.cc n [⟨0, v⟩] }

/-- `resetNoteStates` (MidiState.cpp:225-251). -/
def resetNoteStates (s : State) : State :=
  let s := { s with lastNoteVelocities := fun _ => 0, velocityOverride := 0, activeNotes := 0, internalClock := 0,
                    lastNotePlayed := none, alternate := 0 }
  let s := setEvents s ccNoteOnVelocity 0
  let s := setEvents s ccKeyboardNoteNumber 0
  let s := setEvents s ccUnipolarRandom 0
  let s := setEvents s ccBipolarRandom 0
  let s := setEvents s ccKeyboardNoteGate 0
  let s := setEvents s ccAlternate 0
  { s with noteStates := fun _ => false, noteOnTimes := fun _ => 0, noteOffTimes := fun _ => 0 }

/-- `resetEventStates` (MidiState.cpp:253-268). -/
def resetEventStates (s : State) : State :=
  { s with cc := fun _ => [⟨0, 0⟩], polyAftertouch := fun _ => [⟨0, 0⟩], pitch := [⟨0, 0⟩],
           channelAftertouch := [⟨0, 0⟩] }

/-- Constructor (MidiState.cpp:11-15); the members before it hold their in-class initializers. -/
def init : State := resetNoteStates (resetEventStates {})

/-- The samples since the last note-on of a key (`timeInSamples` in `getNoteDuration`, MidiState.cpp:125-138). -/
def noteDurationSamples (s : State) (note : Nat) (delay : Int) : Nat :=
  ((s.internalClock + delay - s.noteOnTimes note) % 2 ^ 32).toNat

/-- `getCCValue` (MidiState.cpp:208-212). -/
def getCCValue (s : State) (n : Nat) : Option ℚ := backValue (s.cc n)

/-- `getCCValueAt` (MidiState.cpp:214-223). -/
def getCCValueAt (s : State) (n : Nat) (delay : Int) : Option ℚ := valueAt (s.cc n) delay

/-- Calls into `MidiState`. -/
inductive Op where
  | noteOn (delay note : Int) (velocity u b : ℚ)
  | noteOff (delay note : Int) (velocity u b : ℚ)
  | allNotesOff (delay : Int) (rnd : Nat → ℚ × ℚ)
  | cc (delay : Int) (n : Nat) (v : ℚ)
  | pitchBend (delay : Int) (v : ℚ)
  | chanAftertouch (delay : Int) (v : ℚ)
  | polyAftertouch (delay note : Int) (v : ℚ)
  | programChange (p : Int)
  | advance (numSamples : Nat)
  | flush
  | setSampleRate
  | resetNoteStates
  | resetEventStates

/-- One call. -/
def step (s : State) : Op → State
  | .noteOn d n v u b => noteOn s d n v u b
  | .noteOff d n v u b => noteOff s d n v u b
  | .allNotesOff d r => allNotesOff s d r
  | .cc d n v => ccEvent s d n v
  | .pitchBend d v => pitchBend s d v
  | .chanAftertouch d v => chanAftertouch s d v
  | .polyAftertouch d n v => polyAftertouch s d n v
  | .programChange p => programChange s p
  | .advance n => advanceTime s n
  | .flush => flushEvents s
  | .setSampleRate => setSampleRate s
  | .resetNoteStates => resetNoteStates s
  | .resetEventStates => resetEventStates s

/-- A history of calls. -/
def run (ops : List Op) : State := ops.foldl step init

end Verif.Midi
