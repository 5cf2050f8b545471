import Verif.Midi.Model
import Verif.Range.Model

/-!
Model of `Layer` (`src/sfizz/Layer.{h,cpp}`) and of the settings of a `Region` it reads.

Floats are exact rationals, only compared and copied here. Key, controller and program numbers are integers
(`uint8_t` in the source; the API passes numbers 0..127 for keys). `sequenceCounter_` is an unbounded number
(`int` in the source: 2^31 note-ons would overflow it). The controller maps are functions
(`Verif.CCMap` shows that the sorted vectors behave so).
-/
namespace Verif.Layer

open Verif.Range

/-- `Trigger` (Defaults.h / Region.h `trigger`). -/
inductive Trigger where
  | attack | release | releaseKey | first | legato
  deriving DecidableEq, Repr

/-- The settings of a region read by the layer and by the voice management (Region.h:240-345). -/
structure Region where
  keyRange : R Int := ⟨0, 127⟩
  velocityRange : R ℚ := ⟨0, 1⟩
  randRange : R ℚ := ⟨0, 1⟩
  bendRange : R ℚ := ⟨-1, 1⟩
  aftertouchRange : R ℚ := ⟨0, 1⟩
  polyAftertouchRange : R ℚ := ⟨0, 1⟩
  programRange : R Int := ⟨0, 127⟩
  bpmRange : R ℚ := ⟨0, 500⟩
  ccConditions : Nat → Option (R ℚ) := fun _ => none
  ccTriggers : Nat → Option (R ℚ) := fun _ => none
  trigger : Trigger := .attack
  triggerOnNote : Bool := true
  triggerOnCC : Bool := false
  sequenceLength : Nat := 1
  sequencePosition : Nat := 1
  usesKeySwitches : Bool := false
  usesPreviousKeySwitches : Bool := false
  usesSequenceSwitches : Bool := false
  lastKeyswitch : Option Int := none
  lastKeyswitchRange : Option (R Int) := none
  upKeyswitch : Option Int := none
  downKeyswitch : Option Int := none
  previousKeyswitch : Option Int := none
  sustainCC : Nat := 64
  sostenutoCC : Nat := 66
  checkSustain : Bool := true
  checkSostenuto : Bool := true
  sustainThreshold : ℚ := 1 / 127
  sostenutoThreshold : ℚ := 1 / 127
  velocityPrevious : Bool := false
  /-- capacity of the delayed release lists (Synth.cpp:230-235) -/
  releaseCapacity : Nat := 16
  -- voice management
  group : Nat := 0
  offBy : Option Nat := none
  polyphony : Nat := 256
  notePolyphony : Option Nat := none
  selfMask : Bool := true
  oneShot : Bool := false
  disabled : Bool := false
  rtDead : Bool := false
  oscillator : Bool := false
  useTimerRange : Bool := false
  timerRange : R ℚ := ⟨0, 0⟩
  pitchKeycenter : Int := 60
  /-- the chain `region->parent`, its parent, and so on (RegionSet.h) -/
  ancestors : List Nat := []

/-- Members of `Layer` (Layer.h:108-136). -/
structure State where
  sustainPressed : Bool := false
  sostenutoPressed : Bool := false
  delayedSustain : List (Int × ℚ) := []
  delayedSostenuto : List (Int × ℚ) := []
  keySwitched : Bool := true
  previousKeySwitched : Bool := true
  sequenceSwitched : Bool := true
  pitchSwitched : Bool := true
  programSwitched : Bool := true
  bpmSwitched : Bool := true
  aftertouchSwitched : Bool := true
  ccSwitched : Nat → Bool := fun _ => true
  sequenceCounter : Nat := 0

/-- `config::numCCs` (Config.h). -/
def numCCs : Nat := 512

/-- `initializeActivations` (Layer.cpp:31-43). -/
def initializeActivations (r : Region) (s : State) : State :=
  { s with keySwitched := !r.usesKeySwitches, previousKeySwitched := !r.usesPreviousKeySwitches,
           sequenceSwitched := !r.usesSequenceSwitches, pitchSwitched := true, bpmSwitched := true,
           aftertouchSwitched := true, programSwitched := true, ccSwitched := fun _ => true }

/-- `ccSwitched_.all()`. -/
def ccAll (s : State) : Bool := (List.range numCCs).all s.ccSwitched

/-- `isSwitchedOn` (Layer.cpp:45-49). -/
def isSwitchedOn (s : State) : Bool :=
  s.keySwitched && s.previousKeySwitched && s.sequenceSwitched && s.pitchSwitched
    && s.programSwitched && s.bpmSwitched && s.aftertouchSwitched && ccAll s

/-- `midiState_.getPolyAftertouch` (MidiState.cpp:194-201): the vectors are never empty (`midi_events_sorted`). -/
def polyAftertouch (m : Midi.State) (note : Int) : ℚ :=
  if note < 0 ∨ note ≥ 128 then 0 else (Midi.backValue (m.polyAftertouch note.toNat)).getD 0

/-- `midiState_.getCCValue` (MidiState.cpp:208-212). -/
def ccValue (m : Midi.State) (n : Nat) : ℚ := (Midi.backValue (m.cc n)).getD 0

/-- `midiState_.getNoteVelocity` (MidiState.cpp:140-145). -/
def noteVelocity (m : Midi.State) (note : Int) : ℚ := m.lastNoteVelocities note.toNat

/-- The random condition (Layer.cpp:77, 104, 169-170); `randRange` is an unchecked range. -/
def randOk (r : Region) (v : ℚ) : Bool :=
  contains r.randRange v || (decide (v ≥ 1) && isValid false r.randRange && decide (r.randRange.stop ≥ 1))

/-- The sequence step (Layer.cpp:60-61, 184-185). -/
def sequenceStep (r : Region) (s : State) : State :=
  { s with sequenceSwitched := decide (((s.sequenceCounter % r.sequenceLength : Nat) : Int) = (r.sequencePosition : Int) - 1),
           sequenceCounter := s.sequenceCounter + 1 }

/-- `registerNoteOn` (Layer.cpp:51-83). -/
def registerNoteOn (r : Region) (m : Midi.State) (s : State) (note : Int) (velocity rand : ℚ) : State × Bool :=
  let keyOk := containsWithEnd r.keyRange note
  let s := if keyOk then sequenceStep r s else s
  if !isSwitchedOn s || !containsWithEnd r.polyAftertouchRange (polyAftertouch m note) then (s, false)
  else if !r.triggerOnNote then (s, false)
  else
    let velocity := if r.velocityPrevious then m.velocityOverride else velocity
    let velOk := containsWithEnd r.velocityRange velocity
    let first := decide (r.trigger = .first) && decide (m.activeNotes = 1)
    let attack := decide (r.trigger = .attack)
    let legato := decide (r.trigger = .legato) && decide (m.activeNotes > 1)
    (s, keyOk && velOk && randOk r rand && (attack || first || legato))

/-- `delaySustainRelease` (Layer.cpp:215-221). -/
def delaySustainRelease (r : Region) (s : State) (note : Int) (velocity : ℚ) : State :=
  if s.delayedSustain.length = r.releaseCapacity then s
  else { s with delayedSustain := s.delayedSustain ++ [(note, velocity)] }

/-- `delaySostenutoRelease` (Layer.cpp:223-229). -/
def delaySostenutoRelease (r : Region) (s : State) (note : Int) (velocity : ℚ) : State :=
  if s.delayedSostenuto.length = r.releaseCapacity then s
  else { s with delayedSostenuto := s.delayedSostenuto ++ [(note, velocity)] }

/-- `removeFromSostenutoReleases` (Layer.cpp:231-236): the first entry of the note is replaced by the last one
(`swapAndPopFirst`, see `Verif.SwapAndPop`; the order of the list is not observable, here it is kept). -/
def removeFromSostenutoReleases (s : State) (note : Int) : State :=
  { s with delayedSostenuto := s.delayedSostenuto.eraseP (fun p => p.1 == note) }

/-- `isNoteSostenutoed` (Layer.cpp:256-261). -/
def isNoteSostenutoed (s : State) (note : Int) : Bool := s.delayedSostenuto.any (fun p => p.1 == note)

/-- `storeSostenutoNotes` (Layer.cpp:238-246): keys of the range, in increasing order. -/
def storeSostenutoNotes (r : Region) (m : Midi.State) (s : State) : State :=
  ((List.range 128).filter (fun (k : Nat) => containsWithEnd r.keyRange (k : Int) && m.noteStates k)).foldl
    (fun s (k : Nat) => delaySostenutoRelease r s (k : Int) (noteVelocity m k)) s

/-- `registerNoteOff` (Layer.cpp:85-132). -/
def registerNoteOff (r : Region) (m : Midi.State) (s : State) (note : Int) (velocity rand : ℚ) : State × Bool :=
  if !isSwitchedOn s || !containsWithEnd r.polyAftertouchRange (polyAftertouch m note) then (s, false)
  else if !r.triggerOnNote then (s, false)
  else if !(containsWithEnd r.velocityRange velocity && containsWithEnd r.keyRange note && randOk r rand) then (s, false)
  else if r.trigger = .releaseKey then (s, true)
  else if r.trigger = .release then
    let sostenutoed := isNoteSostenutoed s note
    let s :=
      if sostenutoed && !s.sostenutoPressed then
        let s := removeFromSostenutoReleases s note
        if s.sustainPressed then delaySustainRelease r s note (noteVelocity m note) else s
      else s
    if !s.sostenutoPressed || !sostenutoed then
      if s.sustainPressed then (delaySustainRelease r s note (noteVelocity m note), false) else (s, true)
    else (s, false)
  else (s, false)

/-- The sustain part of `updateCCState` (Layer.cpp:138-139). -/
def updateSustain (r : Region) (s : State) (cc : Nat) (v : ℚ) : State :=
  if cc = r.sustainCC then { s with sustainPressed := r.checkSustain && decide (v ≥ r.sustainThreshold) } else s

/-- The sostenuto part of `updateCCState` (Layer.cpp:141-150). -/
def updateSostenuto (r : Region) (m : Midi.State) (s : State) (cc : Nat) (v : ℚ) : State :=
  if cc = r.sostenutoCC then
    let newState := r.checkSostenuto && decide (v ≥ r.sostenutoThreshold)
    let s := if !s.sostenutoPressed && newState then storeSostenutoNotes r m s else s
    let s := if !newState && s.sostenutoPressed then { s with delayedSostenuto := [] } else s
    { s with sostenutoPressed := newState }
  else s

/-- The condition part of `updateCCState` (Layer.cpp:152-157). -/
def updateCondition (r : Region) (s : State) (cc : Nat) (v : ℚ) : State :=
  match r.ccConditions cc with
  | none => s
  | some c => { s with ccSwitched := Midi.upd s.ccSwitched cc (containsWithEnd c v) }

/-- `updateCCState` (Layer.cpp:134-158). -/
def updateCCState (r : Region) (m : Midi.State) (s : State) (cc : Nat) (v : ℚ) : State :=
  updateCondition r (updateSostenuto r m (updateSustain r s cc v) cc v) cc v

/-- `ExtendedCCs::polyphonicAftertouch` (SfzHelpers.h:216). -/
def ccPolyAftertouch : Nat := 130

/-- `registerCC` (Layer.cpp:160-192). -/
def registerCC (r : Region) (m : Midi.State) (s : State) (cc : Nat) (v rand : ℚ) (extendedArg : Int) : State × Bool :=
  let s := updateCCState r m s cc v
  if !r.triggerOnCC then (s, false)
  else if !randOk r rand then (s, false)
  else
    match r.ccTriggers cc with
    | none => (s, false)
    | some range =>
      if !containsWithEnd range v then (s, false)
      else if cc = ccPolyAftertouch ∧ extendedArg ≥ 0 ∧ containsWithEnd r.keyRange extendedArg = false then (s, false)
      else
        let s := sequenceStep r s
        (s, isSwitchedOn s && (decide (cc = ccPolyAftertouch) || decide (v ≠ ccValue m cc)))

/-- `registerPitchWheel` (Layer.cpp:194-197). -/
def registerPitchWheel (r : Region) (s : State) (v : ℚ) : State :=
  { s with pitchSwitched := containsWithEnd r.bendRange v }

/-- `registerProgramChange` (Layer.cpp:199-202). -/
def registerProgramChange (r : Region) (s : State) (p : Int) : State :=
  { s with programSwitched := containsWithEnd r.programRange p }

/-- `registerAftertouch` (Layer.cpp:204-207). -/
def registerAftertouch (r : Region) (s : State) (v : ℚ) : State :=
  { s with aftertouchSwitched := containsWithEnd r.aftertouchRange v }

/-- `registerTempo` (Layer.cpp:209-213); the argument is never zero (BeatClock.h: 120 beats per minute by default). -/
def registerTempo (r : Region) (s : State) (secondsPerQuarter : ℚ) : State :=
  { s with bpmSwitched := containsWithEnd r.bpmRange (60 / secondsPerQuarter) }

end Verif.Layer
