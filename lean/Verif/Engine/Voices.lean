import Verif.Layer.Model
import Verif.SwapAndPop.Model
import Mathlib.Data.List.Sort

/-!
Model of the life of voices: `Voice.cpp` (states, notes, pedals, choking), `VoiceManager.cpp`, `VoiceStealing.cpp`,
`PolyphonyGroup.cpp`, `RegionSet.cpp` and `SisterVoiceRing.h`.

Voices are numbered by their position in `list_`; arrays are functions. Not modelled: the sound of a voice. What it
decides is left open and supplied by `Env` or by the operations of `Verif.Engine.Model`: whether a sample file could be
obtained, the delay of the amplitude envelope, and when a voice has finished sounding.
Dereferencing the region of a voice that has none is the outcome `none`.
-/
namespace Verif.Engine

open Verif.Layer (Region)

/-- `TriggerEventType` (TriggerEvent.h:11). -/
inductive EvType where
  | noteOn | noteOff | cc
  deriving DecidableEq, Repr

/-- `TriggerEvent` (TriggerEvent.h:17-22). -/
structure Trig where
  type : EvType := .noteOn
  number : Int := 0
  value : ℚ := 0
  deriving DecidableEq, Repr

/-- `Voice::State` (Voice.h). -/
inductive VState where
  | idle | playing | cleanMeUp
  deriving DecidableEq, Repr

/-- `SostenutoState` (Voice.cpp:230). -/
inductive Sost where
  | up | sustaining | previouslyDown
  deriving DecidableEq, Repr

/-- Members of `Voice::Impl` (Voice.cpp:219-275). `layer` stands for both `layer_` and `region_`; `released` says that
the amplitude envelope was asked to release, `egDelay` is its remaining delay. -/
structure Voice where
  state : VState := .idle
  layer : Option Nat := none
  noteIsOff : Bool := false
  offed : Bool := false
  sustaining : Bool := false
  sostenuto : Sost := .up
  trig : Trig := {}
  triggerDelay : Option Int := none
  age : Int := 0
  startTimestamp : Nat := 0
  egDelay : Int := 0
  released : Bool := false
  deriving DecidableEq, Repr

/-- `PolyphonyGroup` (PolyphonyGroup.h:107-109). -/
structure Group where
  limit : Nat := 256
  voices : List Nat := []
  recent : Nat := 0

/-- `VoiceManager` members (VoiceManager.h:153-159), the region sets' voices (RegionSet.h) and the ring links. -/
structure VM where
  /-- `list_.size()` -/
  size : Nat
  required : Nat
  voices : Nat → Voice := fun _ => {}
  active : List Nat := []
  groups : Nat → Group := fun _ => {}
  setLimits : Nat → Nat := fun _ => 256
  setVoices : Nat → List Nat := fun _ => []
  next : Nat → Nat := id
  prev : Nat → Nat := id

/-- How a stealer picks among playing voices. -/
inductive Stealer where
  | first | oldest | envelopeAndAge
  deriving DecidableEq

/-- What the voice life depends on and which the model leaves open. -/
structure Env where
  regions : Nat → Region
  stealer : Stealer
  /-- which of the voices `stealEnvelopeAndAge` returns (VoiceStealing.cpp:90-129): always one of its argument; the
  powers it compares are not modelled -/
  envelopePick : VM → List Nat → Nat
  /-- `filePool.getFilePromise(region.sampleId)` succeeds -/
  promise : Nat → Bool
  /-- delay of the amplitude envelope when a layer starts -/
  startEgDelay : Nat → Int → Int
  sustainCancelsRelease : Bool
  sampleRate : ℚ

variable (e : Env)

/-- `updateVoice`: write one entry of the voice array. -/
def setVoice (s : VM) (i : Nat) (v : Voice) : VM := { s with voices := Midi.upd s.voices i v }

/-- `swapAndPopFirst(list, [voice](v) { return v == voice; })`. -/
def removeFirst (l : List Nat) (i : Nat) : List Nat :=
  ((SwapAndPop.swapAndPopFirst (fun x => x == i) l).map (·.1)).getD l

/-- `RegionSet::removeVoiceFromHierarchy` (RegionSet.cpp:84-91). -/
def removeFromSets (f : Nat → List Nat) (sets : List Nat) (i : Nat) : Nat → List Nat :=
  sets.foldl (fun f k => Midi.upd f k (removeFirst (f k) i)) f

/-- `find(voices, voice) == end ? push_back` (RegionSet.cpp:64-68, PolyphonyGroup.cpp:16-17). -/
def addOnce (l : List Nat) (i : Nat) : List Nat := if i ∈ l then l else l ++ [i]

/-- `RegionSet::registerVoiceInHierarchy` (RegionSet.cpp:75-82). -/
def addToSets (f : Nat → List Nat) (sets : List Nat) (i : Nat) : Nat → List Nat :=
  sets.foldl (fun f k => Midi.upd f k (addOnce (f k) i)) f

/-- `onVoiceStateChanging(id, State::idle)` (VoiceManager.cpp:16-23). -/
def onIdle (s : VM) (i l : Nat) : VM :=
  let r := e.regions l
  let g := s.groups r.group
  { s with setVoices := removeFromSets s.setVoices r.ancestors i,
           active := removeFirst s.active i,
           groups := Midi.upd s.groups r.group { g with voices := removeFirst g.voices i } }

/-- `onVoiceStateChanging(id, State::playing)` (VoiceManager.cpp:24-32). -/
def onPlaying (s : VM) (i l : Nat) : VM :=
  let r := e.regions l
  let g := s.groups r.group
  { s with active := s.active ++ [i],
           setVoices := addToSets s.setVoices r.ancestors i,
           groups := Midi.upd s.groups r.group
             { g with voices := addOnce g.voices i, recent := (s.voices i).startTimestamp } }

/-- `Impl::switchState` (Voice.cpp:1971-1978) with the listener (VoiceManager.cpp:14-33). The listener reads the region of
the voice: `none` without one. -/
def switchState (s : VM) (i : Nat) (st : VState) : Option VM :=
  if st = (s.voices i).state then some s
  else
    let s := setVoice s i { s.voices i with state := st }
    match st with
    | .cleanMeUp => some s
    | .idle =>
      match (s.voices i).layer with
      | none => none
      | some l => some (onIdle e s i l)
    | .playing =>
      match (s.voices i).layer with
      | none => none
      | some l => some (onPlaying e s i l)

/-- `removeVoiceFromRing` (Voice.cpp:1776-1782). -/
def removeFromRing (s : VM) (i : Nat) : VM :=
  let p := s.prev i
  let nx := s.next i
  let s := { s with next := Midi.upd s.next p nx }
  let s := { s with prev := Midi.upd s.prev nx p }
  { s with prev := Midi.upd s.prev i i, next := Midi.upd s.next i i }

/-- `Voice::reset` (Voice.cpp:1700-1726). `sustainState_` and the trigger keep their values. -/
def reset (s : VM) (i : Nat) : Option VM := do
  let s ← switchState e s i .idle
  let v := s.voices i
  let s := setVoice s i { v with layer := none, age := 0, noteIsOff := false, sostenuto := .up, offed := false }
  return removeFromRing s i

/-- `SisterVoiceRingBuilder::addVoiceToRing` (SisterVoiceRing.h:138-150); returns the new head. -/
def addToRing (s : VM) (head : Option Nat) (i : Nat) : VM × Option Nat :=
  let next := head.getD i
  let previous := s.prev next
  let s := { s with next := Midi.upd s.next i next }
  let s := { s with prev := Midi.upd s.prev i previous }
  let s := { s with prev := Midi.upd s.prev next i }
  let s := { s with next := Midi.upd s.next previous i }
  (s, some next)

/-- `Voice::isFree` (Voice.cpp:569-573). -/
def isFree (s : VM) (i : Nat) : Bool := decide ((s.voices i).state = .idle)

/-- `Voice::offedOrFree` (Voice.cpp:1793-1800). -/
def offedOrFree (s : VM) (i : Nat) : Bool := decide ((s.voices i).state ≠ .playing) || (s.voices i).offed

/-- `Impl::release` (Voice.cpp:581-597). Release of the envelopes is recorded in `released`. -/
def release (s : VM) (i : Nat) (delay : Int) : VM :=
  let v := s.voices i
  if v.state ≠ .playing then s
  else setVoice s i { v with state := if v.egDelay > delay then .cleanMeUp else v.state, released := true }

/-- `Impl::off` (Voice.cpp:605-621): reads the region. The envelope times it sets are not modelled. -/
def off (s : VM) (i : Nat) (delay : Int) : Option VM :=
  match (s.voices i).layer with
  | none => none
  | some _ => some (release (setVoice s i { s.voices i with offed := true }) i delay)

/-- The pedal conditions of `registerNoteOff` and `registerCC` (Voice.cpp:641-645, 682-686). -/
def pedalsUp (r : Region) (v : Voice) : Bool :=
  (!r.checkSustain || !v.sustaining) && (!r.checkSostenuto || decide (v.sostenuto ≠ .sustaining))

/-- `Voice::registerNoteOff` (Voice.cpp:623-650). -/
def voiceNoteOff (s : VM) (i : Nat) (delay note : Int) : VM :=
  match (s.voices i).layer with
  | none => s
  | some l =>
    if (s.voices i).state ≠ .playing then s
    else if (s.voices i).trig.number = note ∧ (s.voices i).trig.type = .noteOn then
      let s := setVoice s i { s.voices i with noteIsOff := true }
      if (e.regions l).oneShot then s
      else if pedalsUp (e.regions l) (s.voices i) then release s i delay else s
    else s

/-- The sostenuto update of `registerCC` (Voice.cpp:666-672). -/
def voiceSostenuto (r : Region) (v : Voice) (cc : Nat) (value : ℚ) : Voice :=
  if r.checkSustain ∧ cc = r.sostenutoCC then
    if value < r.sostenutoThreshold then { v with sostenuto := .up }
    else if v.sostenuto = .up then { v with sostenuto := .sustaining } else v
  else v

/-- The sustain update of `registerCC` (Voice.cpp:674-680). -/
def voiceSustain (r : Region) (v : Voice) (cc : Nat) (value : ℚ) : Voice :=
  if r.checkSostenuto ∧ cc = r.sustainCC then
    if value < r.sustainThreshold then { v with sustaining := false } else { v with sustaining := true }
  else v

/-- `Impl::released` (Voice.cpp:1666-1676). -/
def isReleased (v : Voice) : Bool := v.layer.isNone || decide (v.state ≠ .playing) || v.released

/-- `Voice::registerCC` (Voice.cpp:652-698). -/
def voiceCC (s : VM) (i : Nat) (delay : Int) (cc : Nat) (value : ℚ) : VM :=
  match (s.voices i).layer with
  | none => s
  | some l =>
    let r := e.regions l
    if (s.voices i).state ≠ .playing then s
    else if cc ≠ r.sustainCC ∧ cc ≠ r.sostenutoCC then s
    else
      let s := setVoice s i (voiceSustain r (voiceSostenuto r (s.voices i) cc value) cc value)
      let s := if (s.voices i).noteIsOff && !r.oneShot && pedalsUp r (s.voices i) then release s i delay else s
      let v := s.voices i
      if r.checkSustain && v.sustaining && e.sustainCancelsRelease && isReleased v
          && decide (r.trigger ≠ .release) && decide (r.trigger ≠ .releaseKey) then
        setVoice s i { v with released := false }
      else s

/-- `Voice::checkOffGroup` (Voice.cpp:1678-1698); `ccAll l` is `layer->ccSwitched_.all()`. -/
def checkOffGroup (s : VM) (ccAll : Nat → Bool) (i : Nat) (other : Region) (delay number : Int) : Option (VM × Bool) :=
  match (s.voices i).layer with
  | none => some (s, false)
  | some l =>
    let r := e.regions l
    let v := s.voices i
    if v.offed then some (s, false)
    else if (v.trig.type = .noteOn ∨ v.trig.type = .cc) ∧ r.offBy = some other.group ∧
        (r.group ≠ other.group ∨ ccAll l = false ∨ number ≠ v.trig.number) then
      (off s i delay).map (fun s => (s, true))
    else some (s, false)

/-- The layer and the trigger of a voice that starts (Voice.cpp:415-424). -/
def armed (m : Midi.State) (l : Nat) (t : Trig) (v : Voice) : Voice :=
  let r := e.regions l
  let number := if t.type = .cc then r.pitchKeycenter else t.number
  let value := if r.velocityPrevious then m.velocityOverride else t.value
  { v with layer := some l, trig := { type := t.type, number := number, value := value } }

/-- Its delay and start time (Voice.cpp:434-443). -/
def timed (m : Midi.State) (l : Nat) (delay : Int) (v : Voice) : Voice :=
  { v with triggerDelay := some delay, startTimestamp := Midi.clockPlus m.internalClock (e.startEgDelay l delay) }

/-- Its envelope and pedals (Voice.cpp:528-541). -/
def ready (m : Midi.State) (l : Nat) (delay : Int) (v : Voice) : Voice :=
  let r := e.regions l
  let v := { v with egDelay := e.startEgDelay l delay, released := false }
  let v := if r.checkSustain then
             { v with sustaining := decide (Layer.ccValue m r.sustainCC ≥ r.sustainThreshold) } else v
  if r.checkSostenuto then
    { v with sostenuto := if Layer.ccValue m r.sostenutoCC ≥ r.sostenutoThreshold then .previouslyDown else .up }
  else v

/-- `Voice::startVoice` (Voice.cpp:408-543): the parts that matter for the life of the voice. -/
def voiceStart (s : VM) (m : Midi.State) (i l : Nat) (delay : Int) (t : Trig) : Option (VM × Bool) := do
  let r := e.regions l
  let s := setVoice s i (armed e m l t (s.voices i))
  if r.disabled then
    let s ← switchState e s i .cleanMeUp
    return (s, false)
  else
    let delay := if delay < 0 then 0 else delay
    let s := setVoice s i (timed e m l delay (s.voices i))
    let s ← switchState e s i .playing
    if !r.oscillator && !e.promise l then
      let s ← switchState e s i .cleanMeUp
      return (s, false)
    else return (setVoice s i (ready e m l delay (s.voices i)), true)

/-- The loop of `applyToRing` (SisterVoiceRing.h:26-35): the voices of the ring after `start`, from `v` on; `none` if
`fuel` steps do not close the ring. -/
def ringFrom (s : VM) (start : Nat) : Nat → Nat → Option (List Nat)
  | 0, _ => none
  | fuel + 1, v => if v = start then some [] else (ringFrom s start fuel (s.next v)).map (v :: ·)

/-- The voices visited by `applyToRing`, in order. The links do not change during `off`. -/
def ringOf (s : VM) (i : Nat) : Option (List Nat) := (ringFrom s i (s.size + 1) (s.next i)).map (· ++ [i])

/-- `SisterVoiceRing::offAllSisters` (SisterVoiceRing.h:69-75). -/
def offAllSisters (s : VM) (candidate : Option Nat) (delay : Int) : Option VM :=
  match candidate with
  | none => some s
  | some i => do
    let ring ← ringOf s i
    ring.foldlM (fun s j => off s j delay) s

/-- First voice of the list with the greatest age (VoiceStealing.cpp:68, 75: strict comparison). -/
def oldest (s : VM) : List Nat → Option Nat
  | [] => none
  | i :: l =>
    some (l.foldl (fun c v => if (s.voices v).age > (s.voices c).age then v else c) i)

/-- `genericPolyphonyCheck` and the stealers (VoiceStealing.cpp:18-76, 131-156) on the voices counted as playing:
outer `none` when `stealEnvelopeAndAge` takes the front of an empty list. -/
def pick (s : VM) (playing : List Nat) (limit : Nat) : Option (Option Nat) :=
  if playing.length ≥ limit then
    match e.stealer with
    | .first => some playing.head?
    | .oldest => some (oldest s playing)
    | .envelopeAndAge =>
      if playing = [] then none else some playing[e.envelopePick s playing % playing.length]?
  else some none

/-- `checkPolyphony` of a stealer and `offAllSisters` on a list of voices (VoiceManager.cpp:196-200, 257-281). -/
def limitVoices (s : VM) (candidates : List Nat) (limit : Nat) (delay : Int) : Option VM := do
  let c ← pick e s (candidates.filter (fun i => !offedOrFree s i)) limit
  offAllSisters s c delay

/-- Sorting used by `checkNotePolyphony` (VoiceManager.cpp:221-233): by value when masking, else by age, oldest first.
`std::sort` leaves the order of ties open; here it is stable. -/
def noteOrder (s : VM) (mask : Bool) (l : List Nat) : List Nat :=
  if mask then l.insertionSort (fun a b => (s.voices a).trig.value ≤ (s.voices b).trig.value)
  else l.insertionSort (fun a b => (s.voices a).age ≥ (s.voices b).age)

/-- The loop of `checkNotePolyphony` (VoiceManager.cpp:235-244). -/
def noteLoop (s : VM) (delay : Int) (target : Nat) : List Nat → Nat → Option VM
  | [], _ => some s
  | i :: l, counter =>
    if counter > target then do
      let s ← if offedOrFree s i then some s else offAllSisters s (some i) delay
      noteLoop s delay target l (counter - 1)
    else some s

/-- The voices counted by `checkNotePolyphony` (VoiceManager.cpp:210-215). -/
def noteVoices (s : VM) (r : Region) (number : Int) : List Nat :=
  s.active.filter (fun i => !offedOrFree s i
    && (match (s.voices i).layer with | some l => decide ((e.regions l).group = r.group) | none => false)
    && decide ((s.voices i).trig.number = number))

/-- `checkNotePolyphony` (VoiceManager.cpp:202-245); `unsigned targetPolyphony { *notePolyphony - 1 }`. -/
def checkNotePolyphony (s : VM) (r : Region) (delay : Int) (t : Trig) : Option VM :=
  match r.notePolyphony with
  | none => some s
  | some np =>
    let counted := noteVoices e s r t.number
    let temp := counted.filter (fun i => !r.selfMask || decide ((s.voices i).trig.value ≤ t.value))
    let target := if np = 0 then 2 ^ 32 - 1 else np - 1
    noteLoop s delay target (noteOrder s r.selfMask temp) counted.length

/-- `checkRegionPolyphony` (VoiceManager.cpp:196-200, VoiceStealing.cpp:48-54, 63-69, 131-143). -/
def checkRegionPolyphony (s : VM) (l : Nat) (delay : Int) : Option VM :=
  limitVoices e s (s.active.filter (fun i => decide ((s.voices i).layer = some l))) (e.regions l).polyphony delay

/-- `checkGroupPolyphony` (VoiceManager.cpp:257-263). -/
def checkGroupPolyphony (s : VM) (l : Nat) (delay : Int) : Option VM :=
  let g := s.groups (e.regions l).group
  limitVoices e s g.voices g.limit delay

/-- `checkSetPolyphony` (VoiceManager.cpp:265-274). -/
def checkSetPolyphony (s : VM) (l : Nat) (delay : Int) : Option VM :=
  (e.regions l).ancestors.foldlM (fun s k => limitVoices e s (s.setVoices k) (s.setLimits k) delay) s

/-- `checkEnginePolyphony` (VoiceManager.cpp:276-281). -/
def checkEnginePolyphony (s : VM) (delay : Int) : Option VM := limitVoices e s s.active s.required delay

/-- `checkPolyphony` (VoiceManager.cpp:147-154). -/
def checkPolyphony (s : VM) (l : Nat) (delay : Int) (t : Trig) : Option VM := do
  let s ← checkNotePolyphony e s (e.regions l) delay t
  let s ← checkRegionPolyphony e s l delay
  let s ← checkGroupPolyphony e s l delay
  let s ← checkSetPolyphony e s l delay
  checkEnginePolyphony e s delay

/-- The loop of `findFreeVoice` (VoiceManager.cpp:158-169) over the voices in order, with the best one so far. -/
def findLoop (s : VM) : List Nat → Option Nat → Option Nat
  | [], best => best
  | i :: l, best =>
    if isFree s i then some i
    else if offedOrFree s i then
      match best with
      | none => findLoop s l (some i)
      | some b => findLoop s l (if (s.voices i).age > (s.voices b).age then some i else some b)
    else findLoop s l best

/-- `findFreeVoice` (VoiceManager.cpp:156-176). -/
def findFreeVoice (s : VM) : Option Nat := findLoop s (List.range s.size) none

/-- `Synth::Impl::startVoice` (Synth.cpp:1300-1312); the ring builder is its head. -/
def startVoice (s : VM) (m : Midi.State) (l : Nat) (delay : Int) (t : Trig) (head : Option Nat) :
    Option (VM × Option Nat) := do
  let s ← checkPolyphony e s l delay t
  match findFreeVoice s with
  | none => return (s, head)
  | some i =>
    let s ← reset e s i
    let (s, ok) ← voiceStart e s m i l delay t
    return (if ok then addToRing s head i else (s, head))

/-- `playingAttackVoice` (VoiceManager.cpp:68-84). -/
def playingAttackVoice (s : VM) (r : Region) : Bool :=
  (List.range s.size).any (fun i =>
    !isFree s i && decide ((s.voices i).trig.type = .noteOn)
      && Range.containsWithEnd r.keyRange (s.voices i).trig.number
      && Range.containsWithEnd r.velocityRange (s.voices i).trig.value)

/-- `withinValidTimerRange` (VoiceManager.cpp:247-255); groups of regions always exist (Synth.cpp:216-222). -/
def withinTimer (s : VM) (r : Region) (timestamp : Nat) : Bool :=
  Range.contains r.timerRange
    ((((timestamp : Int) - (s.groups r.group).recent) % 2 ^ 32 : Int) / e.sampleRate)

/-- `VoiceManager::requireNumVoices` (VoiceManager.cpp:178-194) with the sets emptied (Synth.cpp:1970-1973):
size of the voice list for `numVoices` requested voices. `int(numVoices * 1.5)` truncates. -/
def effectiveVoices (numVoices : Nat) : Nat := min 256 (numVoices + max (numVoices * 3 / 2) 4)

/-- The voice manager after `resetVoices(numVoices)` on an instrument with the given limits. -/
def initVM (numVoices : Nat) (groupLimits setLimits : Nat → Nat) : VM :=
  { size := effectiveVoices numVoices, required := numVoices,
    groups := fun g => { limit := groupLimits g }, setLimits := setLimits }

end Verif.Engine
