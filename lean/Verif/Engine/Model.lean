import Verif.Engine.Voices

/-!
Model of the event handling of `Synth` (`src/sfizz/Synth.cpp`): notes, controllers, key-switches, choking, delayed
releases, rendering (as far as the life of voices goes).

`none` is undefined behaviour in one of the parts, or the choke cascade running out of fuel
(`Verif.Engine` shows that neither happens).
-/
namespace Verif.Engine

open Verif.Layer (Region)
open Verif.Range (containsWithEnd)

/-- The instrument and what the engine takes from outside. -/
structure Cfg extends Env where
  /-- `layers_.size()` -/
  numLayers : Nat
  /-- `randNoteDistribution_`, by draw -/
  rand : Nat → ℚ
  /-- the draws of `MidiState` for controllers 135 and 136 -/
  midiRand : Nat → ℚ × ℚ
  /-- `defaultCCValues_` -/
  defaultCC : Nat → ℚ
  /-- `getBeatClock().getBeatsPerSecond()` when the instrument is loaded -/
  beatsPerSecond : ℚ

/-- The part of `Synth::Impl` that events change (SynthPrivate.h). -/
structure E where
  vm : VM
  midi : Midi.State
  layers : Nat → Layer.State
  currentSwitch : Option Int
  draws : Nat := 0

variable (c : Cfg)

/-! ### Activation lists (Synth.cpp:195-211, 835-846) -/

/-- `noteActivationLists_[note]` (Synth.cpp:835-838). -/
def noteLayers (note : Int) : List Nat :=
  (List.range c.numLayers).filter (fun l => containsWithEnd (c.regions l).keyRange note)

/-- `ccActivationLists_[cc]` (Synth.cpp:840-846). -/
def ccLayers (cc : Nat) : List Nat :=
  (List.range c.numLayers).filter (fun l =>
    let r := c.regions l
    (r.ccTriggers cc).isSome || (r.ccConditions cc).isSome
      || (decide (cc = r.sustainCC) && decide (r.trigger = .release))
      || (decide (cc = r.sostenutoCC) && decide (r.trigger = .release)))

/-- The notes for which a region is in `lastKeyswitchLists_` (Synth.cpp:195-202). -/
def isLastSwitch (r : Region) (note : Int) : Bool :=
  decide (r.lastKeyswitch = some note)
    || (match r.lastKeyswitchRange with | some range => containsWithEnd range note | none => false)

/-- `lastKeyswitchLists_[note]`. -/
def lastLayers (note : Int) : List Nat := (List.range c.numLayers).filter (fun l => isLastSwitch (c.regions l) note)

/-- `upKeyswitchLists_[note]` (Synth.cpp:204-205). -/
def upLayers (note : Int) : List Nat :=
  (List.range c.numLayers).filter (fun l => decide ((c.regions l).upKeyswitch = some note))

/-- `downKeyswitchLists_[note]` (Synth.cpp:207-208). -/
def downLayers (note : Int) : List Nat :=
  (List.range c.numLayers).filter (fun l => decide ((c.regions l).downKeyswitch = some note))

/-- `previousKeyswitchLists_` (Synth.cpp:210-211). -/
def previousLayers : List Nat :=
  (List.range c.numLayers).filter (fun l => (c.regions l).previousKeyswitch.isSome)

/-! ### Pieces of state -/

/-- Write the state of one layer. -/
def setLayer (s : E) (l : Nat) (ls : Layer.State) : E := { s with layers := Midi.upd s.layers l ls }

/-- `layer->keySwitched_ = b` for all layers of a list. -/
def setKeySwitched (s : E) (ls : List Nat) (b : Bool) : E :=
  ls.foldl (fun s l => setLayer s l { s.layers l with keySwitched := b }) s

/-- Draw a number from `randNoteDistribution_`. -/
def draw (s : E) : E := { s with draws := s.draws + 1 }

/-- One voice of `checkOffGroups` (Synth.cpp:1316-1322). -/
def chokeOne (disp : E → Int → Int → ℚ → Option E) (r : Region) (delay number : Int) (byCC : Bool) (s : E) (i : Nat) :
    Option E := do
  let (vm, hit) ← checkOffGroup c.toEnv s.vm (fun l => Layer.ccAll (s.layers l)) i r delay number
  let s := { s with vm := vm }
  if hit then
    let t := (vm.voices i).trig
    if t.type = .noteOn ∧ byCC = false then disp s delay t.number t.value else some s
  else some s

/-- `checkOffGroups` (Synth.cpp:1314-1323); `disp` is `noteOffDispatch`. -/
def checkOffGroups (disp : E → Int → Int → ℚ → Option E) (r : Region) (delay number : Int) (byCC : Bool) (s : E) :
    Option E :=
  (List.range s.vm.size).foldlM (chokeOne c disp r delay number byCC) s

/-- `startVoice` of the engine on the whole state. -/
def start (s : E) (l : Nat) (delay : Int) (t : Trig) (head : Option Nat) : Option (E × Option Nat) := do
  let (vm, head) ← startVoice c.toEnv s.vm s.midi l delay t head
  return ({ s with vm := vm }, head)

/-- One layer of `noteOffDispatch` (Synth.cpp:1337-1346). -/
def noteOffLayer (disp : E → Int → Int → ℚ → Option E) (delay note : Int) (velocity rand : ℚ)
    (sh : E × Option Nat) (l : Nat) : Option (E × Option Nat) := do
  let (s, head) := sh
  let r := c.regions l
  let (ls, fire) := Layer.registerNoteOff r s.midi (s.layers l) note velocity rand
  let s := setLayer s l ls
  if fire then
    if r.trigger = .release ∧ r.rtDead = false ∧ playingAttackVoice s.vm r = false then return (s, head)
    else
      let s ← checkOffGroups c disp r delay note false s
      start c s l delay { type := .noteOff, number := note, value := velocity } head
  else return (s, head)

/-- The key-switch changes of a note-off (Synth.cpp:1331-1335). -/
def noteOffSwitches (s : E) (note : Int) : E :=
  setKeySwitched (setKeySwitched s (upLayers c note) true) (downLayers c note) false

/-- `noteOffDispatch` (Synth.cpp:1325-1347), with fuel for its recursion through `checkOffGroups`. -/
def noteOffDispatch : Nat → E → Int → Int → ℚ → Option E
  | 0, _, _, _, _ => none
  | fuel + 1, s, delay, note, velocity => do
    let rand := c.rand s.draws
    let s := noteOffSwitches c (draw s) note
    let (s, _) ← (noteLayers c note).foldlM
      (noteOffLayer c (noteOffDispatch fuel) delay note velocity rand) (s, none)
    return s

/-- Fuel for the cascade: one more than the number of voices. -/
def fuel (s : E) : Nat := s.vm.size + 1

/-- The key-switch changes of a note-on (Synth.cpp:1355-1370). -/
def noteOnSwitches (s : E) (note : Int) : E :=
  let s :=
    if (lastLayers c note).isEmpty then s
    else
      let s := match s.currentSwitch with
        | some k => if k ≠ note then setKeySwitched s (lastLayers c k) false else s
        | none => s
      { s with currentSwitch := some note }
  let s := setKeySwitched s (lastLayers c note) true
  let s := setKeySwitched s (upLayers c note) false
  setKeySwitched s (downLayers c note) true

/-- The timer condition (Synth.cpp:1375, 1453). -/
def timerOk (s : E) (r : Region) (delay : Int) : Bool :=
  !r.useTimerRange || withinTimer c.toEnv s.vm r (Midi.clockPlus s.midi.internalClock delay)

/-- One layer of `noteOnDispatch` (Synth.cpp:1372-1382). -/
def noteOnLayer (delay note : Int) (velocity rand : ℚ) (sh : E × Option Nat) (l : Nat) : Option (E × Option Nat) := do
  let (s, head) := sh
  let r := c.regions l
  let (ls, fire) := Layer.registerNoteOn r s.midi (s.layers l) note velocity rand
  let s := setLayer s l ls
  if fire && timerOk c s r delay then
    let s ← checkOffGroups c (noteOffDispatch c (fuel s)) r delay note false s
    start c s l delay { type := .noteOn, number := note, value := velocity } head
  else return (s, head)

/-- `sw_previous` after a note-on (Synth.cpp:1384-1387). -/
def updatePrevious (s : E) (note : Int) : E :=
  (previousLayers c).foldl (fun s l =>
    setLayer s l { s.layers l with previousKeySwitched := decide ((c.regions l).previousKeyswitch = some note) }) s

/-- `noteOnDispatch` (Synth.cpp:1349-1388). -/
def noteOnDispatch (s : E) (delay note : Int) (velocity : ℚ) : Option E := do
  let rand := c.rand s.draws
  let s := noteOnSwitches c (draw s) note
  let (s, _) ← (noteLayers c note).foldlM (noteOnLayer c delay note velocity rand) (s, none)
  return updatePrevious c s note

/-- `hdNoteOn` (Synth.cpp:1258-1269). -/
def hdNoteOn (s : E) (delay note : Int) (velocity : ℚ) : Option E :=
  let s := if (lastLayers c note).isEmpty then
      { s with midi := Midi.noteOn s.midi delay note velocity (c.midiRand s.draws).1 (c.midiRand s.draws).2 }
    else s
  noteOnDispatch c s delay note velocity

/-- A loop over all voices of the list. -/
def eachVoice (f : VM → Nat → VM) (s : E) : E := { s with vm := (List.range s.vm.size).foldl f s.vm }

/-- A loop over all voices with a step that may fail. -/
def eachVoiceM (f : VM → Nat → Option VM) (s : E) : Option E := do
  let vm ← (List.range s.vm.size).foldlM f s.vm
  return { s with vm := vm }

/-- `hdNoteOff` (Synth.cpp:1277-1298). -/
def hdNoteOff (s : E) (delay note : Int) (velocity : ℚ) : Option E :=
  let s := if (lastLayers c note).isEmpty then
      { s with midi := Midi.noteOff s.midi delay note velocity (c.midiRand s.draws).1 (c.midiRand s.draws).2 }
    else s
  let replaced := Layer.noteVelocity s.midi note
  let s := eachVoice (fun vm i => voiceNoteOff c.toEnv vm i delay note) s
  noteOffDispatch c (fuel s) s delay note replaced

/-- Starting the delayed releases of a list (Synth.cpp:1399-1402, 1416-1419). -/
def startReleases (l : Nat) (delay : Int) (sh : E × Option Nat) (notes : List (Int × ℚ)) : Option (E × Option Nat) :=
  notes.foldlM (fun (sh : E × Option Nat) (p : Int × ℚ) =>
    start c sh.1 l delay { type := .noteOff, number := p.1, value := p.2 } sh.2) sh

/-- `startDelayedSustainReleases` (Synth.cpp:1390-1405). -/
def startDelayedSustain (l : Nat) (delay : Int) (sh : E × Option Nat) : Option (E × Option Nat) := do
  let (s, head) := sh
  let clear := fun (s : E) => setLayer s l { s.layers l with delayedSustain := [] }
  if (c.regions l).rtDead = false ∧ playingAttackVoice s.vm (c.regions l) = false then return (clear s, head)
  else
    let (s, head) ← startReleases c l delay (s, head) (s.layers l).delayedSustain
    return (clear s, head)

/-- `startDelayedSostenutoReleases` (Synth.cpp:1407-1421). -/
def startDelayedSostenuto (l : Nat) (delay : Int) (sh : E × Option Nat) : Option (E × Option Nat) := do
  let (s, head) := sh
  let clear := fun (s : E) => setLayer s l { s.layers l with delayedSostenuto := [] }
  if (c.regions l).rtDead = false ∧ playingAttackVoice s.vm (c.regions l) = false then return (clear s, head)
  else
    let (s, head) ← startReleases c l delay (s, head) (s.layers l).delayedSostenuto
    return (clear s, head)

/-- Handing the sostenuto notes over to the sustain pedal (Synth.cpp:1442-1446). -/
def handOver (r : Region) (ls : Layer.State) : Layer.State :=
  let ls := ls.delayedSostenuto.foldl (fun ls p => Layer.delaySustainRelease r ls p.1 p.2) ls
  { ls with delayedSostenuto := [] }

/-- The sustain pedal part of `ccDispatch` for one layer (Synth.cpp:1438-1440). -/
def sustainLift (delay : Int) (cc : Nat) (value : ℚ) (sh : E × Option Nat) (l : Nat) : Option (E × Option Nat) :=
  let r := c.regions l
  if r.checkSustain && decide (cc = r.sustainCC) && decide (value < r.sustainThreshold)
  then startDelayedSustain c l delay sh else some sh

/-- The sostenuto pedal part of `ccDispatch` for one layer (Synth.cpp:1442-1450). -/
def sostenutoLift (delay : Int) (cc : Nat) (value : ℚ) (sh : E × Option Nat) (l : Nat) : Option (E × Option Nat) :=
  let r := c.regions l
  if r.checkSostenuto && decide (cc = r.sostenutoCC) && decide (value < r.sostenutoThreshold) then
    if (sh.1.layers l).sustainPressed then some (setLayer sh.1 l (handOver r (sh.1.layers l)), sh.2)
    else startDelayedSostenuto c l delay sh
  else some sh

/-- The pedal part of `ccDispatch` for one layer (Synth.cpp:1438-1450). -/
def ccPedals (delay : Int) (cc : Nat) (value : ℚ) (sh : E × Option Nat) (l : Nat) : Option (E × Option Nat) := do
  let sh ← sustainLift c delay cc value sh l
  sostenutoLift c delay cc value sh l

/-- One layer of `ccDispatch` (Synth.cpp:1435-1459). -/
def ccLayer (delay : Int) (cc : Nat) (value rand : ℚ) (arg : Int) (sh : E × Option Nat) (l : Nat) :
    Option (E × Option Nat) := do
  let (s, head) ← ccPedals c delay cc value sh l
  let r := c.regions l
  let (ls, fire) := Layer.registerCC r s.midi (s.layers l) cc value rand arg
  let s := setLayer s l ls
  if fire && timerOk c s r delay then
    let s ← checkOffGroups c (noteOffDispatch c (fuel s)) r delay cc true s
    start c s l delay { type := .cc, number := cc, value := value } head
  else return (s, head)

/-- `ccDispatch` (Synth.cpp:1429-1460). -/
def ccDispatch (s : E) (delay : Int) (cc : Nat) (value : ℚ) (arg : Int) : Option E := do
  let rand := c.rand s.draws
  let (s, _) ← (ccLayers c cc).foldlM (ccLayer c delay cc value rand arg) (draw s, none)
  return s

/-- A loop over the layers of the instrument. -/
def eachLayer (f : Nat → Layer.State → Layer.State) (s : E) : E :=
  { s with layers := fun l => if l < c.numLayers then f l (s.layers l) else s.layers l }

/-- The loop over controllers for one layer (Synth.cpp:2134-2135). -/
def resetLayerCCs (m : Midi.State) (l : Nat) (ls : Layer.State) : Layer.State :=
  (List.range Layer.numCCs).foldl (fun ls cc => Layer.updateCCState (c.regions l) m ls cc (c.defaultCC cc)) ls

/-- The loop over controllers for one voice (Synth.cpp:2130-2131). -/
def resetVoiceCCs (delay : Int) (vm : VM) (i : Nat) : VM :=
  (List.range Layer.numCCs).foldl (fun vm cc => voiceCC c.toEnv vm i delay cc (c.defaultCC cc)) vm

/-- `resetAllControllers` (Synth.cpp:2120-2138). -/
def resetAllControllers (s : E) (delay : Int) : E :=
  let midi := Midi.pitchBend s.midi delay 0
  let midi := (List.range Layer.numCCs).foldl (fun m cc => Midi.ccEvent m delay cc (c.defaultCC cc)) midi
  let s := { s with midi := midi }
  let s := eachVoice (resetVoiceCCs c delay) s
  eachLayer c (resetLayerCCs c s.midi) s

/-- The draws made by `allNotesOff`. -/
def notesOffDraws (s : E) : Nat → ℚ × ℚ := fun k => c.midiRand (s.draws + k)

/-- `performHdcc` (Synth.cpp:1474-1504). -/
def performHdcc (s : E) (delay : Int) (cc : Nat) (value : ℚ) (asMidi : Bool) (arg : Int) : Option E :=
  if asMidi ∧ cc = 121 then some (resetAllControllers c s delay)
  else if asMidi ∧ (cc = 123 ∨ cc = 120) then do
    let s ← eachVoiceM (reset c.toEnv) s
    return { s with midi := Midi.allNotesOff s.midi delay (notesOffDraws c s) }
  else do
    let s := eachVoice (fun vm i => voiceCC c.toEnv vm i delay cc value) s
    let s ← ccDispatch c s delay cc value arg
    return { s with midi := Midi.ccEvent s.midi delay cc value }

/-- `hdPitchWheel` (Synth.cpp:1535-1551). `registerPitchWheel` of the voices does nothing. -/
def hdPitchWheel (s : E) (delay : Int) (v : ℚ) : Option E :=
  let s := { s with midi := Midi.pitchBend s.midi delay v }
  let s := eachLayer c (fun l ls => Layer.registerPitchWheel (c.regions l) ls v) s
  performHdcc c s delay 128 v false (-1)

/-- `programChange` (Synth.cpp:1553-1559). -/
def programChange (s : E) (p : Int) : E :=
  eachLayer c (fun l ls => Layer.registerProgramChange (c.regions l) ls p)
    { s with midi := Midi.programChange s.midi p }

/-- `hdChannelAftertouch` (Synth.cpp:1568-1584). -/
def hdChannelAftertouch (s : E) (delay : Int) (v : ℚ) : Option E :=
  let s := { s with midi := Midi.chanAftertouch s.midi delay v }
  let s := eachLayer c (fun l ls => Layer.registerAftertouch (c.regions l) ls v) s
  performHdcc c s delay 129 v false (-1)

/-- `hdPolyAftertouch` (Synth.cpp:1592-1603). -/
def hdPolyAftertouch (s : E) (delay note : Int) (v : ℚ) : Option E :=
  performHdcc c { s with midi := Midi.polyAftertouch s.midi delay note v } delay 130 v false note

/-- `allSoundOff` (Synth.cpp:2182-2192), the effect buses left out. -/
def allSoundOff (s : E) : Option E := eachVoiceM (reset c.toEnv) s

/-- What the sound of a block decides for a voice. -/
structure Sound where
  /-- the sample ended at this frame (Voice.cpp:1229) -/
  sampleEnded : Option Int
  /-- the amplitude envelope has finished (Voice.cpp:808-815) -/
  finished : Bool
  /-- the amplitude envelope released by itself -/
  released : Bool
  /-- its remaining delay after the block -/
  egDelay : Int

/-- The sample ends: `off` in `fillWithData` (Voice.cpp:1229). -/
def sampleStop (snd : Sound) (vm : VM) (i : Nat) : Option VM :=
  match snd.sampleEnded with
  | some d => off vm i d
  | none => some vm

/-- The amplitude envelope has finished (Voice.cpp:808-815). -/
def envelopeStop (snd : Sound) (vm : VM) (i : Nat) : Option VM :=
  if snd.finished then switchState c.toEnv vm i .cleanMeUp else some vm

/-- The age of a voice after a block (Voice.cpp:819-824). -/
def ageAfter (frames : Nat) (v : Voice) : Int :=
  match v.triggerDelay with
  | some d => min (v.age + frames - d) 0
  | none => v.age + frames

/-- The members a block changes (Voice.cpp:819-824 and the envelope). -/
def aged (frames : Nat) (snd : Sound) (v : Voice) : Voice :=
  { v with age := ageAfter frames v, triggerDelay := none, released := v.released || snd.released,
           egDelay := snd.egDelay }

/-- `Voice::renderBlock` (Voice.cpp:776-832) for the life of the voice. -/
def voiceRender (frames : Nat) (snd : Nat → Sound) (vm : VM) (i : Nat) : Option VM :=
  match (vm.voices i).layer with
  | none => some vm
  | some l =>
    if (c.regions l).disabled then some vm
    else do
      let vm ← sampleStop (snd i) vm i
      let vm ← envelopeStop c (snd i) vm i
      return setVoice vm i (aged frames (snd i) (vm.voices i))

/-- One voice of the render loop (Synth.cpp:1164-1190). -/
def renderVoice (frames : Nat) (snd : Nat → Sound) (vm : VM) (i : Nat) : Option VM :=
  if isFree vm i then some vm
  else do
    let vm ← voiceRender c frames snd vm i
    if (vm.voices i).state = .cleanMeUp then reset c.toEnv vm i else some vm

/-- `renderBlock` (Synth.cpp:1093-1250) for the life of voices. -/
def render (s : E) (frames : Nat) (snd : Nat → Sound) : Option E :=
  if frames < 1 then some s
  else do
    let s ← eachVoiceM (renderVoice c frames snd) s
    return { s with midi := Midi.advanceTime s.midi frames }

/-- `setNumVoices` (Synth.cpp:1954-1981). -/
def setNumVoices (s : E) (n : Nat) : E :=
  if n = s.vm.required then s
  else { s with vm := initVM n (fun g => (s.vm.groups g).limit) s.vm.setLimits }

/-- The state of a layer once the instrument is loaded (Synth.cpp:238, 816-876). -/
def loadLayer (m : Midi.State) (sw : Option Int) (l : Nat) : Layer.State :=
  let r := c.regions l
  let ls := Layer.initializeActivations r {}
  let ls := match r.lastKeyswitch, sw with
    | some k, some k' => { ls with keySwitched := decide (k' = k) }
    | _, _ => ls
  let ls := match r.lastKeyswitchRange, sw with
    | some range, some k' => { ls with keySwitched := containsWithEnd range k' }
    | _, _ => ls
  let ls := (List.range Layer.numCCs).foldl (fun ls cc => Layer.updateCCState r m ls cc (Layer.ccValue m cc)) ls
  let ls := Layer.registerPitchWheel r ls ((Midi.backValue m.pitch).getD 0)
  let ls := Layer.registerAftertouch r ls ((Midi.backValue m.channelAftertouch).getD 0)
  let ls := Layer.registerTempo r ls c.beatsPerSecond
  Layer.registerProgramChange r ls m.currentProgram

/-- The engine after loading: MIDI state `m`, default switch `sw`, `n` voices, polyphony limits. -/
def load (m : Midi.State) (sw : Option Int) (n : Nat) (groupLimits setLimits : Nat → Nat) : E :=
  { vm := initVM n groupLimits setLimits, midi := m, layers := loadLayer c m sw, currentSwitch := sw }

/-- Calls of the API. -/
inductive Op where
  | noteOn (delay note : Int) (velocity : ℚ)
  | noteOff (delay note : Int) (velocity : ℚ)
  | cc (delay : Int) (cc : Nat) (value : ℚ)
  | automate (delay : Int) (cc : Nat) (value : ℚ)
  | pitchWheel (delay : Int) (value : ℚ)
  | program (p : Int)
  | channelAftertouch (delay : Int) (value : ℚ)
  | polyAftertouch (delay note : Int) (value : ℚ)
  | render (frames : Nat) (snd : Nat → Sound)
  | allSoundOff
  | setNumVoices (n : Nat)

/-- One call. -/
def step (s : E) : Op → Option E
  | .noteOn d n v => hdNoteOn c s d n v
  | .noteOff d n v => hdNoteOff c s d n v
  | .cc d k v => performHdcc c s d k v true (-1)
  | .automate d k v => performHdcc c s d k v false (-1)
  | .pitchWheel d v => hdPitchWheel c s d v
  | .program p => some (programChange c s p)
  | .channelAftertouch d v => hdChannelAftertouch c s d v
  | .polyAftertouch d n v => hdPolyAftertouch c s d n v
  | .render f snd => render c s f snd
  | .allSoundOff => allSoundOff c s
  | .setNumVoices n => some (setNumVoices s n)

/-- A history of calls. -/
def run (s : E) (ops : List Op) : Option E := ops.foldlM (step c) s

end Verif.Engine
