import Mathlib.Data.Rat.Defs
import Mathlib.Algebra.Order.Ring.Rat
import Mathlib.Data.List.Basic

/-!
# What an instrument leaves in the engine

Models which settings of the engine a load resets, sets, or leaves alone: `Synth::Impl::clear`, `prepareSfzLoad`, the
`<control>` opcodes, `loadSfzFile` and `loadSfzString`, `setNumVoices`, the reset of all controllers.

Simplifications. Values are rational; the names of files and labels are strings; an opcode is taken after it was read (reading
is modelled in `Verif.Opcode`, `Verif.Loader`). A controller has one value, the last one received (the vectors of events are
modelled in `Verif.Midi`; `clear` flushes them).
-/
namespace Verif.Reload

/-- `StealingAlgorithm` (VoiceManager.h). -/
inductive Stealing where
  | first
  | oldest
  | envelopeAndAge
deriving DecidableEq, Repr

/-- An opcode of a `<control>` header (Synth.cpp:391-473), or a group with a polyphony (Synth.cpp:356-389). -/
inductive Control where
  | setCC (cc : Nat) (value : ℚ)
  | labelCC (cc : Nat) (label : String)
  | labelKey (key : Nat) (label : String)
  /-- A new `<control>` header (Synth.cpp:110-113). -/
  | header
  | defaultPath (path : String)
  | image (file : String)
  | imageControls (file : String)
  | noteOffset (n : Int)
  | octaveOffset (n : Int)
  | ramBased (on : Bool)
  | stealing (a : Stealing)
  | sustainCancelsRelease (on : Bool)
  | groupPolyphony (group : Int) (limit : Nat)
deriving DecidableEq, Repr

/-- The settings (SynthPrivate.h:268-400). Labels are in the order of their first mention. -/
structure State where
  /-- `lastPath_` -/
  path : String
  /-- `MidiState::getCCValue` -/
  cc : Nat → ℚ
  /-- `defaultCCValues_` -/
  ccDefault : Nat → ℚ
  ccLabels : List (Nat × String)
  keyLabels : List (Nat × String)
  defaultPath : String
  image : String
  imageControls : String
  noteOffset : Int
  octaveOffset : Int
  ramBased : Bool
  stealing : Stealing
  /-- `followPower_` of the voices -/
  followPower : Bool
  /-- `SynthConfig::sustainCancelsRelease` -/
  sustainCancelsRelease : Bool
  /-- `polyphonyGroups_` -/
  groups : List (Int × Nat)
  numVoices : Nat

/-- `setCCLabel`, `setKeyLabel` (Synth.cpp:2316-2344). -/
def setLabel (k : Nat) (s : String) (l : List (Nat × String)) : List (Nat × String) :=
  if l.any (fun p => p.1 = k) then l.map (fun p => if p.1 = k then (k, s) else p) else l ++ [(k, s)]

/-- `setGroupPolyphony` (VoiceManager.cpp:86-96). -/
def setGroup (g : Int) (n : Nat) (l : List (Int × Nat)) : List (Int × Nat) :=
  if l.any (fun p => p.1 = g) then l.map (fun p => if p.1 = g then (g, n) else p) else l ++ [(g, n)]

/-- The defaults of controllers (`resetDefaultCCValues`, Synth.cpp:596-601). -/
def initialCC (cc : Nat) : ℚ := if cc = 7 then 100 / 127 else if cc = 10 then 1 / 2 else if cc = 11 then 1 else 0

/-- `resetDefaultCCValues` (Synth.cpp:596-606). -/
def resetDefaultCC (s : State) : State :=
  { s with
    ccDefault := initialCC
    ccLabels := setLabel 11 "Expression" (setLabel 10 "Pan" (setLabel 7 "Volume" s.ccLabels)) }

/-- The engine a constructor leaves (Synth.cpp:63-83; SynthPrivate.h; VoiceManager.h). -/
def fresh : State :=
  resetDefaultCC
    { path := "", cc := initialCC, ccDefault := fun _ => 0, ccLabels := [], keyLabels := [], defaultPath := "", image := ""
      imageControls := "", noteOffset := 0, octaveOffset := 0, ramBased := false, stealing := .oldest, followPower := false
      sustainCancelsRelease := false, groups := [], numVoices := 64 }

/-- `VoiceManager::setStealingAlgorithm` (VoiceManager.cpp:123-145). -/
def setStealing (a : Stealing) (s : State) : State := { s with stealing := a, followPower := a = .envelopeAndAge }

/-- `Synth::Impl::clear` (Synth.cpp:262-316), with `VoiceManager::reset` (VoiceManager.cpp:58-66) and
`MidiState::resetNoteStates` (MidiState.cpp:224-250). -/
def clear (s : State) : State :=
  setStealing .oldest
    { s with
      groups := [(0, 256)]
      noteOffset := 0
      octaveOffset := 0
      defaultPath := ""
      image := ""
      cc := fun n => if n ∈ [131, 133, 134, 135, 136, 137] then 0 else s.cc n
      ramBased := false
      ccLabels := []
      keyLabels := [] }

/-- `prepareSfzLoad` (Synth.cpp:608-634). -/
def prepare (path : String) (s : State) : State :=
  let c := clear s
  if s.path = path then c else { resetDefaultCC c with path := path }

/-- `handleControlOpcodes` (Synth.cpp:391-473); `reloading` is the flag of the same name. -/
def control (reloading : Bool) (s : State) : Control → State
  | .setCC n v =>
    { s with
      ccDefault := Function.update s.ccDefault n v
      cc := if reloading then s.cc else Function.update s.cc n v }
  | .labelCC n l => { s with ccLabels := setLabel n l s.ccLabels }
  | .labelKey k l => { s with keyLabels := setLabel k l s.keyLabels }
  | .header => { s with defaultPath := "" }
  | .defaultPath p => { s with defaultPath := p }
  | .image f => { s with image := s.defaultPath ++ f }
  | .imageControls f => { s with imageControls := s.defaultPath ++ f }
  | .noteOffset n => { s with noteOffset := n }
  | .octaveOffset n => { s with octaveOffset := n }
  | .ramBased b => { s with ramBased := b }
  | .stealing a => setStealing a s
  | .sustainCancelsRelease b => { s with sustainCancelsRelease := b }
  | .groupPolyphony g n => { s with groups := setGroup g n s.groups }

/-- `loadSfzFile`, `loadSfzString` (Synth.cpp:636-697): the opcodes are handled while the file is parsed, so before it is known
whether the load succeeds. A load that fails leaves everything as parsing left it, as far as these settings are concerned. -/
def load (path : String) (cs : List Control) (s : State) : State :=
  cs.foldl (control (decide (s.path = path))) (prepare path s)

/-- Calls of the user. -/
inductive Op where
  | load (path : String) (cs : List Control)
  /-- A controller moves (`performHdcc`, Synth.cpp:1485-1504). -/
  | cc (n : Nat) (v : ℚ)
  /-- Reset of all controllers (Synth.cpp:2120-2125). -/
  | resetCC
  /-- `setSustainCancelsRelease` (Synth.cpp:1932-1935). -/
  | setSustainCancelsRelease (b : Bool)
  /-- `setNumVoices` (Synth.cpp:1953-1981): new voices, which do not follow their power (Voice.cpp:313). -/
  | setNumVoices (n : Nat)

/-- One call. -/
def step (s : State) : Op → State
  | .load p cs => load p cs s
  | .cc n v => { s with cc := Function.update s.cc n v }
  | .resetCC => { s with cc := s.ccDefault }
  | .setSustainCancelsRelease b => { s with sustainCancelsRelease := b }
  | .setNumVoices n => if n = s.numVoices then s else { s with numVoices := n, followPower := false }

/-- A history. -/
def run (s : State) (ops : List Op) : State := ops.foldl step s

end Verif.Reload
