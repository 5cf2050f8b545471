import Verif.Envelope.Model
import Verif.Smoother.Model

/-!
Model of the controllers as modulation sources, /repo/src/sfizz/modulations/sources/Controller.cpp, and of the way their
steps are prepared, /repo/src/sfizz/Synth.cpp:2014-2023.

Values are exact rationals where the code computes in `float`. What the source reads from the rest of the program at a call
(curves, MIDI state, voices) is a parameter of the call. A curve is an arbitrary function here (curves themselves are
modelled in `Verif.Curve`), the events of a controller an arbitrary vector (the MIDI state is modelled in `Verif.Midi`).
-/
namespace Verif.Controller
open Verif.Midi (Event EventVector)

/-- `ModKey` of a controller source: the region (`none` for `ModId::Controller`, `some` for `ModId::PerVoiceController`)
and the parameters (ModKey.h, ModKey.cpp:59-67). -/
structure Key where
  region : Option Nat
  cc : Nat
  curve : Nat
  smooth : Nat
  step : ℚ
deriving DecidableEq, Repr

/-- `ccModulationIsPerVoice` (SfzHelpers.h:268-283). -/
def isPerVoice (cc : Nat) : Bool := cc ∈ [131, 132, 133, 134, 135, 136, 137, 140, 141]

/-- Region.cpp:1770-1774: the key of a connection from a controller. -/
def makeKey (region cc curve smooth : Nat) (step : ℚ) : Key :=
  ⟨if isPerVoice cc then some region else none, cc, curve, smooth, step⟩

/-- Synth.cpp:2017-2023: the step becomes a part of the depth, for the controllers that are not per voice. -/
def prepare (depth : ℚ) (k : Key) : Key :=
  if k.region.isNone then { k with step := if depth ≤ 0 then 0 else k.step / depth } else k

/-- `TriggerEventType`. -/
inductive Trigger where
  | noteOn
  | noteOff
  | cc
deriving DecidableEq, Repr

/-- What the source reads of a voice: its trigger event and `ExtendedCCValues` (Voice.h:23-29). -/
structure Voice where
  type : Trigger
  number : Nat
  value : ℚ
  unipolar : ℚ := 0
  bipolar : ℚ := 0
  alternate : ℚ := 0
  noteGate : ℚ := 0
  keydelta : ℚ := 0
deriving DecidableEq, Repr

/-- What the source reads at a call: the curves, the events and the key pressures of the MIDI state, the voices. -/
structure World where
  curve : Nat → ℚ → ℚ
  events : Nat → EventVector
  pressure : Nat → ℚ
  voices : Nat → Option Voice

/-- `MidiState::getCCValue` (MidiState.cpp:208-212); the vectors are never empty. -/
def lastValue (w : World) (cc : Nat) : ℚ := (Midi.backValue (w.events cc)).getD 0

/-- `getLastTransformedValue` (Controller.cpp:37-43). -/
def lastTransformed (w : World) (k : Key) : ℚ := w.curve k.curve (lastValue w k.cc)

/-- The lambda `quantize` (Controller.cpp:100-105). -/
def quantize (step x : ℚ) : ℚ := if 0 < step then Envelope.trunc (x / step) * step else x

/-- The fill value for a controller of the voice, and whether the curve applies (Controller.cpp:108-186); `none` for the
controllers that have events (187-198). -/
def fillValue (w : World) (v : Option Voice) (cc : Nat) : Option (ℚ × Bool) :=
  if cc = 130 then
    some ((v.map (fun v => if v.type = .noteOn then w.pressure v.number else 0)).getD 0, true)
  else if cc = 131 then some ((v.map (fun v => if v.type = .noteOn then v.value else 0)).getD 0, true)
  else if cc = 132 then some ((v.map (fun v => if v.type = .noteOff then v.value else 0)).getD 0, true)
  else if cc = 133 then some ((v.map (fun v => (v.number : ℚ) / 127)).getD 0, true)
  else if cc = 134 then some ((v.map (·.noteGate)).getD 0, true)
  else if cc = 135 then some ((v.map (·.unipolar)).getD 0, true)
  else if cc = 136 then some ((v.map (·.bipolar)).getD 0, true)
  else if cc = 137 then some ((v.map (·.alternate)).getD 0, true)
  else if cc = 140 then some ((v.map (·.keydelta)).getD 0, false)
  else if cc = 141 then some ((v.map (fun v => |v.keydelta|)).getD 0, false)
  else none

/-- What is written to the buffer of `n` frames before smoothing, with `canShortcut` (Controller.cpp:90-199). `none`: the
rendering of the events fails. A frame that the rendering does not write is 0 (the code leaves what was there). -/
def raw (w : World) (k : Key) (voice : Option Nat) (n : Nat) : Option (List ℚ × Bool) :=
  match fillValue w (voice.bind w.voices) k.cc with
  | some (x, curved) =>
    some (List.replicate n (quantize k.step (if curved then w.curve k.curve x else x)), true)
  | none =>
    (Envelope.quantEnvelope (if k.cc = 128 ∨ k.cc = 129 then id else w.curve k.curve) (w.events k.cc) n k.step).map
      (fun log => ((List.range n).map (fun i : Nat => (log i).getLastD 0), (w.events k.cc).length == 1))

/-- `ControllerSource::Impl` (Controller.cpp:18-24): the sample rate and the map of smoothers; a smoother is its
`smoothFrames_` and its run-time state. -/
structure State where
  sampleRate : ℚ
  smoothers : Key → Option (Int × Smoother.State)

/-- The calls. -/
inductive Op where
  | init (k : Key) (w : World)
  | generate (k : Key) (voice : Option Nat) (w : World) (n : Nat)
  | setSampleRate (rate : ℚ)
  | resetSmoothers (w : World)

/-- `init` (Controller.cpp:71-86). -/
def init (s : State) (k : Key) (w : World) : State :=
  { s with smoothers := fun j => if j = k then
      (if 0 < k.smooth then some (Smoother.smoothFrames k.smooth s.sampleRate, Smoother.reset (lastTransformed w k)) else none)
    else s.smoothers j }

/-- `resetSmoothers` (Controller.cpp:45-51). -/
def resetSmoothers (s : State) (w : World) : State :=
  { s with smoothers := fun j => (s.smoothers j).map (fun p => (p.1, Smoother.reset (lastTransformed w j))) }

/-- `setSampleRate` (Controller.cpp:53-64). -/
def setSampleRate (s : State) (rate : ℚ) : State :=
  if s.sampleRate = rate then s
  else { sampleRate := rate
         smoothers := fun j => (s.smoothers j).map (fun p => (Smoother.smoothFrames j.smooth rate, p.2)) }

/-- Controller.cpp:201-205: the smoother of the key, if there is one. -/
def smoothen (s : State) (k : Key) (b : List ℚ × Bool) : List ℚ × State :=
  match s.smoothers k with
  | none => (b.1, s)
  | some (sf, st) =>
    ((Smoother.process sf st b.1 b.2).1,
      { s with smoothers := fun j => if j = k then some (sf, (Smoother.process sf st b.1 b.2).2) else s.smoothers j })

/-- `generate` (Controller.cpp:88-206). -/
def generate (s : State) (k : Key) (voice : Option Nat) (w : World) (n : Nat) : Option (List ℚ × State) :=
  (raw w k voice n).map (smoothen s k)

/-- A history of calls: the final state and the buffers generated, with their keys and voices. -/
def run (s : State) : List Op → Option (List (Key × Option Nat × List ℚ) × State)
  | [] => some ([], s)
  | .init k w :: ops => run (init s k w) ops
  | .setSampleRate r :: ops => run (setSampleRate s r) ops
  | .resetSmoothers w :: ops => run (resetSmoothers s w) ops
  | .generate k v w n :: ops =>
    match generate s k v w n with
    | none => none
    | some (b, s') => (run s' ops).map (fun r => ((k, v, b) :: r.1, r.2))

/-- A new source (Controller.cpp:20, 23; `config::defaultSampleRate`). -/
def fresh : State := ⟨48000, fun _ => none⟩

end Verif.Controller
