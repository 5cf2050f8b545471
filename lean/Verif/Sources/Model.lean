import Verif.Adsr.Range
import Verif.FlexEG.Model
import Verif.Lfo.Model

/-!
# The modulation sources of a note

Models `modulations/sources/ADSREnvelope.cpp`, `modulations/sources/FlexEnvelope.cpp` and `modulations/sources/LFO.cpp`, how
`ModMatrix::initVoice`, `releaseVoice` and `cancelRelease` (ModMatrix.cpp:266-303) reach them, `Voice::Impl::off`
(Voice.cpp:605-621) as far as the envelopes go, and `Voice::setSampleRate` (Voice.cpp:738-767) likewise.

The envelopes and LFOs themselves are those of `Adsr`, `FlexEG` and `Lfo`, with exact rationals for floats.

Simplifications. What the outside gives at the time of a call (controllers, curves, the modulations of an LFO, the position of the
host) is a value `w : W`; a description reads from it. The numbers an LFO draws are part of its description. Voices are numbered
and all of them exist. The sources that keep no state here (controllers, aftertouch) are in `Controller`. Undefined behaviour
(an index outside a vector, a missing generator or description) is `none`; so is the use of an LFO before its first start.
-/
namespace Verif.Sources

/-- The sources with a generator in the voice (`ModId.h:24-31`); the number is `parameters().N`. -/
inductive Key where
  | ampEG | pitchEG | filEG | ampLFO | pitchLFO | filLFO
  | flex (n : Nat)
  | lfo (n : Nat)
  deriving DecidableEq, Repr

/-- `EGDescription`: whether it is dynamic, and the parameters `updateValues` reads for a velocity and a delay. -/
structure Eg (W : Type) where
  dynamic : Bool
  read : W → ℚ → Int → Adsr.Params

/-- `FlexEGDescription`: times and levels of the stages at a delay are read from outside. -/
structure Flex (W : Type) where
  desc : FlexEG.Desc
  look : W → Nat → FlexEG.Look

/-- `LFODescription`: `desc.samplePeriod` and `desc.fadeTime` are not used; delay and fade time in seconds, and the modulations of
a block of some frames, are read from outside. -/
structure Wob (W : Type) where
  desc : Lfo.Desc
  subs : List Lfo.Sub
  delay : W → ℚ
  fade : W → ℚ
  mods : W → Nat → List Lfo.Mods

/-- What a region describes (Region.h:366-379), and the sources the matrix knows for it (`sourceIndicesForRegion_`,
ModMatrix.cpp:62). `oneShotOsc`: `loopMode == LoopMode::one_shot && isOscillator()`. -/
structure Region (W : Type) where
  amplitudeEG : Eg W
  pitchEG : Option (Eg W)
  filterEG : Option (Eg W)
  flexEGs : List (Flex W)
  flexAmpEG : Option Nat
  amplitudeLFO : Option (Wob W)
  pitchLFO : Option (Wob W)
  filterLFO : Option (Wob W)
  lfos : List (Wob W)
  oneShotOsc : Bool
  sources : List Key

variable {W : Type}

/-- An `ADSREnvelope` of a voice: `desc_`, `dynamic_` and `triggerVelocity_` besides its state. -/
structure EgSlot (W : Type) where
  env : Adsr.Env
  desc : Option (Eg W)
  dynamic : Bool
  velocity : ℚ

/-- A `FlexEnvelope` of a voice with its `desc_`. -/
structure FlexSlot (W : Type) where
  env : FlexEG.Env
  desc : Option (Flex W)

/-- An `LFO` of a voice: `sampleRate_`, `desc_`, `fadeTime_` and its state (LFO.cpp:34-48). -/
structure LfoSlot (W : Type) where
  rate : ℚ
  desc : Option (Wob W)
  fade : ℚ
  st : Lfo.State

/-- A voice (Voice.cpp:230-317): the region it plays, the velocity of its trigger, its sample rate, its generators. -/
structure Voice (W : Type) where
  region : Option (Region W)
  velocity : ℚ
  rate : ℚ
  egAmplitude : EgSlot W
  egPitch : Option (EgSlot W)
  egFilter : Option (EgSlot W)
  flexEGs : List (FlexSlot W)
  lfoAmplitude : Option (LfoSlot W)
  lfoPitch : Option (LfoSlot W)
  lfoFilter : Option (LfoSlot W)
  lfos : List (LfoSlot W)

/-! ### ADSR envelopes -/

/-- `getEG` (sources/ADSREnvelope.cpp:21-42). -/
def Voice.eg (v : Voice W) : Key → Option (EgSlot W)
  | .ampEG => some v.egAmplitude
  | .pitchEG => v.egPitch
  | .filEG => v.egFilter
  | _ => none

/-- Writing through the pointer of `getEG`. -/
def Voice.putEg (v : Voice W) (x : EgSlot W) : Key → Voice W
  | .ampEG => { v with egAmplitude := x }
  | .pitchEG => { v with egPitch := some x }
  | .filEG => { v with egFilter := some x }
  | _ => v

/-- `getEGDescription` (sources/ADSREnvelope.cpp:44-65). -/
def Region.eg (r : Region W) : Key → Option (Eg W)
  | .ampEG => some r.amplitudeEG
  | .pitchEG => r.pitchEG
  | .filEG => r.filterEG
  | _ => none

/-- `ADSREnvelope::reset` (ADSREnvelope.cpp:41-56). -/
def EgSlot.reset (x : EgSlot W) (d : Eg W) (oneShotOsc : Bool) (delay : Nat) (velocity rate : ℚ) (w : W) : EgSlot W :=
  { env := Adsr.reset x.env rate delay (d.read w velocity delay) oneShotOsc
    desc := some d
    dynamic := d.dynamic
    velocity := velocity }

/-- `ADSREnvelope::getBlock` (ADSREnvelope.cpp:71-86). -/
def EgSlot.block (x : EgSlot W) (n : Nat) (w : W) : Option (List ℚ × EgSlot W) :=
  if x.dynamic then
    x.desc.map fun d =>
      ((Adsr.dynamicBlock x.env (fun i => d.read w x.velocity i) 0 n).1,
        { x with env := (Adsr.dynamicBlock x.env (fun i => d.read w x.velocity i) 0 n).2 })
  else some ((Adsr.block x.env n).1, { x with env := (Adsr.block x.env n).2 })

/-! ### Flex envelopes -/

/-- `FlexEnvelopeSource::init` after its tests (sources/FlexEnvelope.cpp:39-47). -/
def FlexSlot.init (x : FlexSlot W) (d : Flex W) (free : Bool) (delay : Nat) (w : W) : FlexSlot W :=
  { env := FlexEG.start d.desc (d.look w 0)
      (if free then { FlexEG.configure x.env with freeRunning := true } else FlexEG.configure x.env) delay
    desc := some d }

/-- `FlexEnvelope::cancelRelease` (FlexEnvelope.cpp:115-133). -/
def FlexSlot.cancel (x : FlexSlot W) (w : W) : Option (FlexSlot W) :=
  x.desc.map fun d => { x with env := FlexEG.cancelRelease d.desc (d.look w 0) x.env }

/-- `FlexEnvelope::process` (FlexEnvelope.cpp:154-170). -/
def FlexSlot.block (x : FlexSlot W) (n : Nat) (w : W) : Option (List ℚ × FlexSlot W) :=
  x.desc.bind fun d => (FlexEG.block d.desc (d.look w) x.env n).map fun p => (p.1, { x with env := p.2 })

/-! ### LFOs -/

/-- The LFO that `LFOSource` picks by key (sources/LFO.cpp:34-61, 81-104), index in range of the region or not tested. -/
def Voice.lfo (v : Voice W) : Key → Option (LfoSlot W)
  | .ampLFO => v.lfoAmplitude
  | .pitchLFO => v.lfoPitch
  | .filLFO => v.lfoFilter
  | .lfo n => v.lfos[n]?
  | _ => none

/-- Writing through that pointer. -/
def Voice.putLfo (v : Voice W) (x : LfoSlot W) : Key → Voice W
  | .ampLFO => { v with lfoAmplitude := some x }
  | .pitchLFO => { v with lfoPitch := some x }
  | .filLFO => { v with lfoFilter := some x }
  | .lfo n => { v with lfos := v.lfos.set n x }
  | _ => v

/-- The description picked by key (sources/LFO.cpp:34-61). -/
def Region.lfo (r : Region W) : Key → Option (Wob W)
  | .ampLFO => r.amplitudeLFO
  | .pitchLFO => r.pitchLFO
  | .filLFO => r.filterLFO
  | .lfo n => r.lfos[n]?
  | _ => none

/-- The frames of a delay in seconds (LFO.cpp:90). -/
def delayFrames (rate delay : ℚ) : Nat := if delay > 0 then ⌈rate * delay⌉₊ else 0

/-- `configure` and `start` (LFO.cpp:65-99). -/
def LfoSlot.init (x : LfoSlot W) (d : Wob W) (delay : Nat) (w : W) : LfoSlot W :=
  { x with
    desc := some d
    fade := d.fade w
    st := Lfo.start (delay + delayFrames x.rate (d.delay w)) (d.fade w) d.subs }

/-- `LFO::process` (LFO.cpp:233-304). -/
def LfoSlot.block (x : LfoSlot W) (n : Nat) (w : W) : Option (List ℚ × LfoSlot W) :=
  x.desc.bind fun d =>
    (Lfo.process { d.desc with samplePeriod := 1 / x.rate, fadeTime := x.fade } x.st (d.mods w n)).map fun p =>
      (p.1, { x with st := p.2 })

/-! ### The sources -/

/-- `init` of the source (sources/ADSREnvelope.cpp:67-83, sources/FlexEnvelope.cpp:23-48, sources/LFO.cpp:22-65). -/
def init (k : Key) (delay : Nat) (w : W) (v : Voice W) : Option (Voice W) :=
  v.region.bind fun r =>
    match k with
    | .flex n =>
      match r.flexEGs[n]? with
      | none => some v
      | some d =>
        v.flexEGs[n]?.map fun x =>
          { v with flexEGs := v.flexEGs.set n (x.init d (r.oneShotOsc && decide (r.flexAmpEG = some n)) delay w) }
    | .ampEG | .pitchEG | .filEG =>
      (r.eg k).bind fun d => (v.eg k).map fun x => v.putEg (x.reset d r.oneShotOsc delay v.velocity v.rate w) k
    | .lfo n =>
      match r.lfos[n]? with
      | none => some v
      | some d => (v.lfo k).map fun x => v.putLfo (x.init d delay w) k
    | .ampLFO | .pitchLFO | .filLFO =>
      (r.lfo k).bind fun d => (v.lfo k).map fun x => v.putLfo (x.init d delay w) k

/-- `release` of the source (sources/ADSREnvelope.cpp:85-97, sources/FlexEnvelope.cpp:50-68; an LFO has none). -/
def release (k : Key) (delay : Nat) (v : Voice W) : Option (Voice W) :=
  match k with
  | .flex n =>
    v.region.bind fun r =>
      if n < r.flexEGs.length then
        v.flexEGs[n]?.map fun x => { v with flexEGs := v.flexEGs.set n { x with env := FlexEG.release x.env delay } }
      else some v
  | .ampEG | .pitchEG | .filEG => (v.eg k).map fun x => v.putEg { x with env := Adsr.startRelease x.env delay } k
  | _ => some v

/-- `cancelRelease` of the source (sources/ADSREnvelope.cpp:99-111, sources/FlexEnvelope.cpp:70-88). -/
def cancel (k : Key) (w : W) (v : Voice W) : Option (Voice W) :=
  match k with
  | .flex n =>
    v.region.bind fun r =>
      if n < r.flexEGs.length then
        v.flexEGs[n]?.bind fun x => (x.cancel w).map fun y => { v with flexEGs := v.flexEGs.set n y }
      else some v
  | .ampEG | .pitchEG | .filEG => (v.eg k).map fun x => v.putEg { x with env := Adsr.cancelRelease x.env } k
  | _ => some v

/-- `generate` of the source (sources/ADSREnvelope.cpp:113-125, sources/FlexEnvelope.cpp:90-108, sources/LFO.cpp:67-107): what is
written to the buffer, if anything. -/
def generate (k : Key) (n : Nat) (w : W) (v : Voice W) : Option (Option (List ℚ) × Voice W) :=
  match k with
  | .flex i =>
    v.region.bind fun r =>
      if i < r.flexEGs.length then
        v.flexEGs[i]?.bind fun x => (x.block n w).map fun p => (some p.1, { v with flexEGs := v.flexEGs.set i p.2 })
      else some (none, v)
  | .ampEG | .pitchEG | .filEG => (v.eg k).bind fun x => (x.block n w).map fun p => (some p.1, v.putEg p.2 k)
  | .lfo i =>
    v.region.bind fun r =>
      if i < r.lfos.length then (v.lfo k).bind fun x => (x.block n w).map fun p => (some p.1, v.putLfo p.2 k)
      else some (some (List.replicate n 0), v)
  | .ampLFO | .pitchLFO | .filLFO => (v.lfo k).bind fun x => (x.block n w).map fun p => (some p.1, v.putLfo p.2 k)

/-! ### The matrix and the voices -/

/-- The loops over the sources of a region (ModMatrix.cpp:273-276, 286-289, 299-302). -/
def each (f : Key → Voice W → Option (Voice W)) : List Key → Voice W → Option (Voice W)
  | [], v => some v
  | k :: ks, v => (f k v).bind (each f ks)

/-- The part of `Voice::Impl::off` about the amplitude envelope (Voice.cpp:607-614): the release rate if it is set, and the end of
dynamic updates. The release that follows (620) is a call of its own. -/
def off (rate : Option ℚ) (v : Voice W) : Option (Voice W) :=
  v.region.map fun r =>
    if r.flexAmpEG = none then
      { v with egAmplitude := { v.egAmplitude with
          env := match rate with
            | none => v.egAmplitude.env
            | some q => { v.egAmplitude.env with releaseRate := q }
          dynamic := false } }
    else v

/-- `Voice::setSampleRate` (Voice.cpp:741, 748-758). -/
def setRate (sr : ℚ) (v : Voice W) : Voice W :=
  { v with
    rate := sr
    flexEGs := v.flexEGs.map fun x => { x with env := { x.env with period := 1 / sr } }
    lfoAmplitude := v.lfoAmplitude.map fun x => { x with rate := sr }
    lfoPitch := v.lfoPitch.map fun x => { x with rate := sr }
    lfoFilter := v.lfoFilter.map fun x => { x with rate := sr }
    lfos := v.lfos.map fun x => { x with rate := sr } }

/-- What reaches the sources: a voice starts (Voice.cpp:408-525), is released (Voice.cpp:596), has its release cancelled (Voice.cpp:696) or is
turned off, the sample rate changes, a source of a voice fills a buffer. -/
inductive Op (W : Type) where
  | start (id : Nat) (r : Region W) (velocity : ℚ) (delay : Nat) (w : W)
  | release (id : Nat) (delay : Nat)
  | cancel (id : Nat) (w : W)
  | off (id : Nat) (rate : Option ℚ)
  | rate (sr : ℚ)
  | generate (id : Nat) (k : Key) (n : Nat) (w : W)

/-- All the voices, by number. -/
abbrev State (W : Type) := Nat → Voice W

/-- One voice changes. -/
def one (s : State W) (id : Nat) (v : Option (Voice W)) : Option (State W) := v.map (Function.update s id)

/-- The effect of an operation; `generate` also gives what was written. -/
def step (s : State W) : Op W → Option (Option (List ℚ) × State W)
  | .start id r velocity delay w =>
    (one s id (each (fun k => init k delay w) r.sources { s id with region := some r, velocity := velocity })).map fun s => (none, s)
  | .release id delay =>
    (one s id ((s id).region.bind fun r => each (fun k => release k delay) r.sources (s id))).map fun s => (none, s)
  | .cancel id w =>
    (one s id ((s id).region.bind fun r => each (fun k => cancel k w) r.sources (s id))).map fun s => (none, s)
  | .off id rate => (one s id (off rate (s id))).map fun s => (none, s)
  | .rate sr => some (none, fun id => setRate sr (s id))
  | .generate id k n w => (generate k n w (s id)).map fun p => (p.1, Function.update s id p.2)

/-- A history: what each operation wrote, and the voices after. -/
def run : List (Op W) → State W → Option (List (Option (List ℚ)) × State W)
  | [], s => some ([], s)
  | op :: ops, s => (step s op).bind fun p => (run ops p.2).map fun q => (p.1 :: q.1, q.2)

end Verif.Sources
