import Mathlib.Algebra.Order.Field.Rat
import Mathlib.Algebra.Module.Prod
import Mathlib.Algebra.BigOperators.Group.List.Basic

/-!
Model of the way voices reach the outputs: effect buses (`EffectBus`, /repo/src/sfizz/Effects.cpp:89-192, Effects.h:88-190),
the mixing part of `Synth::renderBlock` (/repo/src/sfizz/Synth.cpp:1102-1105, 1151-1220), and the setup of the buses:
`addEffectBusesIfNecessary`, `initEffectBuses`, `clear`, `handleEffectOpcodes`, `finalizeSfzLoad`
(Synth.cpp:241-260, 290, 315, 477-553, 886, 954), `Region::getGainToEffectBus` (/repo/src/sfizz/Region.cpp:1840-1846).

Samples are exact rationals. A stereo frame is a pair; a buffer is a function of the frame, of which a block of `n` frames uses
those below `n`. What a voice renders is a parameter (`Voice::renderBlock` clears its buffer first, Voice.cpp:780), and so is
what an effect does to the frames it is given. Accesses outside of the tables of buses or of the host's channels give `none`.
The early return without temporary buffers (Synth.cpp:1132-1135) is covered by C63.
-/
namespace Verif.Mixer

/-- A stereo buffer. -/
abbrev Stereo := Nat → ℚ × ℚ

/-- The first `n` frames of a buffer. -/
def frames (n : Nat) (b : Stereo) : List (ℚ × ℚ) := (List.range n).map b

/-- Writing `n` frames. -/
def store (n : Nat) (out : List (ℚ × ℚ)) (b : Stereo) : Stereo := fun t => if t < n then out.getD t 0 else b t

/-- `fill(0.0f)` of the first `n` frames. -/
def clearFirst (n : Nat) (b : Stereo) : Stereo := fun t => if t < n then 0 else b t

/-- `multiplyAdd1` (SIMDHelpers.h) on both channels. -/
def multiplyAdd (n : Nat) (gain : ℚ) (input : Stereo) (b : Stereo) : Stereo :=
  fun t => if t < n then b t + gain • input t else b t

/-- `EffectBus` (Effects.h:88-190); `E` are the effects with their state. -/
structure Bus (E : Type) where
  effects : List E := []
  inputs : Stereo := fun _ => 0
  outputs : Stereo := fun _ => 0
  toMain : ℚ := 0
  toMix : ℚ := 0

/-- `hasNonZeroOutput` (Effects.h:113). -/
def Bus.nonZero {E : Type} (b : Bus E) : Bool := decide (b.toMain ≠ 0) || decide (b.toMix ≠ 0)

/-- `clearInputs` (Effects.cpp:111-115). -/
def Bus.clearInputs {E : Type} (n : Nat) (b : Bus E) : Bus E :=
  { b with inputs := clearFirst n b.inputs, outputs := clearFirst n b.outputs }

/-- `addToInputs` (Effects.cpp:117-126). -/
def Bus.addToInputs {E : Type} (n : Nat) (gain : ℚ) (x : Stereo) (b : Bus E) : Bus E :=
  if gain = 0 then b else { b with inputs := multiplyAdd n gain x b.inputs }

/-- The effects after the first one, on the output buffer in place (Effects.cpp:159-161). -/
def runInPlace {E : Type} (run : E → List (ℚ × ℚ) → List (ℚ × ℚ) × E) (n : Nat) : List E → Stereo → List E × Stereo
  | [], out => ([], out)
  | e :: es, out =>
    let r := run e (frames n out)
    let rest := runInPlace run n es (store n r.1 out)
    (r.2 :: rest.1, rest.2)

/-- `EffectBus::process` (Effects.cpp:151-166). -/
def Bus.process {E : Type} (run : E → List (ℚ × ℚ) → List (ℚ × ℚ) × E) (n : Nat) (b : Bus E) : Bus E :=
  match b.effects with
  | e :: es =>
    if b.nonZero then
      let r := run e (frames n b.inputs)
      let rest := runInPlace run n es (store n r.1 b.outputs)
      { b with effects := r.2 :: rest.1, outputs := rest.2 }
    else { b with outputs := store n (frames n b.inputs) b.outputs }
  | [] => { b with outputs := store n (frames n b.inputs) b.outputs }

/-- `effectBuses_` (SynthPrivate.h:316-318): by output, then by bus; a bus may be absent. -/
abbrev Buses (E : Type) := List (List (Option (Bus E)))

/-- What a voice brings to the mix: the output and the bus gains of its region (`gainToEffect`, Region.h) and the signal it renders. -/
structure Voice where
  output : Nat := 0
  gains : List ℚ := [1]
  signal : Stereo

/-- `getGainToEffectBus` (Region.cpp:1840-1846). -/
def Voice.gain (v : Voice) (k : Nat) : ℚ := v.gains.getD k 0

/-- Clearing the buses (Synth.cpp:1153-1158). -/
def clearBuses {E : Type} (n numOutputs : Nat) (bs : Buses E) : Option (Buses E) :=
  if numOutputs ≤ bs.length then
    some (bs.mapIdx fun i l => if i < numOutputs then l.map (Option.map (Bus.clearInputs n)) else l)
  else none

/-- A voice is rendered and added to the buses of its output (Synth.cpp:1172-1180). -/
def addVoice {E : Type} (n : Nat) (v : Voice) (bs : Buses E) : Option (Buses E) :=
  match bs[v.output]? with
  | none => none
  | some l => some (bs.set v.output (l.mapIdx fun k b => b.map (Bus.addToInputs n (v.gain k) v.signal)))

/-- All the voices that are not free (Synth.cpp:1164-1190). -/
def addVoices {E : Type} (n : Nat) : List Voice → Buses E → Option (Buses E)
  | [], bs => some bs
  | v :: vs, bs => do addVoices n vs (← addVoice n v bs)

/-- Processing the buses of an output and mixing them into the main and the mix signal (Synth.cpp:1204-1209;
`mixOutputsTo`, Effects.cpp:168-178). -/
def mixBuses {E : Type} (run : E → List (ℚ × ℚ) → List (ℚ × ℚ) × E) (n : Nat) :
    List (Option (Bus E)) → Stereo → Stereo → List (Option (Bus E)) × Stereo × Stereo
  | [], main, mix => ([], main, mix)
  | none :: l, main, mix =>
    let r := mixBuses run n l main mix
    (none :: r.1, r.2)
  | some b :: l, main, mix =>
    let b' := b.process run n
    let r := mixBuses run n l (multiplyAdd n b'.toMain b'.outputs main) (multiplyAdd n b'.toMix b'.outputs mix)
    (some b' :: r.1, r.2)

/-- The channels of the host. -/
abbrev Host := Nat → Nat → ℚ

/-- `getStereoSpan` (AudioSpan.h:466-470). -/
def pair (h : Host) (start : Nat) : Stereo := fun t => (h start t, h (start + 1) t)

/-- Writing through the stereo span. -/
def putPair (h : Host) (start : Nat) (s : Stereo) : Host :=
  fun c t => if c = start then (s t).1 else if c = start + 1 then (s t).2 else h c t

/-- `outputStart` (Synth.cpp:1201). -/
def outputStart (channels i : Nat) : Nat := if channels = 0 then 0 else (2 * i) % channels

/-- The loop over the outputs (Synth.cpp:1199-1216), from output `i` on, `k` outputs left. -/
def mixOutputs {E : Type} (run : E → List (ℚ × ℚ) → List (ℚ × ℚ) × E) (n channels : Nat) :
    Nat → Nat → Buses E → Host → Option (Buses E × Host)
  | _, 0, bs, h => some (bs, h)
  | i, k + 1, bs, h =>
    if outputStart channels i + 1 < channels then
      match bs[i]? with
      | none => none
      | some l =>
        let r := mixBuses run n l (pair h (outputStart channels i)) (fun _ => 0)
        mixOutputs run n channels (i + 1) k (bs.set i r.1) (putPair h (outputStart channels i) (multiplyAdd n 1 r.2.2 r.2.1))
    else none

/-- The mixing part of `renderBlock` (Synth.cpp:1102-1105, 1151-1220) for a host buffer of `n` frames; `volume` is
`db2mag(volume_)`. -/
def renderBlock {E : Type} (run : E → List (ℚ × ℚ) → List (ℚ × ℚ) × E) (n channels numOutputs : Nat) (volume : ℚ)
    (voices : List Voice) (bs : Buses E) : Option (Buses E × Host) := do
  let bs ← clearBuses n numOutputs bs
  let bs ← addVoices n voices bs
  let r ← mixOutputs run n channels 0 numOutputs bs (fun _ _ => 0)
  return (r.1, fun c t => volume * r.2 c t)

/-! ### Setup of the buses -/

/-- The engine as far as outputs are concerned. -/
structure Setup (E : Type) where
  numOutputs : Nat := 1
  buses : Buses E := []

/-- `addEffectBusesIfNecessary` (Synth.cpp:241-254). -/
def addBuses {E : Type} (output : Nat) (bs : Buses E) : Buses E :=
  bs ++ List.replicate (output + 1 - bs.length) [some { toMain := 1 }]

/-- `clear` (Synth.cpp:290, 315; `initEffectBuses`, Synth.cpp:256-260). -/
def cleared {E : Type} : Setup E := { numOutputs := 1, buses := addBuses 0 [] }

/-- `getOrCreateBus` followed by a change of the bus (Synth.cpp:493-504). -/
def withBus {E : Type} (output index : Nat) (f : Bus E → Bus E) (bs : Buses E) : Buses E :=
  bs.modify output fun l =>
    (l ++ List.replicate (index + 1 - l.length) none).modify index fun b => some (f (b.getD {}))

/-- The opcodes of an `<effect>` header that set gains, in the order written (Synth.cpp:506-536). Bus numbers outside of 1 to 256 are
ignored. -/
inductive GainOp
  | directToMain (g : ℚ)
  | toMain (bus : Nat) (g : ℚ)
  | toMix (bus : Nat) (g : ℚ)

/-- `config::maxEffectBuses` (Config.h:105). -/
def maxEffectBuses : Nat := 256

/-- One gain opcode (Synth.cpp:514-534). -/
def gainOp {E : Type} (output : Nat) (bs : Buses E) : GainOp → Buses E
  | .directToMain g => withBus output 0 (fun b => { b with toMain := g }) bs
  | .toMain k g => if k < 1 ∨ k > maxEffectBuses then bs else withBus output k (fun b => { b with toMain := g }) bs
  | .toMix k g => if k < 1 ∨ k > maxEffectBuses then bs else withBus output k (fun b => { b with toMix := g }) bs

/-- `handleEffectOpcodes` (Synth.cpp:477-553): `bus` is the number of the bus named, 0 for `main`, none for an unsupported name;
`fx` is the effect made from the members. -/
def effectHeader {E : Type} (output : Nat) (ops : List GainOp) (bus : Option Nat) (fx : E) (s : Setup E) : Setup E :=
  let bs := ops.foldl (gainOp output) (addBuses output s.buses)
  match bus with
  | some k => if k ≤ maxEffectBuses then { s with buses := withBus output k (fun b => { b with effects := b.effects ++ [fx] }) bs } else { s with buses := bs }
  | none => { s with buses := bs }

/-- The part of `finalizeSfzLoad` that concerns outputs (Synth.cpp:886, 954): `outputs` are the outputs of the regions kept. -/
def finalize {E : Type} (outputs : List Nat) (s : Setup E) : Setup E :=
  let k := outputs.foldl (fun m o => max (o + 1) m) s.numOutputs
  { numOutputs := k, buses := addBuses k s.buses }

end Verif.Mixer
