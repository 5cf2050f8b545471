import Verif.Connections.Model
import Verif.Numbers.Model
import Verif.Loader.Model

/-!
Model of the modulation opcodes of a region: which opcode does what to the connections of the region, from its name and its
value (/repo/src/sfizz/Region.cpp:55-1778). `Verif.Connections` models what is then done to the connections.

Simplifications: names are the current ones (`Opcode::cleanUp` is modelled in `Verif.Cleanup`); an opcode is recognised by the
text which the code hashes (`Loader.seen`), not by the hash; numbers are exact; what opcodes do to anything else than
connections is not modelled, except the number of LFOs, which an opcode looks at.
-/
namespace Verif.Modulations
open Verif.Opcode
open Verif.ModMatrix (ModKey ModId)
open Verif.Connections (Op Param)

/-! ### Values -/

/-- `normalizeInput` (Defaults.h:88-113) for the flags of the modulation specifications. -/
def normalize (percent : Bool) (v : ℚ) : ℚ := if percent then v / 100 else v

/-- The modulation specifications (Defaults.cpp:40-135): default 0, permissive bounds (which change nothing: the bounds are given here
as those of the widest one), percent or not. -/
def modSpec : Spec ℚ :=
  { dflt := 0
    lo := -20000
    hi := 20000
    permissiveLower := true
    permissiveUpper := true }

/-- `opcode.read(spec)` (Opcode.h:122, Opcode.cpp:212-242). -/
def readMod (percent : Bool) (v : Text) : ℚ :=
  (((Numbers.readLeadingFloat v).bind (transformFloat modSpec false (normalize percent)))).getD (normalize percent 0)

/-- `Default::stepCC` (Defaults.cpp:73). -/
def stepSpec : Spec ℚ :=
  { dflt := 0
    lo := 0
    hi := 127
    permissiveUpper := true }

/-- `opcode.read(Default::stepCC)`. -/
def readStep (v : Text) : ℚ := (((Numbers.readLeadingFloat v).bind (transformFloat stepSpec false id))).getD 0

/-- `Default::curveCC` (Defaults.cpp:74). -/
def curveSpec : Spec Int := { dflt := 0, lo := 0, hi := 255 }

/-- `Default::smoothCC` (Defaults.cpp:72). -/
def smoothSpec : Spec Int := { dflt := 0, lo := 0, hi := 100, permissiveUpper := true }

/-- `opcode.read` of an unsigned integer; these specifications do not read notes, so that something is always read. -/
def readNat (tmax : Int) (spec : Spec Int) (v : Text) : Nat := ((readIntOr 0 tmax spec v).getD 0).toNat

/-- What `processGenericCc` writes (Region.cpp:1717, 1749-1768); nothing for an opcode which is not one of a controller. -/
def ccParam (percent : Bool) (name value : Text) : Option Param :=
  match identifyCategory (trim name) with
  | .normal => none
  | .onCc => some (.on (readMod percent value))
  | .curveCc => some (.curve (readNat 255 curveSpec value))
  | .stepCc => some (.step (normalize percent (readStep value)))
  | .smoothCc => some (.smooth (readNat 65535 smoothSpec value))

/-- `processGenericCc(opcode, spec, target)` (Region.cpp:1715-1778). -/
def genericCc (percent : Bool) (name value : Text) (target : ModKey) : List Op :=
  match ccParam percent name value, (Loader.seen name).2.getLast? with
  | some p, some n => [.cc n target p]
  | _, _ => []

/-- `case_any_ccN(x)` (Region.cpp:49-53). -/
def anyCc (x letters : Text) : Bool :=
  decide (letters = x ++ "_oncc&".toList ∨ letters = x ++ "_curvecc&".toList ∨ letters = x ++ "_stepcc&".toList ∨
    letters = x ++ "_smoothcc&".toList)

/-! ### Controllers of parameters -/

/-- An entry: the letters, the target, whether it has a number, whether values are percents. -/
structure Entry where
  letters : Text
  id : ModId
  numbered : Bool := false
  percent : Bool := false
deriving DecidableEq

/-- The cases with `case_any_ccN` of the switch of `parseOpcode` (Region.cpp:167-834, one line each, the line of the case at the
end). -/
def direct : List Entry :=
  [⟨"oscillator_detune".toList, .OscillatorDetune, false, false⟩,       -- 167
   ⟨"oscillator_mod_depth".toList, .OscillatorModDepth, false, true⟩,   -- 174
   ⟨"volume".toList, .Volume, false, false⟩,                            -- 423
   ⟨"amplitude".toList, .Amplitude, false, true⟩,                       -- 429
   ⟨"pan".toList, .Pan, false, true⟩,                                   -- 435
   ⟨"position".toList, .Position, false, true⟩,                         -- 441
   ⟨"width".toList, .Width, false, true⟩,                               -- 447
   ⟨"cutoff&".toList, .FilCutoff, true, false⟩,                         -- 592
   ⟨"resonance&".toList, .FilResonance, true, false⟩,                   -- 601
   ⟨"fil&_gain".toList, .FilGain, true, false⟩,                         -- 698
   ⟨"eq&_bw".toList, .EqBandwidth, true, false⟩,                        -- 726
   ⟨"eq&_freq".toList, .EqFrequency, true, false⟩,                      -- 743
   ⟨"eq&_gain".toList, .EqGain, true, false⟩,                           -- 768
   ⟨"pitch".toList, .Pitch, false, false⟩]                              -- 833

/-- The key of a target; the number is counted from 1, `extendIfNecessary` refuses 0 (Region.cpp:23-36). -/
def targetKey (region : Nat) (id : ModId) (numbered : Bool) (number : Option Nat) : Option ModKey :=
  if numbered then
    match number with
    | none => none
    | some 0 => none
    | some n => some (Connections.numbered id region n)
  else some ⟨id, some region, 0, 0⟩

/-! ### Envelopes and LFOs of the first version -/

/-- A modulator which has its own name: the source, the parameter, the depth and frequency targets. -/
structure Classic where
  name : Text
  source : ModId
  target : ModId
  depth : ModId
  freq : ModId
  isLFO : Bool
deriving DecidableEq

/-- Region.cpp:867-919, 958-996, 1183-1222. (Envelopes have no frequency: that field is then not used. `ampeg` makes no connection.) -/
def classics : List Classic :=
  [⟨"pitcheg_".toList, .PitchEG, .Pitch, .PitchEGDepth, .PitchEGDepth, false⟩,
   ⟨"fileg_".toList, .FilEG, .FilCutoff, .FilEGDepth, .FilEGDepth, false⟩,
   ⟨"amplfo_".toList, .AmpLFO, .Volume, .AmpLFODepth, .AmpLFOFrequency, true⟩,
   ⟨"pitchlfo_".toList, .PitchLFO, .Pitch, .PitchLFODepth, .PitchLFOFrequency, true⟩,
   ⟨"fillfo_".toList, .FilLFO, .FilCutoff, .FilLFODepth, .FilLFOFrequency, true⟩]

/-- The keys of a modulator (`createNXYZ(…, id)`). -/
def key (region : Nat) (id : ModId) : ModKey := ⟨id, some region, 0, 0⟩

/-- `createNXYZ(ModId::ChannelAftertouch)`. -/
def channelAftertouch : ModKey := ⟨.ChannelAftertouch, none, 0, 0⟩

/-- The other opcodes of the envelopes (Region.cpp:1089-1127, 1179-1181). -/
def egPlain : List Text :=
  ["attack", "decay", "delay", "hold", "release", "start", "sustain", "veltoattack", "veltodecay", "veltodelay", "veltohold",
   "veltorelease", "veltosustain", "dynamic"].map String.toList

/-- The ones with the number of a controller (Region.cpp:1128-1177), refused when it is 512 or more (1066-1067). -/
def egCC : List Text :=
  ["attack_oncc&", "attack_curvecc&", "decay_oncc&", "decay_curvecc&", "delay_oncc&", "delay_curvecc&", "hold_oncc&",
   "hold_curvecc&", "release_oncc&", "release_curvecc&", "start_oncc&", "start_curvecc&", "sustain_oncc&", "sustain_curvecc&"].map
    String.toList

/-- `parseEGOpcode` (Region.cpp:1074-1228) for `pitcheg` and `fileg`; `none` when it refuses the opcode. -/
def classicEG (region : Nat) (m : Classic) (name value : Text) : Option (List Op) :=
  if (Loader.seen name).1 = m.name ++ "depth".toList then some [.depth (key region m.source) (key region m.target) (readMod false value)]
  else if (Loader.seen name).1 = m.name ++ "veltodepth".toList then some [.vel (key region m.source) (key region m.target) (readMod false value)]
  else if anyCc (m.name ++ "depth".toList) (Loader.seen name).1 then
    some (.depthMod (key region m.source) (key region m.target) (key region m.depth) ::
      genericCc false name value (key region m.depth))
  else if (Loader.seen name).1 ∈ egPlain.map (m.name ++ ·) then some []
  else if (Loader.seen name).1 ∈ egCC.map (m.name ++ ·) then
    match (Loader.seen name).2.getLast? with
    | none => none
    | some n => if n ≥ 512 then none else some []
  else none

/-- `parseLFOOpcode` (Region.cpp:945-1046); `none` when it refuses the opcode. -/
def classicLFO (region : Nat) (m : Classic) (name value : Text) : Option (List Op) :=
  if (Loader.seen name).1 ∈ ["delay".toList, "fade".toList, "freq".toList, "wave".toList].map (m.name ++ ·) then some []
  else if (Loader.seen name).1 = m.name ++ "depth".toList then some [.depth (key region m.source) (key region m.target) (readMod false value)]
  else if anyCc (m.name ++ "depth".toList) (Loader.seen name).1 then
    some (.depthMod (key region m.source) (key region m.target) (key region m.depth) ::
      genericCc false name value (key region m.depth))
  else if (Loader.seen name).1 = m.name ++ "depthchanaft".toList then
    some [.depthMod (key region m.source) (key region m.target) (key region m.depth),
      .depth channelAftertouch (key region m.depth) (readMod false value)]
  else if (Loader.seen name).1 = m.name ++ "depthpolyaft".toList then
    some [.depthMod (key region m.source) (key region m.target) (key region m.depth),
      .depth (key region .PolyAftertouch) (key region m.depth) (readMod false value)]
  else if anyCc (m.name ++ "freq".toList) (Loader.seen name).1 then some (genericCc false name value (key region m.freq))
  else if (Loader.seen name).1 = m.name ++ "freqchanaft".toList then some [.depth channelAftertouch (key region m.freq) (readMod false value)]
  else if (Loader.seen name).1 = m.name ++ "freqpolyaft".toList then
    some [.depth (key region .PolyAftertouch) (key region m.freq) (readMod false value)]
  else none

/-- An accepted opcode also makes the connection (Region.cpp:872-919). -/
def classic (region : Nat) (m : Classic) (name value : Text) : List Op :=
  match (if m.isLFO then classicLFO region m name value else classicEG region m name value) with
  | none => []
  | some ops => ops ++ [.make (key region m.source) (key region m.target)]

/-! ### LFOs and envelopes with a number -/

/-- The targets of `parseLFOOpcodeV2` (Region.cpp:1387-1483): each is a `case` and the `case_any_ccN` after it. -/
def lfoTargets : List Entry :=
  [⟨"lfo&_amplitude".toList, .Amplitude, false, true⟩,       -- 1387
   ⟨"lfo&_pan".toList, .Pan, false, true⟩,                   -- 1393
   ⟨"lfo&_width".toList, .Width, false, true⟩,               -- 1399
   ⟨"lfo&_position".toList, .Position, false, true⟩,         -- 1405
   ⟨"lfo&_pitch".toList, .Pitch, false, false⟩,              -- 1411
   ⟨"lfo&_volume".toList, .Volume, false, false⟩,            -- 1417
   ⟨"lfo&_cutoff&".toList, .FilCutoff, true, false⟩,         -- 1423
   ⟨"lfo&_resonance&".toList, .FilResonance, true, false⟩,   -- 1433
   ⟨"lfo&_fil&gain".toList, .FilGain, true, false⟩,          -- 1443
   ⟨"lfo&_eq&gain".toList, .EqGain, true, false⟩,            -- 1453
   ⟨"lfo&_eq&freq".toList, .EqFrequency, true, false⟩,       -- 1463
   ⟨"lfo&_eq&bw".toList, .EqBandwidth, true, false⟩]         -- 1473

/-- The targets of `parseEGOpcodeV2` (Region.cpp:1580-1676), without `eg&_freq_lfo&`. -/
def egTargets : List Entry :=
  [⟨"eg&_amplitude".toList, .Amplitude, false, true⟩,
   ⟨"eg&_pan".toList, .Pan, false, true⟩,
   ⟨"eg&_width".toList, .Width, false, true⟩,
   ⟨"eg&_position".toList, .Position, false, true⟩,
   ⟨"eg&_pitch".toList, .Pitch, false, false⟩,
   ⟨"eg&_volume".toList, .Volume, false, false⟩,
   ⟨"eg&_cutoff&".toList, .FilCutoff, true, false⟩,
   ⟨"eg&_resonance&".toList, .FilResonance, true, false⟩,
   ⟨"eg&_fil&gain".toList, .FilGain, true, false⟩,
   ⟨"eg&_eq&gain".toList, .EqGain, true, false⟩,
   ⟨"eg&_eq&freq".toList, .EqFrequency, true, false⟩,
   ⟨"eg&_eq&bw".toList, .EqBandwidth, true, false⟩]

/-- The settings of an LFO which controllers modulate (Region.cpp:1314, 1320, 1326). -/
def lfoOwn : List (Text × ModId) :=
  [("lfo&_freq".toList, .LFOFrequency), ("lfo&_beats".toList, .LFOBeats), ("lfo&_phase".toList, .LFOPhase)]

/-- `LFO_target_cc`, `EG_target_cc` (Region.cpp:1286-1294, 1513-1521); the key exists for every target used
(`depth_key_exists`). -/
def targetCc (percent : Bool) (source target : ModKey) (name value : Text) : List Op :=
  match ModMatrix.getSourceDepthKey source target with
  | none => []
  | some depth => .depthMod source target depth :: genericCc percent name value depth

/-- The cases for the targets. -/
def withNumber (table : List Entry) (region : Nat) (source : ModKey) (name value : Text) : List Op :=
  let s := Loader.seen name
  match table.find? (fun e => decide (s.1 = e.letters)) with
  | some e =>
    match targetKey region e.id e.numbered s.2[1]? with
    | none => []
    | some t => [.depth source t (readMod e.percent value)]
  | none =>
    match table.find? (fun e => anyCc e.letters s.1) with
    | some e =>
      match targetKey region e.id e.numbered s.2[1]? with
      | none => []
      | some t => targetCc e.percent source t name value
    | none => []

/-- `parseLFOOpcodeV2` (Region.cpp:1246-1489). -/
def lfoV2 (region : Nat) (name value : Text) : List Op :=
  match (Loader.seen name).2.head? with
  | none => []
  | some 0 => []
  | some (k + 1) =>
    match lfoOwn.find? (fun e => anyCc e.1 (Loader.seen name).1) with
    | some e => genericCc false name value ⟨e.2, some region, k % 256, 0⟩
    | none => withNumber lfoTargets region ⟨.LFO, some region, k % 256, 0⟩ name value

/-- `eg&_freq_lfo&` (Region.cpp:1694-1704): `lfos.size() < n - 1` with `n - 1` of type `int` converted to `size_t`. -/
def freqLFO (region lfos : Nat) (number : Option Nat) : Option ModKey :=
  match number with
  | none => none
  | some 0 => none
  | some n => if lfos < n - 1 then none else some (Connections.numbered .LFOFrequency region n)

/-- `parseEGOpcodeV2` (Region.cpp:1491-1713). -/
def egV2 (region lfos : Nat) (name value : Text) : List Op :=
  let s := Loader.seen name
  match s.2.head? with
  | none => []
  | some 0 => []
  | some (k + 1) =>
    let source : ModKey := ⟨.Envelope, some region, k % 256, 0⟩
    if s.1 = "eg&_freq_lfo&".toList then
      match freqLFO region lfos s.2[1]? with
      | none => []
      | some t => [.depth source t (readMod false value)]
    else if anyCc "eg&_freq_lfo&".toList s.1 then
      match freqLFO region lfos s.2[1]? with
      | none => []
      | some t => targetCc false source t name value
    else withNumber egTargets region source name value

/-! ### All opcodes -/

/-- What an opcode does to the connections of its region (`parseOpcode`, Region.cpp:55-943): the switch, then the prefixes in
their order. `lfos` is `lfos.size()`. -/
def effects (region lfos : Nat) (name value : Text) : List Op :=
  let s := Loader.seen name
  match direct.find? (fun e => anyCc e.letters s.1) with
  | some e =>
    match targetKey region e.id e.numbered s.2.head? with
    | none => []
    | some t => genericCc e.percent name value t
  | none =>
    if s.1 = "cutoff&_chanaft".toList then
      match targetKey region .FilCutoff true s.2.head? with
      | none => []
      | some t => [.depth channelAftertouch t (readMod false value)]
    else if s.1 = "cutoff&_polyaft".toList then
      match targetKey region .FilCutoff true s.2.head? with
      | none => []
      | some t => [.depth (key region .PolyAftertouch) t (readMod false value)]
    else
      match classics.find? (fun m => m.name.isPrefixOf (trim name)) with
      | some m => classic region m name value
      | none =>
        if "lfo&_".toList.isPrefixOf (letterOnlyName (trim name)) then lfoV2 region name value
        else if "eg&_".toList.isPrefixOf (letterOnlyName (trim name)) then egV2 region lfos name value
        else []

/-- The number of LFOs after an opcode (`extendIfNecessary`, Region.cpp:1246-1253). -/
def lfosAfter (lfos : Nat) (name : Text) : Nat :=
  if "lfo&_".toList.isPrefixOf (letterOnlyName (trim name)) then max lfos ((Loader.seen name).2.headD 0) else lfos

/-- What the opcodes of a region do to its connections, in order. -/
def allEffects (region : Nat) : Nat → List Loader.Op → List Op
  | _, [] => []
  | lfos, o :: os => effects region lfos o.name o.value ++ allEffects region (lfosAfter lfos o.name) os

end Verif.Modulations
