import Verif.Loader.Model

/-!
The part of `Region::parseOpcode` (`src/sfizz/Region.cpp`) that concerns keys, key-switches, groups and polyphony,
controllers, and the numbers of LFOs and flexible envelopes; `Region::offsetAllKeys`.

All the other opcodes are a parameter: `other o` tells whether the region accepts `o`; they have no effect on the members
modelled here.
-/
namespace Verif.Loader
open Verif.Opcode Verif.Range

/-- The modelled members of `Region` (Region.h:265-289, 298-299, 328-329, 353-354, 387). `ccs` collects the controllers under
which something is stored in one of the controller tables or connections of the region. -/
structure Region where
  id : Nat
  path : Text
  keys : R Nat := ⟨0, 127⟩
  onNote : Bool := true
  keycenter : Nat := 60
  fromSample : Bool := false
  swLast : Option Nat := none
  swLastRange : Option (R Nat) := none
  swDown : Option Nat := none
  swUp : Option Nat := none
  swPrevious : Option Nat := none
  swDefault : Option Nat := none
  usesSwitches : Bool := false
  usesPrevious : Bool := false
  xfin : R Nat := ⟨0, 0⟩
  xfout : R Nat := ⟨127, 127⟩
  group : Int := 0
  polyphony : Nat := 256
  lfos : Nat := 0
  envelopes : Nat := 0
  lfoFrequency : List (Nat × Nat) := []
  ccs : List Nat := []
  deriving DecidableEq, Repr

/-- `Default::loKey` (Defaults.cpp:49). -/
def loKeySpec : Spec Int := { dflt := 0, lo := 0, hi := 127, canBeNote := true }
/-- `Default::hiKey` (Defaults.cpp:50). -/
def hiKeySpec : Spec Int := { dflt := 127, lo := 0, hi := 127, canBeNote := true }

/-- The opcodes about keys, key-switches, groups. -/
inductive Kind where
  | lokey | hikey | key | swLast | swLolast | swHilast | swDown | swUp | swPrevious | swDefault
  | xfinLokey | xfinHikey | xfoutLokey | xfoutHikey | keycenter | group | polyphony
  deriving DecidableEq, Repr

/-- Their names. -/
def kinds : List (Text × Kind) := [
  ("lokey".toList, .lokey), ("hikey".toList, .hikey), ("key".toList, .key), ("sw_last".toList, .swLast),
  ("sw_lolast".toList, .swLolast), ("sw_hilast".toList, .swHilast), ("sw_down".toList, .swDown), ("sw_up".toList, .swUp),
  ("sw_previous".toList, .swPrevious), ("sw_default".toList, .swDefault), ("xfin_lokey".toList, .xfinLokey),
  ("xfin_hikey".toList, .xfinHikey), ("xfout_lokey".toList, .xfoutLokey), ("xfout_hikey".toList, .xfoutHikey),
  ("pitch_keycenter".toList, .keycenter), ("group".toList, .group), ("polyphony".toList, .polyphony)]

/-- Setting one end of `sw_lolast`/`sw_hilast` (Region.cpp:290-313). -/
def setLast (r : Region) (f : R Nat → R Nat) (v : Nat) : Region :=
  { r with
    swLastRange := some (match r.swLastRange with | none => ⟨v, v⟩ | some x => f x),
    usesSwitches := true,
    swLast := none }

/-- The cases of `parseOpcode` for these opcodes (Region.cpp:183-185, 199-201, 212-232, 284-327, 483-494, 798-805, 859-861). -/
def parseKind (r : Region) (v : Text) : Kind → Option Region
  | .lokey => (readKey loKeySpec v).map (fun k => { r with keys := setStart false r.keys k })
  | .hikey => (readKey? hiKeySpec v).map (fun k => { r with onNote := k.isSome, keys := setEnd false r.keys (k.getD 127) })
  | .key => (readKey? keySpec v).map (fun k =>
      { r with onNote := k.isSome, keys := setEnd false (setStart false r.keys (k.getD 60)) (k.getD 60), keycenter := k.getD 60 })
  | .swLast =>
    if r.swLastRange.isSome then some r
    else (readKey? keySpec v).map (fun k => { r with swLast := k, usesSwitches := k.isSome })
  | .swLolast => (readKey keySpec v).map (fun k => setLast r (fun x => setStart false x k) k)
  | .swHilast => (readKey keySpec v).map (fun k => setLast r (fun x => setEnd false x k) k)
  | .swDown => (readKey? keySpec v).map (fun k => { r with swDown := k, usesSwitches := k.isSome })
  | .swUp => (readKey? keySpec v).map (fun k => { r with swUp := k })
  | .swPrevious => (readKey? keySpec v).map (fun k => { r with swPrevious := k, usesPrevious := k.isSome })
  | .swDefault => (readKey keySpec v).map (fun k => { r with swDefault := some k })
  | .xfinLokey => (readKey loKeySpec v).map (fun k => { r with xfin := setStart false r.xfin k })
  | .xfinHikey => (readKey loKeySpec v).map (fun k => { r with xfin := setEnd false r.xfin k })
  | .xfoutLokey => (readKey hiKeySpec v).map (fun k => { r with xfout := setStart false r.xfout k })
  | .xfoutHikey => (readKey hiKeySpec v).map (fun k => { r with xfout := setEnd false r.xfout k })
  | .keycenter =>
    if v = "sample".toList then some { r with fromSample := true }
    else (readKey keySpec v).map (fun k => { r with fromSample := false, keycenter := k })
  | .group => (readGroup v).map (fun g => { r with group := g })
  | .polyphony => (readPolyphony v).map (fun n => { r with polyphony := n })

/-- The opcodes whose controller number is refused with `>` (Region.cpp:86-87, 101-102, 110-111, 132-133, 138-139, 1332-1333,
1341-1342). -/
def looseNames : List Text := [
  "delay_oncc&".toList, "offset_oncc&".toList, "end_oncc&".toList, "loop_start_oncc&".toList, "loop_end_oncc&".toList,
  "lfo&_delay_oncc&".toList, "lfo&_fade_oncc&".toList]

/-- The opcodes whose controller number is refused with `>=` (Region.cpp:253-276, 387-413, 459-467, 513-536, 656-677, 812-820,
1066, 1128-1182, 1550-1570). -/
def strictNames : List Text := [
  "locc&".toList, "hicc&".toList, "lohdcc&".toList, "hihdcc&".toList, "start_locc&".toList, "start_hicc&".toList,
  "start_lohdcc&".toList, "start_hihdcc&".toList, "amp_veltrack_oncc&".toList, "amp_veltrack_curvecc&".toList,
  "xfin_locc&".toList, "xfin_hicc&".toList, "xfout_locc&".toList, "xfout_hicc&".toList, "fil&_veltrack_oncc&".toList,
  "fil&_veltrack_curvecc&".toList, "pitch_veltrack_oncc&".toList, "pitch_veltrack_curvecc&".toList,
  "ampeg_attack_oncc&".toList, "pitcheg_attack_oncc&".toList, "fileg_attack_oncc&".toList,
  "ampeg_attack_curvecc&".toList, "pitcheg_attack_curvecc&".toList, "fileg_attack_curvecc&".toList,
  "ampeg_decay_oncc&".toList, "pitcheg_decay_oncc&".toList, "fileg_decay_oncc&".toList, "ampeg_decay_curvecc&".toList,
  "pitcheg_decay_curvecc&".toList, "fileg_decay_curvecc&".toList, "ampeg_delay_oncc&".toList,
  "pitcheg_delay_oncc&".toList, "fileg_delay_oncc&".toList, "ampeg_delay_curvecc&".toList,
  "pitcheg_delay_curvecc&".toList, "fileg_delay_curvecc&".toList, "ampeg_hold_oncc&".toList,
  "pitcheg_hold_oncc&".toList, "fileg_hold_oncc&".toList, "ampeg_hold_curvecc&".toList, "pitcheg_hold_curvecc&".toList,
  "fileg_hold_curvecc&".toList, "ampeg_release_oncc&".toList, "pitcheg_release_oncc&".toList,
  "fileg_release_oncc&".toList, "ampeg_release_curvecc&".toList, "pitcheg_release_curvecc&".toList,
  "fileg_release_curvecc&".toList, "ampeg_start_oncc&".toList, "pitcheg_start_oncc&".toList,
  "fileg_start_oncc&".toList, "ampeg_start_curvecc&".toList, "pitcheg_start_curvecc&".toList,
  "fileg_start_curvecc&".toList, "ampeg_sustain_oncc&".toList, "pitcheg_sustain_oncc&".toList,
  "fileg_sustain_oncc&".toList, "ampeg_sustain_curvecc&".toList, "pitcheg_sustain_curvecc&".toList,
  "fileg_sustain_curvecc&".toList, "eg&_time&_oncc&".toList, "eg&_level&_oncc&".toList]

/-- The opcodes modulated by controllers: `case_any_ccN` of these names (Region.cpp:49-53; uses at 167-834, 1002-1022,
1211-1221, 1314-1481, 1587-1704), all handled by `processGenericCc` (1715-1778). -/
def genericNames : List Text := [
  "oscillator_detune".toList, "oscillator_mod_depth".toList, "volume".toList, "amplitude".toList, "pan".toList,
  "position".toList, "width".toList, "cutoff&".toList, "resonance&".toList, "fil&_gain".toList, "eq&_bw".toList,
  "eq&_freq".toList, "eq&_gain".toList, "pitch".toList, "amplfo_depth".toList, "pitchlfo_depth".toList,
  "fillfo_depth".toList, "amplfo_freq".toList, "pitchlfo_freq".toList, "fillfo_freq".toList, "pitcheg_depth".toList,
  "fileg_depth".toList, "lfo&_freq".toList, "lfo&_beats".toList, "lfo&_phase".toList, "lfo&_amplitude".toList,
  "lfo&_pan".toList, "lfo&_width".toList, "lfo&_position".toList, "lfo&_pitch".toList, "lfo&_volume".toList,
  "lfo&_cutoff&".toList, "lfo&_resonance&".toList, "lfo&_fil&gain".toList, "lfo&_eq&gain".toList,
  "lfo&_eq&freq".toList, "lfo&_eq&bw".toList, "eg&_amplitude".toList, "eg&_pan".toList, "eg&_width".toList,
  "eg&_position".toList, "eg&_pitch".toList, "eg&_volume".toList, "eg&_cutoff&".toList, "eg&_resonance&".toList,
  "eg&_fil&gain".toList, "eg&_eq&gain".toList, "eg&_eq&freq".toList, "eg&_eq&bw".toList, "eg&_freq_lfo&".toList]

/-- How the controller number of an opcode is checked. -/
inductive Guard where
  | loose | strict | generic
  deriving DecidableEq, Repr

/-- The suffixes of `case_any_ccN` (Region.cpp:49-53). -/
def suffixes : List Text := ["_oncc&".toList, "_curvecc&".toList, "_stepcc&".toList, "_smoothcc&".toList]

/-- The check made for an opcode, by its text; `none`: not about a controller. -/
def guardOf (t : Text) : Option Guard :=
  if t ∈ looseNames then some .loose
  else if t ∈ strictNames then some .strict
  else if suffixes.any (fun x => genericNames.any (fun y => t == y ++ x)) then some .generic
  else none

/-- The opcodes of points of envelopes (Region.cpp:1503-1508): their second number may be 0. -/
def pointNames : List Text := ["eg&_time&_oncc&".toList, "eg&_level&_oncc&".toList]

/-- An opcode with a controller number (the last parameter). Other numbers of 0 are refused by `extendIfNecessary`
(Region.cpp:24-27); the conversions of the value are not modelled. The result of `processGenericCc` is ignored by its
callers, so that numbers out of range are accepted without effect. -/
def parseCC (r : Region) (t : Text) (ps : List Nat) (g : Guard) : Option (Region × Bool) :=
  match ps.getLast? with
  | none => none
  | some cc =>
    if t ∉ pointNames ∧ ps.dropLast.any (· = 0) then some (r, false)
    else
      match g with
      | .loose => if cc > 512 then some (r, false) else some ({ r with ccs := r.ccs ++ [cc] }, true)
      | .strict => if cc ≥ 512 then some (r, false) else some ({ r with ccs := r.ccs ++ [cc] }, true)
      | .generic => if cc ≥ 512 then some (r, true) else some ({ r with ccs := r.ccs ++ [cc] }, true)

/-- `parseLFOOpcodeV2` (Region.cpp:1246-1489). -/
def parseLfo (other : Op → Bool) (r : Region) (o : Op) (t : Text) (ps : List Nat) : Option (Region × Bool) :=
  match ps.head? with
  | none => none
  | some n =>
    if n = 0 then some (r, false)
    else
      let r := { r with lfos := max r.lfos n }
      match guardOf t with
      | some g => parseCC r t ps g
      | none => some (r, other o)

/-- The test of `eg&_freq_lfo&` (Region.cpp:1696): `lfos.size() < opcode.parameters[1] - 1`, where 0 wraps around. -/
def lfoMissing (r : Region) (n : Nat) : Bool := decide (n = 0 ∨ r.lfos < n - 1)

/-- `parseEGOpcodeV2` (Region.cpp:1491-1713). -/
def parseEnvelope (other : Op → Bool) (r : Region) (o : Op) (t : Text) (ps : List Nat) : Option (Region × Bool) :=
  match ps.head? with
  | none => none
  | some n =>
    if n = 0 then some (r, false)
    else
      let r := { r with envelopes := max r.envelopes n }
      if t = "eg&_freq_lfo&".toList then
        match ps[1]? with
        | none => none
        | some m => if lfoMissing r m then some (r, false) else some ({ r with lfoFrequency := r.lfoFrequency ++ [(n, m)] }, true)
      else if suffixes.any (fun x => t == "eg&_freq_lfo&".toList ++ x) ∧ lfoMissing r (ps[1]?.getD 0) then some (r, false)
      else
        match guardOf t with
        | some g => parseCC r t ps g
        | none => some (r, other o)

/-- `Region::parseOpcode` (Region.cpp:55-943). -/
def parseOpcode (other : Op → Bool) (r : Region) (o : Op) : Option (Region × Bool) :=
  let t := (seen o.name).1
  let ps := (seen o.name).2
  match kinds.lookup t with
  | some k => (parseKind r o.value k).map (fun r => (r, true))
  | none =>
    if "lfo&_".toList.isPrefixOf (letterOnlyName (trim o.name)) then parseLfo other r o t ps
    else if "eg&_".toList.isPrefixOf (letterOnlyName (trim o.name)) then parseEnvelope other r o t ps
    else
      match guardOf t with
      | some g => parseCC r t ps g
      | none => some (r, other o)

/-- `offsetAndClampKey` (SfzHelpers.h:202-211). -/
def offsetAndClampKey (key : Nat) (offset : Int) : Option Nat :=
  (int32 (key + offset)).map (fun k =>
    if k > 255 then 127 else if k < 0 then 0 else (max (min k 127) 0).toNat)

/-- Both ends of a range (Region.cpp:1806-1811), unless it is the default. -/
def offsetRange (dflt r : R Nat) (offset : Int) : Option (R Nat) :=
  if r = dflt then some r
  else do
    let a ← offsetAndClampKey r.start offset
    let b ← offsetAndClampKey r.stop offset
    return setEnd false (setStart false r a) b

/-- An optional key (Region.cpp:1815-1822). -/
def offsetOpt (k : Option Nat) (offset : Int) : Option (Option Nat) :=
  match k with
  | none => some none
  | some k => (offsetAndClampKey k offset).map some

/-- `offsetAllKeys` (Region.cpp:1803-1838). -/
def offsetAllKeys (offset : Int) (r : Region) : Option Region := do
  let keys ← offsetRange ⟨0, 127⟩ r.keys offset
  let keycenter ← offsetAndClampKey r.keycenter offset
  let up ← offsetOpt r.swUp offset
  let last ← offsetOpt r.swLast offset
  let down ← offsetOpt r.swDown offset
  let previous ← offsetOpt r.swPrevious offset
  let xfin ← offsetRange ⟨0, 0⟩ r.xfin offset
  let xfout ← offsetRange ⟨127, 127⟩ r.xfout offset
  return { r with
    keys := keys, keycenter := keycenter, swUp := up, swLast := last, swDown := down, swPrevious := previous,
    xfin := xfin, xfout := xfout }

/-- The keys of the tables of key-switches that `buildRegion` enters (Synth.cpp:195-208). -/
def switchKeys (r : Region) : List Nat :=
  r.swLast.toList ++
  (match r.swLastRange with | none => [] | some x => List.range' x.start (x.stop + 1 - x.start)) ++
  r.swUp.toList ++ r.swDown.toList

/-- The regions of sfizz. -/
def sfz (other : Op → Bool) : Lang Region where
  fresh := fun n path => { id := n, path := path }
  parse := parseOpcode other
  offset := offsetAllKeys
  switchKeys := switchKeys
  switchDefault := Region.swDefault
  group := Region.group
  polyphony := Region.polyphony

end Verif.Loader
