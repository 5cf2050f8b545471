import Verif.Adsr.Shape
import Verif.CCMap.Model
import Verif.Curve.Model
import Verif.Midi.Model

/-!
Model of the settings of the envelope of a note: the description that the opcodes build (Region.cpp:1063-1187), the getters of
`EGDescription` (EGDescription.h:95-209) that add velocity and controllers, and what `ADSREnvelope::reset` and `updateValues`
(ADSREnvelope.cpp:41-69) make of them. The envelope itself is in the module `Adsr`.

Exact rationals stand for floats. The exponential of `secondsToExpRate` is an arbitrary function of the seconds. The values of the
opcodes are those read from their texts (module `Opcode`).
-/
namespace Verif.EgNote

/-- A stage of the description: its value, the change by velocity and the controllers with their amounts and curves
(`ModifierCurvePair`). -/
structure Stage where
  base : ℚ
  vel : ℚ := 0
  mods : CCMap.M (ℚ × Nat)

/-- An opcode for a stage: `ampeg_attack`, `ampeg_vel2attack`, `ampeg_attack_onccN`, `ampeg_attack_curveccN`. -/
inductive Setting where
  | base (v : ℚ)
  | vel (v : ℚ)
  | cc (n : Nat) (v : ℚ)
  | curve (n : Nat) (c : Nat)
  deriving DecidableEq

/-- `parseEGOpcode` (Region.cpp:1088-1183) and `parseEGModifierCurveHelper` (1063-1071) for one stage. -/
def Stage.set (s : Stage) : Setting → Stage
  | .base v => { s with base := v }
  | .vel v => { s with vel := v }
  | .cc n v => if n ≥ 512 then s else { s with mods := (CCMap.update s.mods n (fun p => (v, p.2))).getD s.mods }
  | .curve n c => if n ≥ 512 then s else { s with mods := (CCMap.update s.mods n (fun p => (p.1, c))).getD s.mods }

/-- A stage without opcodes; its value is given by the kind of the stage (EGDescription.h:54-76). -/
def Stage.new (base : ℚ) : Stage := { base := base, mods := CCMap.empty (0, 0) }

/-- The stage after its opcodes. -/
def Stage.read (base : ℚ) (l : List Setting) : Stage := l.foldl Stage.set (Stage.new base)

/-- The description (EGDescription.h:54-76). -/
structure Desc where
  delay : Stage
  attack : Stage
  hold : Stage
  decay : Stage
  sustain : Stage
  release : Stage
  start : Stage

/-- `curveSet.getCurve(c).evalNormalized(x)` for the curves of the instrument, `dflt` standing for missing ones. -/
def curveValue (dflt : Curve.Points) (cs : Curve.CurveSet Curve.Points) (c : Nat) (x : ℚ) : Option ℚ :=
  Curve.evalNormalized (cs.get dflt c) x

/-- The loop over the controllers of a getter (EGDescription.h:99-102). -/
def addMods (dflt : Curve.Points) (cs : Curve.CurveSet Curve.Points) (m : Midi.State) (delay : Int) :
    List (Int × ℚ × Nat) → ℚ → Option ℚ
  | [], acc => some acc
  | (cc, amount, c) :: l, acc =>
    (Midi.getCCValueAt m cc.toNat delay).bind fun x =>
      (curveValue dflt cs c x).bind fun y => addMods dflt cs m delay l (acc + y * amount)

/-- `getAttack`, `getDecay`, `getDelay`, `getHold`, `getRelease` and `getSustain` (EGDescription.h:95-173, 199-208). -/
def Stage.get (dflt : Curve.Points) (cs : Curve.CurveSet Curve.Points) (m : Midi.State) (s : Stage) (velocity : ℚ) (delay : Int) : Option ℚ :=
  addMods dflt cs m delay s.mods.items (s.base + velocity * s.vel)

/-- `getStart` (EGDescription.h:181-190): without velocity. -/
def Stage.getStart (dflt : Curve.Points) (cs : Curve.CurveSet Curve.Points) (m : Midi.State) (s : Stage) (delay : Int) : Option ℚ :=
  addMods dflt cs m delay s.mods.items s.base

/-- What `updateValues(delay)` (ADSREnvelope.cpp:58-69) computes; `rate` is `secondsToExpRate`. -/
def params (rate : ℚ → ℚ) (dflt : Curve.Points) (cs : Curve.CurveSet Curve.Points) (m : Midi.State) (sr : ℚ) (e : Desc) (velocity : ℚ)
    (delay : Int) : Option Adsr.Params :=
  (e.delay.get dflt cs m velocity delay).bind fun vDelay =>
  (e.attack.get dflt cs m velocity delay).bind fun vAttack =>
  (e.decay.get dflt cs m velocity delay).bind fun vDecay =>
  (e.release.get dflt cs m velocity delay).bind fun vRelease =>
  (e.hold.get dflt cs m velocity delay).bind fun vHold =>
  (e.sustain.get dflt cs m velocity delay).bind fun vSustain =>
  (e.start.getStart dflt cs m delay).map fun vStart =>
    { delay := Adsr.secondsToSamples sr vDelay
      attackStep := Adsr.secondsToLinRate sr vAttack
      decayRate := rate vDecay
      releaseRate := rate vRelease
      hold := Adsr.secondsToSamples sr vHold
      sustain := vSustain
      start := vStart }

/-- The frames of the envelope of a note (`ADSREnvelopeSource::init` and `generate`, modulations/sources/ADSREnvelope.cpp:63-83 and
110-125) that is held, block by block: the settings are read at the start of the voice, `delay` frames after the beginning of the
block (Voice.cpp:525), for an envelope that is not dynamic. -/
def heldNote (rate : ℚ → ℚ) (dflt : Curve.Points) (cs : Curve.CurveSet Curve.Points) (m : Midi.State) (sr : ℚ) (e : Desc) (velocity : ℚ)
    (delay : Nat) (blocks : List Nat) : Option (List ℚ) :=
  (params rate dflt cs m sr e velocity delay).map fun p => (Adsr.history sr delay p false (blocks.map .get)).1

end Verif.EgNote
