import Mathlib.Data.Rat.Defs
import Mathlib.Data.List.Basic
import Mathlib.Algebra.Order.Ring.Rat

/-!
# Regions edited by message, and the tables built when the file was loaded

A region's opcodes can be changed by messages while the instrument is loaded.  The tables which
say which regions may answer which key and which controller, and the effect buses of the outputs,
are built once, at the end of a load.  This file models both.

Modelled: `/repo/src/sfizz/Synth.cpp:241-260` (`addEffectBusesIfNecessary`, `initEffectBuses`),
`478-545` (`handleEffectOpcodes`: which buses are made), `834-853`, `886`, `954` (the end of a
load), `1050-1067` (`setSamplesPerBlock`), `1150-1216` (`renderBlock`: which buffers are touched),
`1349-1384` (`noteOnDispatch`), `1430-1458` (`ccDispatch`),
`/repo/src/sfizz/Effects.cpp:107-125,151-177`,
`/repo/src/sfizz/Layer.cpp:33-50,52-80,131-156`,
`/repo/src/sfizz/SynthMessaging.cpp:108-130`, `SynthMessagingHelper.hpp:258-380`.

Simplified: a region is the part of it which these tables depend on.  Signals are not represented;
a buffer is its length in frames.  Controller values are exact rationals.
-/

namespace Verif.Edit

/-- `Region` (Region.h), the members read by the tables: `keyRange`, `ccConditions`, `ccTriggers`,
`trigger == release` with its two pedals, `output`, and whether `getGainToEffectBus(i)` is not
zero (Region.cpp:1840-1846). -/
structure Reg where
  keys : Nat × Nat
  conds : Nat → Option (ℚ × ℚ)
  starts : Nat → Option (ℚ × ℚ)
  release : Bool
  sustainCC : Nat
  sostenutoCC : Nat
  output : Nat
  sends : Nat → Bool

/-- `UncheckedRange::containsWithEnd` (Range.h) for controller values. -/
def within (r : ℚ × ℚ) (v : ℚ) : Prop := r.1 ≤ v ∧ v ≤ r.2

instance (r : ℚ × ℚ) (v : ℚ) : Decidable (within r v) := by unfold within; infer_instance

/-- `containsWithEnd` for keys. -/
def hasKey (r : Nat × Nat) (k : Nat) : Bool := r.1 ≤ k && k ≤ r.2

/-- `Layer`: the region and `ccSwitched_` (Layer.h). -/
structure Layer where
  reg : Reg
  switched : Nat → Bool

/-- `Layer::updateCCState` (Layer.cpp:131-156), the part on `ccSwitched_`. -/
def Layer.update (l : Layer) (cc : Nat) (v : ℚ) : Layer :=
  match l.reg.conds cc with
  | none => l
  | some r => { l with switched := fun c => if c = cc then decide (within r v) else l.switched c }

/-- The engine: `layers_`, `noteActivationLists_`, `ccActivationLists_`, the controller values,
`numOutputs_`, `samplesPerBlock_` and `effectBuses_`.  A bus that was never made is `none`; one that
was made is the size of its buffers. -/
structure Engine where
  layers : List Layer
  noteLists : Nat → List Nat
  ccLists : Nat → List Nat
  values : Nat → ℚ
  numOutputs : Nat
  block : Nat
  buses : List (List (Option Nat))

/-- `addEffectBusesIfNecessary` (Synth.cpp:241-254): outputs are added, each with an empty main bus,
until number `output` exists. -/
def addOutputs (block output : Nat) (b : List (List (Option Nat))) : List (List (Option Nat)) :=
  b ++ List.replicate (output + 1 - b.length) [some block]

/-- `getOrCreateBus` (Synth.cpp:494-505). -/
def withBus (block index : Nat) (b : List (Option Nat)) : List (Option Nat) :=
  let b := b ++ List.replicate (index + 1 - b.length) none
  if b[index]? = some none then b.set index (some block) else b

/-- `handleEffectOpcodes` (Synth.cpp:478-545): an effect header makes its output and its bus. -/
def addEffect (block : Nat) (b : List (List (Option Nat))) (fx : Nat × Nat) :
    List (List (Option Nat)) :=
  (addOutputs block fx.1 b).modify fx.1 (withBus block fx.2)

/-- The layers that are listed for key `k` (Synth.cpp:834-837). -/
def keyList (regs : List Reg) (k : Nat) : List Nat :=
  (List.range regs.length).filter fun i =>
    match regs[i]? with
    | none => false
    | some r => decide (k < 128) && hasKey r.keys k

/-- Is region `r` listed for controller `cc` (Synth.cpp:839-845)? -/
def listens (r : Reg) (cc : Nat) : Bool :=
  (r.starts cc).isSome || (r.conds cc).isSome || (cc == r.sustainCC && r.release)
    || (cc == r.sostenutoCC && r.release)

/-- The layers that are listed for controller `cc`. -/
def ccList (regs : List Reg) (cc : Nat) : List Nat :=
  (List.range regs.length).filter fun i =>
    match regs[i]? with
    | none => false
    | some r => decide (cc < 512) && listens r cc

/-- A fresh layer: `initializeActivations` (Layer.cpp:33-44) sets every switch, then
`updateCCState` is called once per controller (Synth.cpp:849-853). -/
def freshLayer (values : Nat → ℚ) (r : Reg) : Layer where
  reg := r
  switched cc := match r.conds cc with
    | none => true
    | some c => decide (within c (values cc))

/-- A successful load: `clear` (Synth.cpp:256-300) leaves one output, effect headers add buses, and
`finalizeSfzLoad` counts the outputs (line 886), makes the tables and adds buses (line 954). -/
def load (block : Nat) (values : Nat → ℚ) (fx : List (Nat × Nat)) (regs : List Reg) : Engine :=
  let numOutputs := regs.foldl (fun n r => max (r.output + 1) n) 1
  { layers := regs.map (freshLayer values)
    noteLists := keyList regs
    ccLists := ccList regs
    values := values
    numOutputs := numOutputs
    block := block
    buses := addOutputs block numOutputs (fx.foldl (addEffect block) (addOutputs block 0 [])) }

/-- What the host can do between two loads. -/
inductive Op where
  /-- `/region&/key_range ,ii` -/
  | keys (i : Nat) (lo hi : ℤ)
  /-- `/region&/output ,i` -/
  | output (i : Nat) (o : ℤ)
  /-- `/region&/cc_range& ,ff` -/
  | cond (i cc : Nat) (lo hi : ℚ)
  /-- a controller event -/
  | cc (cc : Nat) (v : ℚ)
  /-- `setSamplesPerBlock` -/
  | block (n : Nat)

/-- Edit the region of a layer. -/
def Layer.edit (f : Reg → Reg) (l : Layer) : Layer := { l with reg := f l.reg }

/-- `Opcode::transform` with `Default::loKey`, `Default::hiKey` (Defaults.cpp:49-50): a value out of
0..127 gives the default. -/
def readKey (default : Nat) (v : ℤ) : Nat := if 0 ≤ v ∧ v ≤ 127 then v.toNat else default

/-- `Opcode::transform` with `Default::output` (Defaults.cpp:44, `kEnforceBounds`): clamped to
0..15. -/
def readOutput (v : ℤ) : Nat := min v.toNat 15

/-- One operation. -/
def step (e : Engine) : Op → Engine
  | .keys i lo hi =>
      { e with layers := e.layers.modify i (Layer.edit fun r =>
          { r with keys := (readKey 0 lo, readKey 127 hi) }) }
  | .output i o =>
      { e with layers := e.layers.modify i (Layer.edit fun r => { r with output := readOutput o }) }
  | .cond i cc lo hi =>
      { e with layers := e.layers.modify i (Layer.edit fun r =>
          { r with conds := fun c => if c = cc then some (lo, hi) else r.conds c }) }
  | .cc cc v =>
      { e with
        values := fun c => if c = cc then v else e.values c
        layers := e.layers.mapIdx fun i l => if i ∈ e.ccLists cc then l.update cc v else l }
  | .block n =>
      { e with
        block := n
        buses := e.buses.mapIdx fun i b =>
          if i < e.numOutputs then b.map fun c => c.map fun _ => n else b }

/-- A history after the load. -/
def run (e : Engine) (ops : List Op) : Engine := ops.foldl step e

/-- Does layer `i` pass the key and controller tests of `noteOnDispatch` and `registerNoteOn`
(Synth.cpp:1371-1372, Layer.cpp:46-66) for key `k`? -/
def answers (e : Engine) (i k : Nat) : Prop :=
  i ∈ e.noteLists k ∧ ∃ l, e.layers[i]? = some l ∧ hasKey l.reg.keys k = true ∧
    ∀ cc, cc < 512 → l.switched cc = true

/-- `EffectBus::clearInputs`, `addToInputs`, `process`, `mixOutputsTo` (Effects.cpp:107-125,
151-177) on `n` frames: they touch the first `n` frames of the bus' own buffers. -/
def fits (n : Nat) (b : Option Nat) : Bool :=
  match b with
  | none => true
  | some c => decide (n ≤ c)

/-- The outputs visited by the clearing and mixing loops (Synth.cpp:1153-1158, 1199-1210); `false`
is an access out of bounds. -/
def outputsOk (e : Engine) (n : Nat) : Bool :=
  (List.range e.numOutputs).all fun i =>
    match e.buses[i]? with
    | none => false
    | some bs => bs.all (fits n)

/-- A voice of layer `i` adds its block to the buses of the region's output (Synth.cpp:1172-1180):
`false` is an access out of bounds. -/
def voiceOk (e : Engine) (n i : Nat) : Bool :=
  match e.layers[i]? with
  | none => true
  | some l =>
    match e.buses[l.reg.output]? with
    | none => false
    | some bs => (List.range bs.length).all fun j => !l.reg.sends j || fits n (bs[j]?.join)

/-- `Synth::renderBlock` with the voices of layers `voices` on `n` frames: `none` is an access out
of bounds, otherwise each voice is said to reach the buffer of the host or not: only the outputs
below `numOutputs_` are mixed into it. -/
def render (e : Engine) (voices : List Nat) (n : Nat) : Option (List Bool) :=
  if outputsOk e n && voices.all (voiceOk e n) then
    some (voices.map fun i => match e.layers[i]? with
      | none => false
      | some l => decide (l.reg.output < e.numOutputs))
  else none

end Verif.Edit
