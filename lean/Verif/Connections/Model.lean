import Verif.Controller.Model
import Verif.ModMatrix.Keys

/-!
Model of the modulation connections of the regions: how the opcodes of a region make and change them
(/repo/src/sfizz/Region.cpp:1715-1776 and 1853-1875), the ones which are made for every region (Synth.cpp:184-191 and
910-939), and how they are entered into the modulation matrix (Synth.cpp:2003-2081).

Simplifications: an opcode is given by what it does to the connections, that is by the calls it makes with the values it has
read (reading the values is modelled in `Verif.Opcode` and `Verif.Loader`); the uses of controllers other than modulations
(Synth.cpp:2219-2273) are an arbitrary set for each region. Depths and steps are exact rationals.
-/
namespace Verif.Connections
open Verif.ModMatrix (ModKey ModId Builder)

/-- `ModKey`: a controller with its parameters, or any other key (ModKey.h:51-63, 113-123). -/
inductive Src where
  | ctl (k : Controller.Key)
  | other (k : ModKey)
deriving DecidableEq, Repr

/-- `Region::Connection` (Region.h:390-396). A key which is not set is `none`. -/
structure Connection where
  source : Src
  target : ModKey
  depth : ℚ := 0
  depthMod : Option ModKey := none
  vel : ℚ := 0
deriving DecidableEq, Repr

/-- The category of a controller opcode, with the value read (Region.cpp:1750-1768). -/
inductive Param where
  | on (v : ℚ)
  | curve (n : Nat)
  | step (v : ℚ)
  | smooth (n : Nat)
deriving DecidableEq, Repr

/-- What an opcode does to the connections of its region.
`cc`: `processGenericCc` (for example `pitch_oncc7`, `cutoff2_curvecc1`).
`depth`: `getOrCreateConnection(source, target).sourceDepth = v` (Region.cpp:618, 629, 1000, 1008, 1013, 1026, 1030,
1190-1198, 1284, 1511). `depthMod`: `.sourceDepthMod = key` (Region.cpp:1003, 1007, 1012, 1212, 1218, 1291, 1518).
`vel`: `.velToDepth = v` (Region.cpp:1201-1209). `make`: nothing but the creation (Region.cpp:879-916). -/
inductive Op where
  | cc (cc : Nat) (target : ModKey) (p : Param)
  | depth (source target : ModKey) (v : ℚ)
  | depthMod (source target key : ModKey)
  | vel (source target : ModKey) (v : ℚ)
  | make (source target : ModKey)
deriving DecidableEq, Repr

/-- Find the first connection with a property and change it, or append a new one and change that
(`std::find_if` and `emplace_back`, Region.cpp:1728-1747 and 1853-1875). -/
def upsert (p : Connection → Bool) (new : Connection) (f : Connection → Connection) : List Connection → List Connection
  | [] => [f new]
  | c :: cs => if p c then f c :: cs else c :: upsert p new f cs

/-- The search of Region.cpp:1728-1739. -/
def sameCC (region cc : Nat) (target : ModKey) (x : Connection) : Bool :=
  match x.source with
  | .ctl k =>
    if Controller.isPerVoice cc then decide (k.region = some region ∧ k.cc = cc ∧ x.target = target)
    else decide (k.region = none ∧ k.cc = cc ∧ x.target = target)
  | .other _ => false

/-- Region.cpp:1749-1774: the parameter is written, and the key made again. -/
def setParam (region : Nat) (p : Param) (c : Connection) : Connection :=
  match c.source with
  | .other _ => c
  | .ctl k =>
    match p with
    | .on v => { c with source := .ctl (Controller.makeKey region k.cc k.curve k.smooth k.step), depth := v }
    | .curve n => { c with source := .ctl (Controller.makeKey region k.cc n k.smooth k.step) }
    | .step v => { c with source := .ctl (Controller.makeKey region k.cc k.curve k.smooth v) }
    | .smooth n => { c with source := .ctl (Controller.makeKey region k.cc k.curve n k.step) }

/-- `Region::processGenericCc` (Region.cpp:1715-1778); `config::numCCs` is 512. -/
def processGenericCc (region cc : Nat) (target : ModKey) (p : Param) (l : List Connection) : List Connection :=
  if cc ≥ 512 then l
  else upsert (sameCC region cc target) { source := .ctl ⟨none, cc, 0, 0, 0⟩, target := target } (setParam region p) l

/-- `getConnection` (Region.cpp:1853-1862). -/
def sameKeys (source : Src) (target : ModKey) (x : Connection) : Bool := decide (x.source = source ∧ x.target = target)

/-- `getOrCreateConnection` (Region.cpp:1864-1875), and what is then done to the connection. -/
def onConnection (source : Src) (target : ModKey) (f : Connection → Connection) (l : List Connection) : List Connection :=
  upsert (sameKeys source target) { source := source, target := target } f l

/-- One effect of an opcode on the connections of a region. -/
def step (region : Nat) (l : List Connection) : Op → List Connection
  | .cc n t p => processGenericCc region n t p l
  | .depth s t v => onConnection (.other s) t (fun c => { c with depth := v }) l
  | .depthMod s t k => onConnection (.other s) t (fun c => { c with depthMod := some k }) l
  | .vel s t v => onConnection (.other s) t (fun c => { c with vel := v }) l
  | .make s t => onConnection (.other s) t id l

/-- What is known of a region: its number, what its opcodes do, whether a flexible envelope is its amplitude envelope, and
the controllers it uses otherwise than for modulation. -/
structure Region where
  id : Nat
  ops : List Op
  flexAmpEG : Option Nat := none
  used : Nat → Bool := fun _ => false

/-- Synth.cpp:184-191: the envelope of the amplitude. -/
def envelope (r : Region) : Op :=
  match r.flexAmpEG with
  | none => .depth ⟨.AmpEG, some r.id, 0, 0⟩ ⟨.MasterAmplitude, some r.id, 0, 0⟩ 1
  | some n => .depth ⟨.Envelope, some r.id, n, 0⟩ ⟨.MasterAmplitude, some r.id, 0, 0⟩ 1

/-- The connections of a region once its opcodes are read (Synth.cpp:156-191). -/
def parsed (r : Region) : List Connection := (r.ops ++ [envelope r]).foldl (step r.id) []

/-- A connection whose source is a controller that is not per voice (Synth.cpp:915-917). -/
def usesCC (n : Nat) (c : Connection) : Bool :=
  match c.source with
  | .ctl k => k.region.isNone && k.cc == n
  | .other _ => false

/-- `usedCCs` (Synth.cpp:910-919). -/
def usedCCs (rs : List Region) (n : Nat) : Bool := rs.any (fun r => r.used n || (parsed r).any (usesCC n))

/-- One of the default controllers (Synth.cpp:924-938). -/
def addDefault (used : Nat → Bool) (cc curve : Nat) (target : ModKey) (l : List Connection) : List Connection :=
  if used cc then l
  else onConnection (.ctl ⟨none, cc, curve, 10, 0⟩) target (fun c => { c with depth := 1 }) l

/-- Synth.cpp:920-939. -/
def addDefaults (used : Nat → Bool) (id : Nat) (l : List Connection) : List Connection :=
  addDefault used 11 4 ⟨.Amplitude, some id, 0, 0⟩
    (addDefault used 10 1 ⟨.Pan, some id, 0, 0⟩
      (addDefault used 7 4 ⟨.Amplitude, some id, 0, 0⟩ l))

/-- The connections of a region of an instrument. -/
def final (rs : List Region) (r : Region) : List Connection := addDefaults (usedCCs rs) r.id (parsed r)

/-- Synth.cpp:2013-2022: the key of the source in the matrix. -/
def sourceKey (c : Connection) : Src :=
  match c.source with
  | .ctl k => .ctl (Controller.prepare c.depth k)
  | .other k => .other k

/-- Synth.cpp:2010-2077: the registration of one connection. -/
def setupConn (srcOf : Src → ModMatrix.Source) (tgtOf : Src → ModMatrix.Target) (b : Builder Src) (c : Connection) : Builder Src :=
  let s := ModMatrix.registerSource srcOf b (sourceKey c)
  let t := ModMatrix.registerTarget tgtOf s.2 (.other c.target)
  (ModMatrix.connect tgtOf t.2 s.1 t.1 c.depth (c.depthMod.map Src.other) c.vel).2

/-- `Synth::Impl::setupModMatrix` (Synth.cpp:2003-2081). -/
def setup (srcOf : Src → ModMatrix.Source) (tgtOf : Src → ModMatrix.Target) (rs : List Region) : Builder Src :=
  (rs.flatMap (final rs)).foldl (setupConn srcOf tgtOf) ⟨[], []⟩

/-- `ModKey::createNXYZ` (ModKey.cpp:69-78) for a target with a number, as in `cutoff2`: the number is counted from 0 and
kept in 8 bits. -/
def numbered (id : ModId) (region n : Nat) : ModKey := ⟨id, some region, (n - 1) % 256, 0⟩

end Verif.Connections
