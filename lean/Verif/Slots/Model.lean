import Verif.Loader.Region
import Verif.BitArray.Model
import Verif.Connections.Model
import Verif.Engine.Model

/-!
Model of what the engine tells of a loaded instrument: the keys, key-switches and controllers in use
(/repo/src/sfizz/Synth.cpp:957-980, 2219-2309; asked for with `/key/slots`, `/sw/last/slots`, `/cc/slots` and
`/sustain_or_sostenuto/slots`), and the controllers that change (Synth.cpp:1238-1239, 1481; `/cc/changed` and `/cc/changed~`).

Simplification: the sets of controllers in use and of those that change are functions to `Bool`, not bit arrays (see C50 for these, and C48 for their bounds).
-/
namespace Verif.Slots
open Verif.Loader (Region)
open Verif.Connections (Src)

/-- `for (key = lo; key <= hi; ++key) slots.set(key)` (Synth.cpp:966-967, 978-979). -/
def markKeys (d : List (BitVec 8)) (lo hi : Nat) : Option (List (BitVec 8)) :=
  (List.range' lo (hi + 1 - lo)).foldlM BitArray.set d

/-- `keySlots_` of 128 bits (Synth.cpp:960-968). -/
def keySlots (rs : List Region) : Option (List (BitVec 8)) :=
  rs.foldlM (fun d r => markKeys d r.keys.start r.keys.stop) (BitArray.init 128)

/-- Synth.cpp:972-980, for a region. -/
def markSwitch (d : List (BitVec 8)) (r : Region) : Option (List (BitVec 8)) :=
  match r.swLast with
  | some k => BitArray.set d k
  | none =>
    match r.swLastRange with
    | some x => markKeys d x.start x.stop
    | none => some d

/-- `swLastSlots_` of 128 bits (Synth.cpp:970-981). -/
def swLastSlots (rs : List Region) : Option (List (BitVec 8)) := rs.foldlM markSwitch (BitArray.init 128)

/-- A source that is a controller of all voices (`CCSourceCollector::visit`, Synth.cpp:2285-2290). -/
def isController (n : Nat) : Src → Bool
  | .ctl k => k.region.isNone && k.cc == n
  | .other _ => false

/-- `collectAllUsedCCs` (Synth.cpp:2299-2309): the controllers in the tables of the regions (2219-2273), and those among the sources of
the modulation matrix (2275-2296). -/
def usedCCs (srcOf : Src → ModMatrix.Source) (tgtOf : Src → ModMatrix.Target) (rs : List Connections.Region) (n : Nat) : Bool :=
  rs.any (fun r => r.used n) || (Connections.setup srcOf tgtOf rs).srcs.any (fun p => isController n p.1)

/-- `sustainOrSostenuto_` of 512 bits (Synth.cpp:2301-2305): `pedals` are the controllers `sustainCC` and `sostenutoCC` of each region. -/
def pedalSlots (pedals : List (Nat × Nat)) : Option (List (BitVec 8)) :=
  pedals.foldlM (fun d p => (BitArray.set d p.1).bind fun d' => BitArray.set d' p.2) (BitArray.init 512)

/-! ### Changes -/

/-- `changedCCsThisCycle_` and `changedCCsLastCycle_`. -/
structure Changed where
  this : Nat → Bool := fun _ => false
  last : Nat → Bool := fun _ => false

/-- `changedCCsThisCycle_.set(n)` (Synth.cpp:1481). -/
def Changed.mark (x : Changed) (n : Nat) : Changed := { x with this := fun k => if k = n then true else x.this k }

/-- What a call does to these sets: `performHdcc` (Synth.cpp:1481) with its callers (1465, 1471, 1550, 1583, 1602), and the end of
`renderBlock` (1238-1239), which returns at once when there is no frame (1107-1111). -/
def changes (x : Changed) : Engine.Op → Changed
  | .cc _ n _ => x.mark n
  | .automate _ n _ => x.mark n
  | .pitchWheel _ _ => x.mark 128
  | .channelAftertouch _ _ => x.mark 129
  | .polyAftertouch _ _ _ => x.mark 130
  | .render f _ => if f < 1 then x else { this := fun _ => false, last := x.this }
  | _ => x

/-- After a history of calls. -/
def changed (ops : List Engine.Op) : Changed := ops.foldl changes {}

/-- The message `/cc&/value` with a number (SynthMessaging.cpp:59). -/
def valueMessage (s : Engine.E) (delay : Int) (n : Nat) (v : ℚ) : Engine.E := { s with midi := Midi.ccEvent s.midi delay n v }

end Verif.Slots
