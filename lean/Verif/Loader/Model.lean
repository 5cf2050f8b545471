import Verif.Opcode.Model
import Verif.Range.Model

/-!
Model of instrument building: `Synth::Impl::onParseFullBlock` and the functions it calls
(`src/sfizz/Synth.cpp:91-142, 156-239, 318-474, 692-695, 1506-1511`).

The file is a list of blocks, as given by the parser (`Verif.Parser`). What a region does with its opcodes is a parameter
(`Lang`); `Verif.Loader.Region` gives the part of `Region::parseOpcode` that this development models. The renaming of old
opcode names (`Opcode::cleanUp`) is modelled apart (`Verif.Cleanup`): here the names are the current ones. Curves, effects, samples, labels, images
and playing hints are not modelled. The outer `none` is undefined behaviour.
-/
namespace Verif.Loader
open Verif.Opcode

/-- An opcode of a block (`Opcode`, Opcode.h:60-80): its name and its value. -/
structure Op where
  name : Text
  value : Text
  deriving DecidableEq, Repr

/-- The headers of `onParseFullBlock` (Synth.cpp:102-141); the parser gives the text. -/
inductive Header where
  | global | control | master | group | region | other
  deriving DecidableEq, Repr

/-- One call of `onParseFullBlock`. -/
structure Block where
  header : Header
  members : List Op
  deriving DecidableEq, Repr

/-- What regions make of opcodes: `Region::Region` (number and path), `Region::parseOpcode`, `Region::offsetAllKeys`, and the
members that `buildRegion` reads: the key-switch keys entered in tables of 128 keys (Synth.cpp:195-211), `sw_default`,
`group` and `polyphony`. -/
structure Lang (ρ : Type) where
  fresh : Nat → Text → ρ
  parse : ρ → Op → Option (ρ × Bool)
  offset : Int → ρ → Option ρ
  switchKeys : ρ → List Nat
  switchDefault : ρ → Option Nat
  group : ρ → Int
  polyphony : ρ → Nat

/-- `RegionSet` (RegionSet.h:126-131): the parent is an index into `sets_`; levels as in Opcode.h:44-58. -/
structure RegionSet where
  parent : Option Nat
  level : Nat
  limit : Nat := 256
  deriving DecidableEq, Repr

/-- The part of `Synth::Impl` written while a file is read. `layers` has the region and its parent set, `defaults` the
controllers given a default value, `limits` the polyphony groups (`none`: no such group); group 0 is there from the start
(`VoiceManager::reset`, VoiceManager.cpp:63-64). -/
structure State (ρ : Type) where
  globals : List Op := []
  masters : List Op := []
  groups : List Op := []
  unknown : List Text := []
  sets : List RegionSet := []
  current : Option Nat := none
  layers : List (ρ × Option Nat) := []
  path : Text := []
  noteOffset : Int := 0
  octaveOffset : Int := 0
  currentSwitch : Option Nat := none
  defaults : List Nat := []
  limits : Int → Option Nat := fun k => if k = 0 then some 256 else none

/-- `Default::key` (Defaults.cpp:48). -/
def keySpec : Spec Int := { dflt := 60, lo := 0, hi := 127, canBeNote := true }
/-- `Default::polyphony` (Defaults.cpp:46). -/
def polyphonySpec : Spec Int := { dflt := 256, lo := 0, hi := 256, enforceLower := true, enforceUpper := true }
/-- `Default::group` (Defaults.cpp:43). -/
def groupSpec : Spec Int := { dflt := 0, lo := -2147483647, hi := 4294967295 }
/-- `Default::noteOffset` (Defaults.cpp:171). -/
def noteOffsetSpec : Spec Int := { dflt := 0, lo := -127, hi := 127, permissiveLower := true, permissiveUpper := true }
/-- `Default::octaveOffset` (Defaults.cpp:170). -/
def octaveOffsetSpec : Spec Int := { dflt := 0, lo := -10, hi := 10, permissiveLower := true, permissiveUpper := true }

/-- `opcode.read(Default::key)` into a `uint8_t`. -/
def readKey (spec : Spec Int) (v : Text) : Option Nat := (readIntOr 0 255 spec v).map Int.toNat
/-- `opcode.readOptional(Default::key)` into a `uint8_t`. -/
def readKey? (spec : Spec Int) (v : Text) : Option (Option Nat) := (readInt 0 255 spec v).map (fun r => r.map Int.toNat)
/-- `opcode.read(Default::polyphony)` into a `uint32_t`. -/
def readPolyphony (v : Text) : Option Nat := (readIntOr 0 4294967295 polyphonySpec v).map Int.toNat
/-- `opcode.read(Default::group)` into an `int64_t`. -/
def readGroup (v : Text) : Option Int := readIntOr (-9223372036854775808) 9223372036854775807 groupSpec v

/-- The value of a signed 32 bit sum or product; `none` when it overflows. -/
def int32 (v : Int) : Option Int := intRange v

/-- Conversion of the `int64_t` group of a region to the `int` of the voice manager (VoiceManager.h `setGroupPolyphony`). -/
def toInt (v : Int) : Int := (v + 2147483648) % 4294967296 - 2147483648

/-- `octaveOffset_ * 12 + noteOffset_` (Synth.cpp:193). -/
def shift (octave note : Int) : Option Int := do int32 ((← int32 (octave * 12)) + note)

/-- `setCurrentSwitch` (Synth.cpp:692-695), into an `optional<uint8_t>`. -/
def setCurrentSwitch (s : State ρ) (key : Nat) : Option (State ρ) := do
  let a ← int32 ((key : Int) + (← int32 (12 * s.octaveOffset)))
  let b ← int32 (a + s.noteOffset)
  return { s with currentSwitch := some (b % 256).toNat }

/-- Going up from set `i` to one of a level below `level` (Synth.cpp:94-96); the parent of a set precedes it. -/
def enclosing (sets : List RegionSet) (level : Nat) : Nat → Option Nat → Option Nat
  | 0, _ => none
  | _, none => none
  | fuel + 1, some i =>
    match sets[i]? with
    | none => none
    | some x => if x.level ≥ level then enclosing sets level fuel x.parent else some i

/-- `newRegionSet` (Synth.cpp:93-100). -/
def newRegionSet (s : State ρ) (level : Nat) : State ρ :=
  { s with
    sets := s.sets ++ [{ parent := enclosing s.sets level (s.sets.length + 1) s.current, level := level }],
    current := some s.sets.length }

/-- `currentSet_->setPolyphonyLimit` (RegionSet.cpp:16-20). -/
def setLimit (s : State ρ) (n : Nat) : State ρ :=
  match s.current with
  | none => s
  | some i => { s with sets := s.sets.modify i (fun x => { x with limit := n }) }

/-- `ensureNumPolyphonyGroups` (VoiceManager.cpp:86-90). -/
def ensureGroup (s : State ρ) (g : Int) : State ρ :=
  { s with limits := fun k => if k = toInt g then some ((s.limits k).getD 256) else s.limits k }

/-- `setGroupPolyphony` (VoiceManager.cpp:92-96). -/
def setGroupPolyphony (s : State ρ) (g : Int) (n : Nat) : State ρ :=
  { s with limits := fun k => if k = toInt g then some n else s.limits k }

/-- One opcode in `handleMasterOpcodes`, `handleGlobalOpcodes` (Synth.cpp:323-331, 340-352). -/
def handleUpper (s : State ρ) (o : Op) : Option (State ρ) :=
  if o.name = "polyphony".toList then (readPolyphony o.value).map (setLimit s)
  else if o.name = "sw_default".toList then do setCurrentSwitch s (← readKey keySpec o.value)
  else some s

/-- The loop of `handleMasterOpcodes`, `handleGlobalOpcodes` (Synth.cpp:318-354). -/
def handleUppers (s : State ρ) (os : List Op) : Option (State ρ) := os.foldlM handleUpper s

/-- One opcode in `handleGroupOpcodes` (Synth.cpp:361-375): `groupIdx` and `maxPolyphony` beside the state. -/
def handleGroup1 (x : State ρ × Option Int × Option Nat) (o : Op) : Option (State ρ × Option Int × Option Nat) :=
  if o.name = "group".toList then (readGroup o.value).map (fun g => (x.1, some g, x.2.2))
  else if o.name = "polyphony".toList then (readPolyphony o.value).map (fun n => (x.1, x.2.1, some n))
  else if o.name = "sw_default".toList then do
    let s ← setCurrentSwitch x.1 (← readKey keySpec o.value)
    return (s, x.2)
  else some x

/-- The end of `handleGroupOpcodes` (Synth.cpp:383-390). -/
def applyGroup (s : State ρ) : Option Int → Option Nat → State ρ
  | some g, some n => setGroupPolyphony s g n
  | none, some n => setLimit s n
  | some g, none => ensureGroup s g
  | none, none => s

/-- `handleGroupOpcodes` (Synth.cpp:356-391). -/
def handleGroups (s : State ρ) (members masters : List Op) : Option (State ρ) := do
  let x ← (masters ++ members).foldlM handleGroup1 (s, none, none)
  return applyGroup x.1 x.2.1 x.2.2

/-- `absl::StrReplaceAll(trim(member.value), {{"\\", "/"}})` (Synth.cpp:428). -/
def pathOf (v : Text) : Text := (trim v).map (fun c => if c = '\\' then '/' else c)

/-- The text by which an opcode is recognised, and its numbers: the loop of the constructor of `Opcode` (Opcode.cpp:27-47)
keeping the hashed characters instead of their hash (`Verif.Opcode.scan`; see `seen_hash`). -/
def seenFrom (s : Text) (p : Text × List Nat) : Text × List Nat :=
  let letters := s.takeWhile (fun c => !isDigit c)
  let p := (p.1 ++ letters.filter (· ≠ '&'), p.2)
  match h : s.dropWhile (fun c => !isDigit c) with
  | [] => p
  | d :: rest =>
    let digits := (d :: rest).takeWhile isDigit
    seenFrom ((d :: rest).dropWhile isDigit)
      (if natVal digits < 2 ^ 32 then (p.1 ++ ['&'], p.2 ++ [natVal digits % 2 ^ 16]) else p)
termination_by s.length
decreasing_by
  have h1 : (d :: rest).length ≤ s.length := h ▸ dropWhile_lt
  have hd : isDigit d = true := by
    have hh := @List.head?_dropWhile_not Char (fun c => !isDigit c) s
    rw [h] at hh
    simpa using hh
  have h2 : ((d :: rest).dropWhile isDigit).length ≤ rest.length := by
    rw [List.dropWhile_cons_of_pos hd]; exact dropWhile_lt
  simp only [List.length_cons] at h1
  omega

/-- `lettersOnlyHash` (before hashing) and `parameters` of an opcode (Opcode.cpp:22-48). -/
def seen (name : Text) : Text × List Nat := seenFrom (trim name) ([], [])

/-- `set_cc&`, `set_hdcc&` (Synth.cpp:399-416): the guard lets the number 512 through; `setDefaultHdcc` (1506-1511) then
writes outside of the table of 512 values. The value itself is not modelled. -/
def setCC (s : State ρ) (parameters : List Nat) : Option (State ρ) :=
  match parameters.getLast? with
  | none => none
  | some cc =>
    if cc ≤ 512 then
      if cc < 512 then some { s with defaults := s.defaults ++ [cc] } else none
    else some s

/-- One opcode in `handleControlOpcodes` (Synth.cpp:395-473). -/
def handleControl1 (s : State ρ) (o : Op) : Option (State ρ) :=
  if o.name = "default_path".toList then some { s with path := pathOf o.value }
  else if o.name = "note_offset".toList then
    (readIntOr int32Min int32Max noteOffsetSpec o.value).map (fun v => { s with noteOffset := v })
  else if o.name = "octave_offset".toList then
    (readIntOr int32Min int32Max octaveOffsetSpec o.value).map (fun v => { s with octaveOffset := v })
  else if (seen o.name).1 = "set_cc&".toList ∨ (seen o.name).1 = "set_hdcc&".toList then setCC s (seen o.name).2
  else some s

/-- `handleControlOpcodes` (Synth.cpp:393-474). -/
def handleControl (s : State ρ) (os : List Op) : Option (State ρ) := os.foldlM handleControl1 s

/-- `parseOpcodes` (Synth.cpp:165-175): names refused once are not tried again, in this region or a later one. -/
def parseAll (L : Lang ρ) : ρ → List Text → List Op → Option (ρ × List Text)
  | r, unknown, [] => some (r, unknown)
  | r, unknown, o :: os =>
    if o.name ∈ unknown then parseAll L r unknown os
    else
      match L.parse r o with
      | none => none
      | some (r, true) => parseAll L r unknown os
      | some (r, false) => parseAll L r (unknown ++ [o.name]) os

/-- The transposition in `buildRegion` (Synth.cpp:192-193). -/
def transpose (L : Lang ρ) (octave note : Int) (r : ρ) : Option ρ :=
  if octave ≠ 0 ∨ note ≠ 0 then
    match shift octave note with
    | none => none
    | some d => L.offset d r
  else some r

/-- The end of `buildRegion` (Synth.cpp:195-238): key-switch tables, default switch, group, set. -/
def enterRegion (L : Lang ρ) (s : State ρ) (r : ρ) : Option (State ρ) :=
  if (L.switchKeys r).all (· < 128) then
    let go (s : State ρ) : State ρ :=
      let s := if L.group r ≠ 0 ∧ L.polyphony r ≠ 256 then setGroupPolyphony s (L.group r) (L.polyphony r)
        else ensureGroup s (L.group r)
      { s with layers := s.layers ++ [(r, s.current)] }
    match L.switchDefault r with
    | none => some (go s)
    | some key => (setCurrentSwitch s key).map go
  else none

/-- `buildRegion` (Synth.cpp:156-239). -/
def buildRegion (L : Lang ρ) (s : State ρ) (own : List Op) : Option (State ρ) := do
  let x ← parseAll L (L.fresh s.layers.length s.path) s.unknown (s.globals ++ s.masters ++ s.groups ++ own)
  let r ← transpose L s.octaveOffset s.noteOffset x.1
  enterRegion L { s with unknown := x.2 } r

/-- `onParseFullBlock` (Synth.cpp:91-142). -/
def onBlock (L : Lang ρ) (s : State ρ) (b : Block) : Option (State ρ) :=
  match b.header with
  | .global => handleUppers { newRegionSet { s with globals := b.members } 1 with groups := [], masters := [] } b.members
  | .control => handleControl { s with path := [] } b.members
  | .master => handleUppers { newRegionSet { s with masters := b.members } 3 with groups := [] } b.members
  | .group => handleGroups (newRegionSet { s with groups := b.members } 4) b.members s.masters
  | .region => buildRegion L s b.members
  | .other => some s

/-- Reading a file into a cleared synthesizer (`Synth::Impl::clear`, Synth.cpp:262-316). -/
def load (L : Lang ρ) (file : List Block) : Option (State ρ) := file.foldlM (onBlock L) {}

end Verif.Loader
