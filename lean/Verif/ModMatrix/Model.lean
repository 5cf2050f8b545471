/-
Model of the modulation matrix (src/sfizz/modulations/ModMatrix.cpp).

* Buffers are functions from frames to rational numbers; the single precision arithmetic of the code
  is replaced by exact arithmetic (the only numeric simplification).
* Generators are black boxes: a source lists the targets its generator reads while it generates (only
  `LFO::generatePhase` does, src/sfizz/LFO.cpp:351-353) and gives the buffer written, as an arbitrary
  function of the voice, of how many times the generator was already run in the block, and of what it
  read.
* The hash map of the connected sources of a target is a list with one entry per source; the iteration
  order of the map is unspecified, and no theorem fixes the order of the list.
* All the targets of the program are per-voice targets (src/sfizz/modulations/ModId.cpp:52-160), so
  there are no per-cycle targets here.
* A pointer to a buffer is modelled by the contents at the time of the call.  In a graph without cycles
  a buffer does not change once it has been returned, so both agree there.
-/
import Mathlib.Algebra.Field.Rat
import Mathlib.Algebra.BigOperators.Group.List.Basic
import Mathlib.Logic.Function.Basic

namespace Verif.ModMatrix

/-- A modulation buffer. -/
abbrev Buf := Nat → ℚ

/-- src/sfizz/modulations/ModMatrix.cpp:33-38.  `region = none` is a per-cycle source, `some r` a
per-voice source of region `r` (flags of the key, ModId.cpp:28-51).  `reads` and `gen` describe the
generator. -/
structure Source where
  region : Option Nat
  reads : List (Option Nat) := []
  gen : Option Nat → Nat → List (Option Buf) → Buf

/-- src/sfizz/modulations/ModMatrix.cpp:40-45, with the index of the source, the key of the map. -/
structure Conn where
  source : Nat
  depth : ℚ
  depthMod : Option Nat
  velToDepth : ℚ

/-- src/sfizz/modulations/ModMatrix.cpp:47-53. -/
structure Target where
  region : Nat
  multiplicative : Bool
  conns : List Conn

/-- The sources and targets of src/sfizz/modulations/ModMatrix.cpp:55-77. -/
structure Graph where
  sources : List Source
  targets : List Target

/-- A call of a generator: for which source, for which voice (`none` for a per-cycle source, even though
its generator is told of the voice that happens to ask first, ModMatrix.cpp:433), and whether the buffer is kept (`generate`) or not (`generateDiscarded`). -/
structure Event where
  source : Nat
  voice : Option Nat
  kept : Bool
deriving DecidableEq, Repr

/-- The ready flags and the buffers, and the log of the calls of the generators. -/
structure State where
  srcReady : Nat → Bool
  srcBuf : Nat → Buf
  tgtReady : Nat → Bool
  tgtBuf : Nat → Buf
  log : List Event

/-- The voice being processed: `currentVoiceId_`, `currentRegionId_`, `currentVoiceTriggerValue_`. -/
structure Ctx where
  voice : Nat
  region : Nat
  trigger : ℚ

/-- How often the generator of a source was run for a voice since the beginning of the block. -/
def runs (s : State) (source : Nat) (voice : Option Nat) : Nat :=
  s.log.countP (fun e => e.source == source && e.voice == voice)

/-- The voice of the log for a source. -/
def voiceKey (cx : Ctx) (src : Source) : Option Nat :=
  if src.region.isSome then some cx.voice else none

/-- The function `getModulation` as its callers see it: a target (or an invalid identifier), a state,
and the buffer (or null) with the new state. -/
abbrev Rec := Option Nat → State → Option (Option Buf × State)

/-- The requests of a generator, in order (LFO.cpp:351-353). -/
def readAll (rec : Rec) : List (Option Nat) → State → Option (List (Option Buf) × State)
  | [], s => some ([], s)
  | t :: ts, s =>
    match rec t s with
    | none => none
    | some (b, s₁) =>
      match readAll rec ts s₁ with
      | none => none
      | some (bs, s₂) => some (b :: bs, s₂)

/-- The end of a call to a generator: the buffer is written, and the source is ready
(ModMatrix.cpp:433-434). -/
def generated (cx : Ctx) (i : Nat) (src : Source) (inputs : List (Option Buf)) (s : State) : State :=
  { s with
    srcBuf := Function.update s.srcBuf i (src.gen (some cx.voice) (runs s i (voiceKey cx src)) inputs)
    srcReady := Function.update s.srcReady i true
    log := s.log ++ [⟨i, voiceKey cx src, true⟩] }

/-- src/sfizz/modulations/ModMatrix.cpp:431-435. -/
def prepare (rec : Rec) (cx : Ctx) (i : Nat) (src : Source) (s : State) : Option State :=
  if s.srcReady i then some s
  else
    match readAll rec src.reads s with
    | none => none
    | some (inputs, s₁) => some (generated cx i src inputs s₁)

/-- src/sfizz/modulations/ModMatrix.cpp:423-426. -/
def useSource (cx : Ctx) (src : Source) : Bool :=
  match src.region with
  | none => true
  | some r => cx.region == r

/-- src/sfizz/modulations/ModMatrix.cpp:437-441. -/
def sourceDepth (cx : Ctx) (src : Source) (c : Conn) : ℚ :=
  if src.region.isSome then c.depth + cx.trigger * c.velToDepth else c.depth

/-- What is written to the buffer of the target for the first source
(src/sfizz/modulations/ModMatrix.cpp:445-460). -/
def firstBuf (mult : Bool) (d : ℚ) (dm : Option Buf) (src : Buf) : Buf :=
  match dm with
  | none => if d = 1 then src else fun i => d * src i
  | some m => if mult then fun i => (d * m i) * src i else fun i => (d + m i) * src i

/-- What is written for the next sources (src/sfizz/modulations/ModMatrix.cpp:463-481). -/
def nextBuf (mult : Bool) (d : ℚ) (dm : Option Buf) (src old : Buf) : Buf :=
  match dm with
  | none => if mult then fun i => old i * (d * src i) else fun i => old i + d * src i
  | some m =>
    if mult then fun i => old i * ((d * m i) * src i) else fun i => old i + (d + m i) * src i

/-- Writes the buffer of a target. -/
def writeTarget (t : Nat) (b : Buf) (s : State) : State :=
  { s with tgtBuf := Function.update s.tgtBuf t b }

/-- Marks a target as ready (src/sfizz/modulations/ModMatrix.cpp:409-411). -/
def markTarget (t : Nat) (s : State) : State :=
  { s with tgtReady := Function.update s.tgtReady t true }

/-- The buffer after one used source. -/
def mixed (mult first : Bool) (d : ℚ) (dm : Option Buf) (src old : Buf) : Buf :=
  if first then firstBuf mult d dm src else nextBuf mult d dm src old

/-- One used source (src/sfizz/modulations/ModMatrix.cpp:428-482). -/
def mixSource (rec : Rec) (cx : Ctx) (t : Nat) (mult first : Bool) (c : Conn) (src : Source)
    (s : State) : Option State :=
  match prepare rec cx c.source src s with
  | none => none
  | some s₁ =>
    match rec c.depthMod s₁ with
    | none => none
    | some (dm, s₂) =>
      some (writeTarget t (mixed mult first (sourceDepth cx src c) dm (s₂.srcBuf c.source)
        (s₂.tgtBuf t)) s₂)

/-- src/sfizz/modulations/ModMatrix.cpp:419-485: the loop, with the flag `isFirstSource`. -/
def connLoop (g : Graph) (rec : Rec) (cx : Ctx) (t : Nat) (mult : Bool) :
    List Conn → Bool → State → Option (Bool × State)
  | [], first, s => some (first, s)
  | c :: cs, first, s =>
    match g.sources[c.source]? with
    | none => none
    | some src =>
      if useSource cx src then
        match mixSource rec cx t mult first c src s with
        | none => none
        | some s₁ => connLoop g rec cx t mult cs false s₁
      else connLoop g rec cx t mult cs first s

/-- src/sfizz/modulations/ModMatrix.cpp:487-495. -/
def fillNeutral (t : Nat) (mult first : Bool) (s : State) : State :=
  if first then writeTarget t (fun _ => if mult then 1 else 0) s else s

/-- src/sfizz/modulations/ModMatrix.cpp:386-498.  The recursion of the code is unbounded; here it is
cut at a depth, and `none` is returned when the depth is exhausted or a connection names a source which
does not exist. -/
def getMod (g : Graph) (cx : Ctx) : Nat → Rec
  | 0, _, _ => none
  | _ + 1, none, s => some (none, s)
  | n + 1, some t, s =>
    match g.targets[t]? with
    | none => some (none, s)
    | some tgt =>
      if cx.region ≠ tgt.region then some (none, s)
      else if s.tgtReady t then some (some (s.tgtBuf t), s)
      else
        match connLoop g (getMod g cx n) cx t tgt.multiplicative tgt.conns true (markTarget t s) with
        | none => none
        | some (first, s₁) =>
          some (some ((fillNeutral t tgt.multiplicative first s₁).tgtBuf t),
            fillNeutral t tgt.multiplicative first s₁)

/-- `getModulation` cut at a depth which is never reached (`modulation_terminates`). -/
def getModulation (g : Graph) (cx : Ctx) (t : Option Nat) (s : State) :
    Option (Option Buf × State) :=
  getMod g cx (g.targets.length + 1) t s

/-- The sources of a list of indices run by `init` and visited by begin/end
(src/sfizz/modulations/ModMatrix.cpp:238-250): those whose key has the given region. -/
def sourcesOf (g : Graph) (r : Option Nat) : List Nat :=
  (List.range g.sources.length).filter (fun i => (g.sources[i]?.map (·.region)) == some r)

/-- src/sfizz/modulations/ModMatrix.cpp:252-263. -/
def targetsOf (g : Graph) (r : Nat) : List Nat :=
  (List.range g.targets.length).filter (fun i => (g.targets[i]?.map (·.region)) == some r)

/-- src/sfizz/modulations/ModMatrix.cpp:305-319. -/
def beginCycle (g : Graph) (s : State) : State :=
  { s with srcReady := fun i => if i ∈ sourcesOf g none then false else s.srcReady i
           log := [] }

/-- src/sfizz/modulations/ModMatrix.cpp:337-358. -/
def beginVoice (g : Graph) (cx : Ctx) (s : State) : State :=
  { s with srcReady := fun i => if i ∈ sourcesOf g (some cx.region) then false else s.srcReady i
           tgtReady := fun i => if i ∈ targetsOf g cx.region then false else s.tgtReady i }

/-- The loops of src/sfizz/modulations/ModMatrix.cpp:326-332 and 372-378. -/
def discardAll (v : Option Nat) : List Nat → State → State
  | [], s => s
  | i :: is, s =>
    discardAll v is (if s.srcReady i then s else { s with log := s.log ++ [⟨i, v, false⟩] })

/-- src/sfizz/modulations/ModMatrix.cpp:360-384. -/
def endVoice (g : Graph) (cx : Ctx) (s : State) : State :=
  discardAll (some cx.voice) (sourcesOf g (some cx.region)) s

/-- src/sfizz/modulations/ModMatrix.cpp:321-335. -/
def endCycle (g : Graph) (s : State) : State :=
  discardAll none (sourcesOf g none) s

/-- The requests of a voice while it renders. -/
def requests (g : Graph) (cx : Ctx) : List (Option Nat) → State → Option (List (Option Buf) × State)
  | [], s => some ([], s)
  | t :: ts, s =>
    match getModulation g cx t s with
    | none => none
    | some (b, s₁) =>
      match requests g cx ts s₁ with
      | none => none
      | some (bs, s₂) => some (b :: bs, s₂)

/-- One voice of a block: `beginVoice`, the requests, `endVoice` (src/sfizz/Synth.cpp:1151-1175). -/
def voice (g : Graph) (cx : Ctx) (asks : List (Option Nat)) (s : State) :
    Option (List (Option Buf) × State) :=
  match requests g cx asks (beginVoice g cx s) with
  | none => none
  | some (bs, s₁) => some (bs, endVoice g cx s₁)

/-- The voices of a block. -/
def voices (g : Graph) : List (Ctx × List (Option Nat)) → State →
    Option (List (List (Option Buf)) × State)
  | [], s => some ([], s)
  | (cx, asks) :: vs, s =>
    match voice g cx asks s with
    | none => none
    | some (bs, s₁) =>
      match voices g vs s₁ with
      | none => none
      | some (bss, s₂) => some (bs :: bss, s₂)

/-- A block (src/sfizz/Synth.cpp:1137-1190): `beginCycle`, the voices, `endCycle`. -/
def block (g : Graph) (vs : List (Ctx × List (Option Nat))) (s : State) :
    Option (List (List (Option Buf)) × State) :=
  match voices g vs (beginCycle g s) with
  | none => none
  | some (bss, s₁) => some (bss, endCycle g s₁)

end Verif.ModMatrix
