import Mathlib.Algebra.Order.Field.Rat
import Mathlib.Data.Rat.Floor

/-!
Model of the low-frequency oscillator, /repo/src/sfizz/LFO.cpp, and of `wrapPhase`, /repo/src/sfizz/MathHelpers.h:321-327.

Values are exact rationals where the code computes in `float`; `wrapPhaseR` repeats the phase wrapping with an arbitrary
rounding after every operation. Both modes of `generatePhase` are modelled: free running, and following the beats of the host
(`BeatClock::calculatePhase` and `calculatePhaseModulated`, /repo/src/sfizz/BeatClock.cpp:217-249; the beat positions themselves are
those of `Verif.BeatClock` and given here frame by frame). An absent modulation is the modulation by 0. The conversion of the phase
in beats to `int` (BeatClock.cpp:232, 246) is taken not to overflow. Every sample-and-hold
sub draws from its own sequence of random numbers; in the code the subs share one generator.
-/
namespace Verif.Lfo

/-- Conversion to `int`: rounding towards zero. -/
def trunc (x : ℚ) : Int := if 0 ≤ x then ⌊x⌋ else ⌈x⌉

/-- `wrapPhase` (MathHelpers.h:321-327). -/
def wrapPhase (phase : ℚ) : ℚ := (phase - trunc phase) + (if phase - trunc phase < 0 then 1 else 0)

/-- `wrapPhase` with the results of the subtraction and of the addition rounded by `rnd`. -/
def wrapPhaseR (rnd : ℚ → ℚ) (phase : ℚ) : ℚ :=
  rnd (rnd (phase - trunc phase) + (if rnd (phase - trunc phase) < 0 then 1 else 0))

/-- `LFOWave` (LFODescription.h / LFOCommon.h). -/
inductive Wave
  | triangle | sine | pulse75 | square | pulse25 | pulse12_5 | ramp | saw | randomSH
deriving DecidableEq, Repr

/-- `LFO::eval` (LFO.cpp:101-155); not called for the sample-and-hold. -/
def eval (w : Wave) (phase : ℚ) : ℚ :=
  match w with
  | .triangle =>
    let y := -4 * phase + 2
    let y := if phase < 1/4 then 4 * phase else y
    if phase > 3/4 then 4 * phase - 4 else y
  | .sine => let x := phase + phase - 1; -4 * x * (1 - |x|)
  | .pulse75 => if phase < 3/4 then 1 else 0
  | .square => if phase < 1/2 then 1 else 0
  | .pulse25 => if phase < 1/4 then 1 else 0
  | .pulse12_5 => if phase < 1/8 then 1 else 0
  | .ramp => 2 * phase - 1
  | .saw => 1 - 2 * phase
  | .randomSH => 0

/-- What a sub produces: a wave, or (the first one of an LFO with `lfoN_steps`) the step sequence. -/
inductive Source
  | wave (w : Wave)
  | steps (values : List ℚ)

/-- `LFODescription::Sub` (LFODescription.h). -/
structure Sub where
  source : Source
  offset : ℚ
  scale : ℚ
  ratio : ℚ

/-- The state of a sub: `subPhases_`, `sampleHoldMem_`, `sampleHoldState_` (LFO.cpp:46-48), and how many numbers it has drawn. -/
structure SubState where
  phase : ℚ
  mem : ℚ
  hold : Bool
  draws : Nat
deriving DecidableEq, Repr

/-- What does not change while the LFO runs. -/
structure Desc where
  samplePeriod : ℚ
  freq : ℚ
  phase0 : ℚ
  fadeTime : ℚ
  random : Nat → Nat → ℚ
  /-- `lfoN_beats` -/
  beats : ℚ := 0

/-- What a frame reads from outside: the modulations of frequency, phase and beats, whether the host plays (the same for all the
frames of a block in the code), and its position in beats. -/
structure Mods where
  freq : ℚ
  phase : ℚ
  beats : ℚ := 0
  playing : Bool := false
  position : ℚ := 0
deriving DecidableEq

/-- `steps[static_cast<int>(phase * numSteps)]` (LFO.cpp:228); `none` outside of the steps. -/
def stepAt (values : List ℚ) (phase : ℚ) : Option ℚ :=
  if 0 ≤ trunc (phase * values.length) then values[(trunc (phase * values.length)).toNat]? else none

/-- What a frame adds to the output, given the phase (LFO.cpp:170, 188, 228-229). -/
def contribution (sub : Sub) (s : SubState) (phase : ℚ) : Option ℚ :=
  match sub.source with
  | .steps values => if values.length = 0 then some 0 else (stepAt values phase).map (fun v => sub.offset + sub.scale * v)
  | .wave .randomSH => some (sub.offset + sub.scale * s.mem)
  | .wave w => some (sub.offset + sub.scale * eval w phase)

/-- The sample-and-hold update (LFO.cpp:192-201). -/
def holdUpdate (d : Desc) (nth : Nat) (sub : Sub) (s : SubState) (phase : ℚ) : SubState :=
  match sub.source with
  | .wave .randomSH =>
    if decide (phase > 1/2) ≠ s.hold then { s with mem := d.random nth s.draws, hold := decide (phase > 1/2), draws := s.draws + 1 }
    else s
  | _ => s

/-- The test for the beat clock (LFO.cpp:355). -/
def followsBeats (d : Desc) (m : Mods) : Bool := m.playing && decide (d.beats > 0)

/-- The period of a sub in beats (LFO.cpp:357, 360, 368-370). -/
def beatPeriod (d : Desc) (sub : Sub) (m : Mods) : ℚ := (d.beats + m.beats) * (if sub.ratio > 0 then 1 / sub.ratio else 0)

/-- `calculatePhase`, `calculatePhaseModulated` for a frame (BeatClock.cpp:217-249). -/
def beatPhase (period position : ℚ) : ℚ :=
  if period ≤ 0 then 0 else max 0 position / period - trunc (max 0 position / period)

/-- The phase seen by the wave in a frame (LFO.cpp:355-386 and 395-401). -/
def shownPhase (d : Desc) (sub : Sub) (s : SubState) (m : Mods) : ℚ :=
  wrapPhase ((if followsBeats d m then beatPhase (beatPeriod d sub m) m.position else s.phase) + d.phase0 + m.phase)

/-- The phase of the next frame (LFO.cpp:378-390, 403); kept while the beats are followed. -/
def nextPhase (d : Desc) (sub : Sub) (s : SubState) (m : Mods) : ℚ :=
  if followsBeats d m then s.phase else wrapPhase (s.phase + sub.ratio * d.samplePeriod * (d.freq + m.freq))

/-- One frame of one sub: `generatePhase` and the wave, interleaved frame by frame (they only meet in the phase buffer). -/
def subFrame (d : Desc) (nth : Nat) (sub : Sub) (s : SubState) (m : Mods) : SubState :=
  { holdUpdate d nth sub s (shownPhase d sub s m) with phase := nextPhase d sub s m }

/-- One sub over a block: its contributions and its state after. -/
def subBlock (d : Desc) (nth : Nat) (sub : Sub) (s : SubState) : List Mods → Option (List ℚ × SubState)
  | [] => some ([], s)
  | m :: ms =>
    match contribution sub s (shownPhase d sub s m), subBlock d nth sub (subFrame d nth sub s m) ms with
    | some c, some (cs, s') => some (c :: cs, s')
    | _, _ => none

/-- The loop over the subs (LFO.cpp:264-301): each adds to the output. -/
def subsBlock (d : Desc) (ms : List Mods) : Nat → List (Sub × SubState) → Option (List ℚ × List (Sub × SubState))
  | _, [] => some (List.replicate ms.length 0, [])
  | nth, (sub, s) :: rest =>
    match subBlock d nth sub s ms, subsBlock d ms (nth + 1) rest with
    | some (cs, s'), some (out, rest') => some (List.zipWith (· + ·) cs out, (sub, s') :: rest')
    | _, _ => none

/-- `processFadeIn` (LFO.cpp:306-325). -/
def fadeBlock (d : Desc) (pos : ℚ) : List ℚ → List ℚ × ℚ
  | [] => ([], pos)
  | y :: ys =>
    if pos < 1 then
      ((y * pos) :: (fadeBlock d (min 1 (pos + d.samplePeriod / d.fadeTime)) ys).1,
        (fadeBlock d (min 1 (pos + d.samplePeriod / d.fadeTime)) ys).2)
    else (y :: ys, pos)

/-- The state of the LFO (LFO.cpp:43-48). -/
structure State where
  delay : Nat
  fadePos : ℚ
  subs : List (Sub × SubState)

/-- `LFO::process` (LFO.cpp:233-304). The modulation buffers and the beat positions start with the block, but after a delay
they are read from their first frame on, together with the first frame after the delay. -/
def process (d : Desc) (s : State) (ms : List Mods) : Option (List ℚ × State) :=
  let skip := min ms.length s.delay
  if s.subs = [] then some (List.replicate ms.length 0, { s with delay := s.delay - skip })
  else
    match subsBlock d (ms.take (ms.length - skip)) 0 s.subs with
    | none => none
    | some (out, subs') =>
      some (List.replicate skip 0 ++ (fadeBlock d s.fadePos out).1,
        { delay := s.delay - skip, fadePos := (fadeBlock d s.fadePos out).2, subs := subs' })

/-- `LFO::start` (LFO.cpp:75-99), given the delay in frames and the fade time. -/
def start (delayFrames : Nat) (fadeTime : ℚ) (subs : List Sub) : State :=
  { delay := delayFrames, fadePos := if fadeTime > 0 then 0 else 1, subs := subs.map (fun s => (s, ⟨0, 0, false, 0⟩)) }

/-- Successive blocks. -/
def run (d : Desc) (s : State) : List (List Mods) → Option (List ℚ × State)
  | [] => some ([], s)
  | ms :: rest =>
    match process d s ms with
    | none => none
    | some (out, s') =>
      match run d s' rest with
      | none => none
      | some (out', s'') => some (out ++ out', s'')

/-- Round to the nearest integer, ties to even. -/
def roundEven (q : ℚ) : Int :=
  if q - ⌊q⌋ < 1/2 then ⌊q⌋ else if q - ⌊q⌋ > 1/2 then ⌊q⌋ + 1 else if ⌊q⌋ % 2 = 0 then ⌊q⌋ else ⌊q⌋ + 1

/-- Rounding to `float` of the numbers between 2^-40 and 1 in size: 24 significant bits. Used for one concrete case. -/
def floatScale (x : ℚ) : Nat → ℚ → ℚ
  | 0, u => u
  | n + 1, u => if |x| < 1 / u / 2 then floatScale x n (u * 2) else u

def roundFloat (x : ℚ) : ℚ :=
  let u := floatScale x 40 1
  (roundEven (x * u * 2 ^ 24) : ℚ) / (u * 2 ^ 24)

end Verif.Lfo
