import Verif.Curve.Model
import Mathlib.Tactic.Linarith

/-!
Model of `FlexEnvelope` (`src/sfizz/FlexEnvelope.cpp`).

Floats are exact rationals: rounding and NaN are not modelled. What `getTime` and `getLevel` return for a stage
(FlexEGDescription.cpp:88-102, the point's value plus what controllers add) is a parameter, a `Look`. `sustain` is a natural
number: its opcode enforces the lower bound 0 (Defaults.cpp:160); `unsigned` and `size_t` do not overflow.
-/
namespace Verif.FlexEG

/-- Time and level of a stage: `getTime(midiState, delay)` and `getLevel(midiState, delay)`. -/
abbrev Look := Nat → ℚ × ℚ

/-- `FlexEGDescription` (FlexEGDescription.h:41-47): of the points the shapes only. -/
structure Desc where
  dynamic : Bool := false
  sustain : Nat := 0
  curves : List Curve.Points

/-- `FlexEnvelope::Impl` (FlexEnvelope.cpp:35-61). -/
structure Env where
  period : ℚ
  delayLeft : Nat := 0
  source : ℚ := 0
  target : ℚ := 0
  stageTime : ℚ := 0
  sustained : Bool := false
  curve : Curve.Points := fun _ => 0
  stage : Nat := 0
  level : ℚ := 0
  time : ℚ := 0
  untilRelease : Option Nat := none
  released : Bool := false
  freeRunning : Bool := false

/-- `updateCurrentTimeAndLevel` (FlexEnvelope.cpp:283-293). -/
def update (d : Desc) (look : Look) (e : Env) : Env :=
  if e.stage ≥ d.curves.length then e
  else { e with target := (look e.stage).2, stageTime := (look e.stage).1 }

/-- `advanceToStage` (FlexEnvelope.cpp:260-276); the result says whether there is such a stage. -/
def advance (d : Desc) (look : Look) (e : Env) (stage : Nat) : Env × Bool :=
  let e := { e with stage := stage }
  match d.curves[stage]? with
  | none => (e, false)
  | some c =>
    let e := update d look { e with source := e.level, time := 0 }
    ({ e with sustained := decide (stage = d.sustain), curve := c }, true)

/-- `configure` (FlexEnvelope.cpp:80-93). -/
def configure (e : Env) : Env :=
  { e with freeRunning := false, released := false, stage := 0, level := 0, time := 0 }

/-- `start` (FlexEnvelope.cpp:95-101). -/
def start (d : Desc) (look : Look) (e : Env) (delay : Nat) : Env :=
  (advance d look { e with delayLeft := delay, untilRelease := none } 0).1

/-- `release` (FlexEnvelope.cpp:109-113). -/
def release (e : Env) (delay : Nat) : Env := { e with untilRelease := some delay }

/-- `cancelRelease` (FlexEnvelope.cpp:115-133). -/
def cancelRelease (d : Desc) (look : Look) (e : Env) : Env :=
  if e.untilRelease.isSome then { e with untilRelease := none }
  else if e.released = false then e
  else
    let e := (advance d look { e with released := false } d.sustain).1
    { e with target := e.level }

/-- `isFinished` (FlexEnvelope.cpp:147-152). -/
def finished (d : Desc) (e : Env) : Bool := decide (e.stage ≥ d.curves.length)

theorem advance_stage (d : Desc) (look : Look) (e : Env) (k : Nat) : (advance d look e k).1.stage = k := by
  unfold advance
  cases h : d.curves[k]? with
  | none => rfl
  | some c => simp only [update]; split <;> rfl

theorem advance_true (d : Desc) (look : Look) (e : Env) (k : Nat) :
    (advance d look e k).2 = true ↔ k < d.curves.length := by
  unfold advance
  cases h : d.curves[k]? with
  | none => simpa using h
  | some c => have := (List.getElem?_eq_some_iff.mp h).1; simp [this]

/-- The fast-forward past the sustain stage (FlexEnvelope.cpp:205-212); `false` if the stages are exhausted. -/
def forward (d : Desc) (look : Look) (e : Env) : Env × Bool :=
  if e.stage ≤ d.sustain then
    if h : (advance d look e (e.stage + 1)).2 = true then forward d look (advance d look e (e.stage + 1)).1
    else ((advance d look e (e.stage + 1)).1, false)
  else (e, true)
termination_by d.curves.length - e.stage
decreasing_by
  have := (advance_true d look e (e.stage + 1)).mp h
  rw [advance_stage]
  omega

/-- The body of the second loop before the advance (FlexEnvelope.cpp:217-220). -/
def complete (e : Env) : Env := if e.stageTime = 0 then { e with level := e.target } else e

/-- The loop through completed stages (FlexEnvelope.cpp:214-226). -/
def skip (d : Desc) (look : Look) (e : Env) : Env × Bool :=
  if (e.sustained = false ∨ e.freeRunning = true) ∧ e.time ≥ e.stageTime then
    if h : (advance d look (complete e) (e.stage + 1)).2 = true then skip d look (advance d look (complete e) (e.stage + 1)).1
    else ((advance d look (complete e) (e.stage + 1)).1, false)
  else (e, true)
termination_by d.curves.length - e.stage
decreasing_by
  have := (advance_true d look (complete e) (e.stage + 1)).mp h
  rw [advance_stage]
  omega

/-- The check for release (FlexEnvelope.cpp:197-200). -/
def check (e : Env) : Env :=
  if e.untilRelease = some 0 then { e with released := true, untilRelease := none } else e

/-- What a turn does before it renders (FlexEnvelope.cpp:196-226). -/
def prepare (d : Desc) (look : Look) (e : Env) : Env × Bool :=
  let e := check e
  let r := if e.released then forward d look e else (e, true)
  if r.2 then skip d look r.1 else r

/-- `curve.evalNormalized(time * (1.0f / stageEndTime))` (FlexEnvelope.cpp:244-245). With a stage of no duration the quotient
is infinite (`time` is positive), which `evalNormalized` clamps to the last point. The value is always defined
(`Curve.eval_defined`). -/
def shape (c : Curve.Points) (time stageTime : ℚ) : ℚ :=
  if stageTime = 0 then (Curve.evalCC7 c 127).getD 0 else (Curve.evalNormalized c (time * (1 / stageTime))).getD 0

/-- One frame of the innermost loop (FlexEnvelope.cpp:243-246). -/
def tick (e : Env) : Env :=
  { e with time := e.time + e.period,
           level := e.source + shape e.curve (e.time + e.period) e.stageTime * (e.target - e.source) }

/-- The innermost loop (FlexEnvelope.cpp:242-249) with `n` frames up to `maxFrameIndex`: the frames written. -/
def render : Nat → Env → List ℚ × Env
  | 0, e => ([], e)
  | n + 1, e =>
    if e.time < e.stageTime ∨ e.sustained = true then
      ((tick e).level :: (render n (tick e)).1, (render n (tick e)).2)
    else ([], e)

/-- `maxFrameIndex - frameIndex` (FlexEnvelope.cpp:229-231). -/
def allowed (e : Env) (n : Nat) : Nat := match e.untilRelease with
  | some k => min n k
  | none => n

/-- `*currentFramesUntilRelease_ -= framesDone` (FlexEnvelope.cpp:253-254). -/
def countDown (e : Env) (done : Nat) : Env := { e with untilRelease := e.untilRelease.map (· - done) }

/-- The loop over the turns (FlexEnvelope.cpp:193-257) with `n` frames left; `none` is a turn that writes nothing, that is a
loop without end. -/
def loop (d : Desc) (look : Look) (e : Env) (n : Nat) : Option (List ℚ × Env) :=
  if n = 0 then some ([], e)
  else
    let p := prepare d look e
    if p.2 then
      let r := render (allowed p.1 n) p.1
      if _h : 0 < r.1.length ∧ r.1.length ≤ n then
        match loop d look (countDown r.2 r.1.length) (n - r.1.length) with
        | some q => some (r.1 ++ q.1, q.2)
        | none => none
      else none
    else some (List.replicate n 0, p.1)
termination_by n
decreasing_by exact Nat.sub_lt (Nat.lt_of_lt_of_le _h.1 _h.2) _h.1

/-- `Impl::process` (FlexEnvelope.cpp:172-258). -/
def process (d : Desc) (look : Look) (e : Env) (n : Nat) : Option (List ℚ × Env) :=
  let skipped := min n e.delayLeft
  let e := { e with delayLeft := e.delayLeft - skipped }
  if finished d e then some (List.replicate n 0, e)
  else (loop d look e (n - skipped)).map (fun r => (List.replicate skipped 0 ++ r.1, r.2))

/-- `FlexEnvelope::process` in dynamic mode (FlexEnvelope.cpp:157-166): before every 16 frames time and level of the stage
are read again, as they are at that frame; `done` frames are written. -/
def chunks (d : Desc) (look : Nat → Look) (e : Env) (done n : Nat) : Option (List ℚ × Env) :=
  if _h : n = 0 then some ([], e)
  else
    match process d (look 0) (update d (look done) e) (min 16 n) with
    | some r =>
      match chunks d look r.2 (done + min 16 n) (n - min 16 n) with
      | some q => some (r.1 ++ q.1, q.2)
      | none => none
    | none => none
termination_by n

/-- `FlexEnvelope::process` (FlexEnvelope.cpp:154-170); `look delay` is what the controllers give at frame `delay`. -/
def block (d : Desc) (look : Nat → Look) (e : Env) (n : Nat) : Option (List ℚ × Env) :=
  if d.dynamic then chunks d look e 0 n else process d (look 0) e n

end Verif.FlexEG
