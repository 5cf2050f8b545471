import Verif.Midi.Model
import Mathlib.Data.Rat.Floor

/-!
Model of the event-to-envelope rendering, /repo/src/sfizz/ModifierHelpers.h:66-147.

Values are exact rationals where the code computes in `float`; `lambda` is an arbitrary function. The destination is a
log: for every frame the values written to it, in order. Spans follow absl: a start outside the span is an error.
`multiplicativeEnvelope` and `pitchBendEnvelope` have no caller in the library and are not modelled.
-/
namespace Verif.Envelope
open Verif.Midi (Event EventVector)

/-- What was written to each frame, in order. -/
abbrev Log := Nat → List ℚ

/-- `absl::Span::subspan(pos, len)` of a span of `size` frames, with the conversions to `size_t`; `none` when it throws. -/
def subspan (size : Nat) (pos len : Int) : Option (Nat × Nat) :=
  if 0 ≤ pos ∧ pos ≤ size then
    some (pos.toNat, if len < 0 then size - pos.toNat else min len.toNat (size - pos.toNat))
  else none

/-- Write the `n` values `g 0, g 1, …` from frame `p` on. -/
def write (log : Log) (p n : Nat) (g : Nat → ℚ) : Log :=
  fun i => if p ≤ i ∧ i < p + n then log i ++ [g (i - p)] else log i

/-- `fill(envelope.subspan(pos, len), v)`. -/
def fill (size : Nat) (log : Log) (pos len : Int) (v : ℚ) : Option Log :=
  (subspan size pos len).map (fun s => write log s.1 s.2 (fun _ => v))

/-- `fill(envelope.subspan(pos), v)`. -/
def fillRest (size : Nat) (log : Log) (pos : Int) (v : ℚ) : Option Log :=
  (subspan size pos (-1)).map (fun s => write log s.1 s.2 (fun _ => v))

/-- `linearRamp(envelope.subspan(pos, len), start, step)` (simd/HelpersScalar.h:86-95): the frames and the value after them.
The repeated addition is exact here, so it is written as a product. -/
def rampSpan (size : Nat) (log : Log) (pos len : Int) (start step : ℚ) : Option (Log × ℚ) :=
  (subspan size pos len).map (fun s => (write log s.1 s.2 (fun k => start + k * step), start + s.2 * step))

/-- The loop of `linearEnvelope` (ModifierHelpers.h:87-92). `none` also stands for a division by a length of 0. -/
def linearLoop (f : ℚ → ℚ) (size : Nat) (log : Log) (lastValue : ℚ) (lastDelay : Int) : EventVector → Option (Log × ℚ × Int)
  | [] => some (log, lastValue, lastDelay)
  | e :: es =>
    if lastDelay < (size : Int) - 1 then
      if min e.delay ((size : Int) - 1) - lastDelay = 0 then none
      else
        match rampSpan size log lastDelay (min e.delay ((size : Int) - 1) - lastDelay) lastValue
            ((f e.value - lastValue) / ((min e.delay ((size : Int) - 1) - lastDelay : Int) : ℚ)) with
        | none => none
        | some (log', v) => linearLoop f size log' v (lastDelay + (min e.delay ((size : Int) - 1) - lastDelay)) es
    else some (log, lastValue, lastDelay)

/-- `linearEnvelope(events, envelope, lambda)` (ModifierHelpers.h:74-94). -/
def linearEnvelope (f : ℚ → ℚ) (events : EventVector) (size : Nat) : Option Log :=
  match events with
  | [] => none
  | e :: es =>
    if size = 0 then some (fun _ => [])
    else
      match linearLoop f size (fun _ => []) (f e.value) e.delay es with
      | none => none
      | some (log, v, d) => fillRest size log d v

/-- `std::trunc`. -/
def trunc (x : ℚ) : Int := if 0 ≤ x then ⌊x⌋ else ⌈x⌉

/-- The lambda `quantize` (ModifierHelpers.h:119-121). -/
def quantize (step : ℚ) (x : ℚ) : ℚ := trunc (x / step) * step

/-- The inner loop (ModifierHelpers.h:140-144). -/
def stepLoop (size : Nat) (step next : ℚ) (stepLength : Int) (log : Log) (v : ℚ) (d : Int) : Nat → Option (Log × ℚ × Int)
  | 0 => some (log, v, d)
  | k + 1 =>
    match fill size log d stepLength v with
    | none => none
    | some log' => stepLoop size step next stepLength log' (v + (if v ≤ next then step else -step)) (d + stepLength) k

/-- The loop of the quantized `linearEnvelope` (ModifierHelpers.h:126-145). `none` also stands for an integer division by 0. -/
def quantLoop (f : ℚ → ℚ) (step : ℚ) (size : Nat) (log : Log) (lastValue : ℚ) (lastDelay : Int) :
    EventVector → Option (Log × ℚ × Int)
  | [] => some (log, lastValue, lastDelay)
  | e :: es =>
    if lastDelay < (size : Int) - 1 then
      let next := quantize step (f e.value)
      let length := min e.delay ((size : Int) - 1) - lastDelay
      if |next - lastValue| < step then
        match fill size log lastDelay length lastValue with
        | none => none
        | some log' => quantLoop f step size log' next (lastDelay + length) es
      else
        let numSteps := trunc (|next - lastValue| / step)
        if numSteps = 0 then none
        else
          match stepLoop size step next (length.tdiv numSteps) log lastValue lastDelay numSteps.toNat with
          | none => none
          | some (log', v, d) => quantLoop f step size log' v d es
    else some (log, lastValue, lastDelay)

/-- The quantized `linearEnvelope(events, envelope, lambda, step)` (ModifierHelpers.h:105-147). -/
def quantEnvelope (f : ℚ → ℚ) (events : EventVector) (size : Nat) (step : ℚ) : Option Log :=
  if step = 0 then linearEnvelope f events size
  else
    match events with
    | [] => none
    | e :: es =>
      if size = 0 then some (fun _ => [])
      else
        match quantLoop f step size (fun _ => []) (quantize step (f e.value)) e.delay es with
        | none => none
        | some (log, v, d) => fillRest size log d v

end Verif.Envelope
