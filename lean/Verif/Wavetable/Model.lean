import Mathlib.Analysis.SpecialFunctions.Log.Basic
import Mathlib.Analysis.SpecialFunctions.Complex.Log
import Mathlib.Analysis.SpecialFunctions.Trigonometric.Basic
import Mathlib.Algebra.Order.Floor.Ring
import Mathlib.Algebra.BigOperators.Intervals
import Mathlib.Data.Real.Archimedean

/-!
# Wavetable oscillators

Models `src/sfizz/Wavetables.cpp`, `Wavetables.h`, and the set-up of unison oscillators (Voice.cpp:1909-1958).

Simplifications. Numbers are real. Where rounding could lead outside of a table, the phase and the position in the table go
through a rounding function `r`, about which theorems assume as little as possible; everything else is exact. There are no
infinities and no NaN. The inverse transform of kissfft is taken from its documentation: the sum of the cosines of the bins,
not scaled.
-/
namespace Verif.Wavetable

open Real

/-! ### Oscillator -/

/-- Conversion of a float to an integer: towards zero. -/
noncomputable def trunc (x : ℝ) : ℤ := if 0 ≤ x then ⌊x⌋ else ⌈x⌉

/-- `static_cast<int>`: undefined if the result does not fit. -/
noncomputable def toInt (x : ℝ) : Option ℤ := if -(2 ^ 31 : ℝ) - 1 < x ∧ x < 2 ^ 31 then some (trunc x) else none

/-- `static_cast<unsigned>`: undefined if the result does not fit. -/
noncomputable def toUnsigned (x : ℝ) : Option ℤ := if -1 < x ∧ x < 2 ^ 32 then some (trunc x) else none

/-- `incrementAndWrap` (Wavetables.cpp:39-45). -/
noncomputable def incrementAndWrap (r : ℝ → ℝ) (phase inc : ℝ) : Option ℝ := do
  let p := r (phase + inc)
  let k ← toInt p
  let q := r (p - k)
  return if q < 0 then r (q + 1) else q

/-- `WavetableMulti` (Wavetables.h:152-228): the size of a table and the memory of all tables. -/
structure Multi where
  size : ℕ
  data : ℕ → ℝ

/-- `MipmapRange::N` (Wavetables.h:124). -/
def numTables : ℕ := 24

/-- `_tableExtra` (Wavetables.h:222). -/
def tableExtra : ℕ := 4

/-- `getTablePointer` (Wavetables.h:203-206), as an index of the memory. -/
def tableStart (size m : ℕ) : ℕ := m * (size + 2 * tableExtra) + tableExtra

/-- A read at an offset from the beginning of a table: undefined outside of the memory, whose size is given by
`allocateStorage` (Wavetables.cpp:411-415). -/
def Multi.get (w : Multi) (m : ℕ) (i : ℤ) : Option ℝ :=
  let j := (tableStart w.size m : ℤ) + i
  if 0 ≤ j ∧ j < ((w.size + 2 * tableExtra) * numTables : ℕ) then some (w.data j.toNat) else none

/-- The interpolators that oscillators use (Interpolators.hpp:46-103). -/
inductive Interpolator where
  | nearest
  | linear
  | hermite
deriving DecidableEq

/-- `hermite3` (MathHelpers.h:184-198). -/
noncomputable def hermite3 (x : ℝ) : ℝ :=
  if |x| < 1 then 1 - 5 / 2 * |x| ^ 2 + 3 / 2 * |x| ^ 3
  else if |x| < 2 then 2 - 4 * |x| + 5 / 2 * |x| ^ 2 - 1 / 2 * |x| ^ 3 else 0

/-- `interpolate` (Interpolators.hpp:37-103): what it reads around the pointer. -/
noncomputable def interpolate (v : ℤ → Option ℝ) (c : ℝ) : Interpolator → Option ℝ
  | .nearest => v (if c > 1 / 2 then 1 else 0)
  | .linear => do
    let a ← v 0
    let b ← v 1
    return a * (1 - c) + b * c
  | .hermite => do
    let a ← v (-1)
    let b ← v 0
    let d ← v 1
    let e ← v 2
    return hermite3 (-1 - c) * a + hermite3 (0 - c) * b + hermite3 (1 - c) * d + hermite3 (2 - c) * e

/-- `clamp`. -/
noncomputable def clamp (x lo hi : ℝ) : ℝ := max lo (min x hi)

/-! ### Which table -/

/-- `LogB` (Wavetables.cpp:296): `F1 = 20`, `FN = 12000`, `N = 24`. -/
noncomputable def logB : ℝ := log (12000 / 20) / 23

/-- `getExactIndexForFrequency` (Wavetables.cpp:329-333). -/
noncomputable def exactIndex (f : ℝ) : ℝ := clamp (if f < 20 then 0 else log (f / 20) / logB) 0 23

/-- `FrequencyToIndex` (Wavetables.cpp:298-311). -/
noncomputable def lut (i : ℕ) : ℝ := if i < 1023 then exactIndex (20 + i * (1 / 1023) * (12000 - 20)) else 23

/-- `getIndexForFrequency` (Wavetables.cpp:313-327). -/
noncomputable def indexFor (f : ℝ) : ℝ :=
  let pos := clamp ((f - 20) * (1023 / (12000 - 20))) 0 1023
  let i1 := ⌊pos⌋.toNat
  let i2 := min (i1 + 1) 1023
  let frac := pos - i1
  (1 - frac) * lut i1 + frac * lut i2

/-- `getTableForFrequency` (Wavetables.h:170-173): the conversion of the index is towards zero. -/
noncomputable def tableFor (f : ℝ) : ℕ := (trunc (indexFor f)).toNat

/-- `getInterpolationPair` (Wavetables.h:183-191): two tables and the weight of the second one. -/
noncomputable def pairFor (f : ℝ) : ℕ × ℕ × ℝ :=
  let index := trunc (indexFor f)
  ((max 0 (min index 23)).toNat, (max 0 (min (index + 1) 23)).toNat, indexFor f - index)

/-- The interpolator of a quality, and whether two tables are mixed (`process`, Wavetables.cpp:143-181). -/
def ofQuality (q : ℤ) : Interpolator × Bool :=
  if q ≤ 0 then (.nearest, false) else if q = 1 then (.linear, false) else if q = 2 then (.hermite, false)
  else (.hermite, true)

/-- One frame of `processSingle`, `processDual` and their modulated versions (Wavetables.cpp:47-141): the sample and the new
phase. -/
noncomputable def frame (r : ℝ → ℝ) (w : Multi) (quality : ℤ) (interval : ℝ) (phase : ℝ) (frequency detune : ℝ) :
    Option (ℝ × ℝ) := do
  let inc := r (frequency * r (detune * interval))
  let position := r (phase * w.size)
  let index ← toUnsigned position
  let frac := position - index
  let (model, dual) := ofQuality quality
  let out ←
    if dual then do
      let (m1, m2, delta) := pairFor frequency
      let a ← interpolate (fun i => w.get m1 (index + i)) frac model
      let b ← interpolate (fun i => w.get m2 (index + i)) frac model
      pure ((1 - delta) * a + delta * b)
    else interpolate (fun i => w.get (tableFor frequency) (index + i)) frac model
  let phase ← incrementAndWrap r phase inc
  return (out, phase)

/-- `processModulated` (Wavetables.cpp:68-90, 117-141, 163-181): the samples and the new phase. -/
noncomputable def processModulated (r : ℝ → ℝ) (w : Multi) (quality : ℤ) (interval : ℝ) :
    ℝ → List (ℝ × ℝ) → Option (List ℝ × ℝ)
  | phase, [] => some ([], phase)
  | phase, (f, d) :: rest => do
    let (x, phase) ← frame r w quality interval phase f d
    let (xs, phase) ← processModulated r w quality interval phase rest
    return (x :: xs, phase)

/-- `process` (Wavetables.cpp:47-66, 92-115, 143-161): the table and the increment are found once. -/
noncomputable def process (r : ℝ → ℝ) (w : Multi) (quality : ℤ) (interval f d : ℝ) (phase : ℝ) (n : ℕ) :
    Option (List ℝ × ℝ) :=
  let inc := r (f * r (d * interval))
  let m := tableFor f
  let (m1, m2, delta) := pairFor f
  let rec loop : ℕ → ℝ → Option (List ℝ × ℝ)
    | 0, phase => some ([], phase)
    | n + 1, phase => do
      let position := r (phase * w.size)
      let index ← toUnsigned position
      let frac := position - index
      let (model, dual) := ofQuality quality
      let x ←
        if dual then do
          let a ← interpolate (fun i => w.get m1 (index + i)) frac model
          let b ← interpolate (fun i => w.get m2 (index + i)) frac model
          pure ((1 - delta) * a + delta * b)
        else interpolate (fun i => w.get m (index + i)) frac model
      let phase ← incrementAndWrap r phase inc
      let (xs, phase) ← loop n phase
      return (x :: xs, phase)
  loop n phase

/-! ### Filling the tables -/

/-- `IndexToStartFrequency` (Wavetables.cpp:335-344); `1 / K = 20`. -/
noncomputable def startFrequency (t : ℕ) : ℝ := if t < 24 then exp (t * logB) * 20 else 22050

/-- The highest frequency a table is meant for (`getRangeForIndex`, Wavetables.cpp:346-355). -/
noncomputable def maxFrequency (m : ℕ) : ℝ := startFrequency (min m 23 + 1)

/-- `tableRefSampleRate` (Config.h:108). -/
noncomputable def refRate : ℝ := 44100 * 1.1

/-- Where `createForHarmonicProfile` cuts (Wavetables.cpp:380-383). -/
noncomputable def cutoffOf (size m : ℕ) : ℝ := 0.5 * refRate / size / maxFrequency m

/-- The spectrum that `generate` fills (Wavetables.cpp:190-209): the loop goes from 1 to `size / 2` and stops at the first bin
above the cutoff. -/
noncomputable def spectrum (size : ℕ) (amplitude cutoff : ℝ) (harmonic : ℕ → ℂ) (index : ℕ) : ℂ :=
  if 1 ≤ index ∧ index < size / 2 + 1 ∧ (∀ k, 1 ≤ k → k ≤ index → ¬ (k * (1 / size : ℝ) > cutoff)) then
    (amplitude * 0.5 : ℝ) * Complex.exp (π / 2 * Complex.I) * harmonic index
  else 0

/-- `kiss_fftri` for an even size: the bins are those of a real signal, the result is not scaled. -/
noncomputable def inverseReal (size : ℕ) (spec : ℕ → ℂ) (n : ℕ) : ℝ :=
  (spec 0).re + (∑ h ∈ Finset.Ico 1 (size / 2), 2 * (spec h * Complex.exp (2 * π * h * n / size * Complex.I)).re) +
    (spec (size / 2)).re * (-1) ^ n

/-- `HarmonicProfile::generate` (Wavetables.cpp:184-213). -/
noncomputable def generate (size : ℕ) (amplitude cutoff : ℝ) (harmonic : ℕ → ℂ) : ℕ → ℝ :=
  inverseReal size (spectrum size amplitude cutoff harmonic)

/-- One pass of the loops of `fillExtra` that copy to the right of a table (Wavetables.cpp:427-433). -/
def fillRight (b e : ℕ) : ℕ → ℕ → ℕ → (ℕ → ℝ) → (ℕ → ℝ)
  | 0, _, _, mem => mem
  | k + 1, src, dst, mem =>
    fillRight b e k (if src + 1 ≠ e then src + 1 else b) (dst + 1) (Function.update mem dst (mem src))

/-- The same to the left (Wavetables.cpp:434-440). -/
def fillLeft (b e : ℕ) : ℕ → ℕ → ℕ → (ℕ → ℝ) → (ℕ → ℝ)
  | 0, _, _, mem => mem
  | k + 1, src, dst, mem =>
    fillLeft b e k (if src ≠ b then src - 1 else e - 1) (dst - 1) (Function.update mem dst (mem src))

/-- `fillExtra` for one table (Wavetables.cpp:424-440). -/
def fillTable (size m : ℕ) (mem : ℕ → ℝ) : ℕ → ℝ :=
  let b := tableStart size m
  let e := b + size
  fillLeft b e tableExtra (e - 1) (b - 1) (fillRight b e tableExtra b e mem)

/-- `fillExtra` (Wavetables.cpp:417-441). -/
def fillExtra (w : Multi) : Multi :=
  { w with data := (List.range numTables).foldl (fun mem m => fillTable w.size m mem) w.data }

/-- The loop of `createForHarmonicProfile` (Wavetables.cpp:374-388) that writes the tables. What the memory holds elsewhere
does not matter. -/
noncomputable def writeTables (size : ℕ) (amplitude : ℝ) (harmonic : ℕ → ℂ) (junk : ℕ → ℝ) (j : ℕ) : ℝ :=
  let m := j / (size + 2 * tableExtra)
  let i := j % (size + 2 * tableExtra)
  if tableExtra ≤ i ∧ i < tableExtra + size then generate size amplitude (cutoffOf size m) harmonic (i - tableExtra)
  else junk j

/-- `createForHarmonicProfile` (Wavetables.cpp:366-392). -/
noncomputable def create (size : ℕ) (amplitude : ℝ) (harmonic : ℕ → ℂ) (junk : ℕ → ℝ) : Multi :=
  fillExtra { size, data := writeTables size amplitude harmonic junk }

/-- `SineProfile` (Wavetables.cpp:215-221). -/
def sineProfile (index : ℕ) : ℂ := if index = 1 then 1 else 0

/-- `TriangleProfile` (Wavetables.cpp:223-235). -/
noncomputable def triangleProfile (index : ℕ) : ℂ :=
  if index % 2 = 0 then 0
  else (8 / (π * π) * (1 / (index * index)) : ℝ) * Complex.exp ((if index / 2 % 2 = 1 then 0 else π : ℝ) * Complex.I)

/-- `SawProfile` (Wavetables.cpp:237-248). -/
noncomputable def sawProfile (index : ℕ) : ℂ :=
  if index < 1 then 0
  else (2 / π / index : ℝ) * Complex.exp ((if index % 2 = 1 then 0 else π : ℝ) * Complex.I)

/-- `SquareProfile` (Wavetables.cpp:250-259). -/
noncomputable def squareProfile (index : ℕ) : ℂ :=
  if index % 2 = 0 then 0 else (4 / π / index : ℝ) * Complex.exp (π * Complex.I)

/-- The harmonics of a file (`createFileWave`, Wavetables.cpp:513-562, `TabulatedHarmonicProfile`, 446-464), for an even number
of frames: the transform of the first channel, scaled by `polar(2 / size, -π / 2)`. -/
noncomputable def fileProfile (frames : ℕ) (x : ℕ → ℝ) (index : ℕ) : ℂ :=
  if index ≥ frames / 2 + 1 then 0
  else (∑ j ∈ Finset.range frames, (x j : ℂ) * Complex.exp (-(2 * π * index * j / frames * Complex.I))) *
    ((2 / frames : ℝ) * Complex.exp (-(π / 2 * Complex.I)))

/-! ### Unison -/

/-- The detuning of oscillator `i` in cents (`setupOscillatorUnison`, Voice.cpp:1932-1940). -/
def detune (d : ℚ) (i : ℕ) : ℚ :=
  if i = 0 then 0 else if i = 1 then -d else if i = 2 then d
  else d * (if i % 2 = 1 then -(1 / 4) else 1 / 4) * ((i - 1) / 2 : ℕ)

/-- The gains to the left and to the right (Voice.cpp:1946-1954): the loop writes both arrays from their ends. `left` and
`right` are what an earlier note left in the arrays. -/
def gains (m : ℕ) (left right : ℕ → ℚ) : (ℕ → ℚ) × (ℕ → ℚ) :=
  (List.range (m - 1)).foldl
    (fun (g : (ℕ → ℚ) × (ℕ → ℚ)) (i : ℕ) =>
      let x := 1 - (i : ℚ) / ((m : ℚ) - 1)
      (Function.update g.1 (m - 1 - i) x, Function.update g.2 i x))
    (Function.update left 0 0, Function.update right (m - 1) 0)

end Verif.Wavetable
