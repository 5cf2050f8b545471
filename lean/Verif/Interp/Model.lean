import Mathlib.Algebra.Order.Ring.Rat
import Mathlib.Algebra.Order.Field.Basic
import Mathlib.Algebra.Order.Floor.Ring
import Mathlib.Data.Rat.Floor

/-!
Model of the interpolators (`src/sfizz/Interpolators.hpp`, `MathHelpers.h:178-267`, `WindowedSinc.hpp`, `WindowedSinc.cpp`).

Numbers are exact. A signal is a function of the sample index relative to the pointer given to `interpolate`.
-/
namespace Verif.Interp

/-- Samples around the pointer passed to `interpolate`. -/
abbrev Signal := Int → ℚ

/-- `Interpolator<kInterpolatorNearest>::process` (Interpolators.hpp:46-54). -/
def nearest (v : Signal) (c : ℚ) : ℚ := if c > 1 / 2 then v 1 else v 0

/-- `Interpolator<kInterpolatorLinear>::process` (Interpolators.hpp:59-67). -/
def linear (v : Signal) (c : ℚ) : ℚ := v 0 * (1 - c) + v 1 * c

/-- `hermite3` (MathHelpers.h:184-198). -/
def hermite3 (x : ℚ) : ℚ :=
  let x := |x|
  let x2 := x * x
  let x3 := x2 * x
  let y := 0
  let q := 5 / 2 * x2
  let p1 := 1 - q + 3 / 2 * x3
  let p2 := 2 - 4 * x + q - 1 / 2 * x3
  let y := if x < 2 then p2 else y
  if x < 1 then p1 else y

/-- One lane of `hermite3x4` (MathHelpers.h:206-221): the comparisons are `≤`. -/
def hermite3x4 (x : ℚ) : ℚ :=
  let x := |x|
  let x2 := x * x
  let x3 := x2 * x
  let y := 0
  let q := 5 / 2 * x2
  let p1 := (1 - q) + 3 / 2 * x3
  let p2 := ((2 - 4 * x) + q) - 1 / 2 * x3
  let y := if x ≤ 2 then p2 else y
  if x ≤ 1 then p1 else y

/-- `bspline3` (MathHelpers.h:230-243). -/
def bspline3 (x : ℚ) : ℚ :=
  let x := |x|
  let x2 := x * x
  let x3 := x2 * x
  let y := 0
  let p1 := 2 / 3 - x2 + 1 / 2 * x3
  let p2 := 4 / 3 - 2 * x + x2 - 1 / 6 * x3
  let y := if x < 2 then p2 else y
  if x < 1 then p1 else y

/-- One lane of `bspline3x4` (MathHelpers.h:251-265). -/
def bspline3x4 (x : ℚ) : ℚ :=
  let x := |x|
  let x2 := x * x
  let x3 := x2 * x
  let y := 0
  let p1 := (2 / 3 - x2) + 1 / 2 * x3
  let p2 := ((4 / 3 - 2 * x) + x2) - 1 / 6 * x3
  let y := if x ≤ 2 then p2 else y
  if x ≤ 1 then p1 else y

/-- The four-point interpolators, generic version (Interpolators.hpp:90-103, 126-139): `i` from -1 to 2. -/
def fourPoint (h : ℚ → ℚ) (v : Signal) (c : ℚ) : ℚ :=
  (((0 + h (-1 - c) * v (-1)) + h (0 - c) * v 0) + h (1 - c) * v 1) + h (2 - c) * v 2

/-- The vectorized version (Interpolators.hpp:73-84, 109-120): four products, added in pairs by `vaddv`. -/
def fourPointX4 (h : ℚ → ℚ) (v : Signal) (c : ℚ) : ℚ :=
  (h (-1 - c) * v (-1) + h (0 - c) * v 0) + (h (1 - c) * v 1 + h (2 - c) * v 2)

/-! ### Windowed sinc -/

/-- The table as filled by `calculateTable` (WindowedSinc.cpp:13-31) with `f` the windowed sinc: `none` is memory that was not written.
The entries beyond the table are meant to repeat the last one, but `table[extra + i]` is written. -/
def sincTable (f : ℚ → ℚ) (points tableSize extra : Nat) (i : Nat) : Option ℚ :=
  let scale : ℚ := points / ((tableSize : ℚ) - 1)
  let offset : ℚ := points / (-2)
  let value (i : Nat) : ℚ := f (i * scale + offset)
  if extra ≤ i ∧ i < extra + extra then some (value (tableSize - 1))
  else if i < tableSize then some (value i) else none

/-- The position in the table: `(x + points / 2.0f) * ((tableSize - 1) / points)` (WindowedSinc.hpp:34, 52-54); the second
quotient is between integers. -/
def position (points tableSize : Nat) (x : ℚ) : ℚ := (x + points / 2) * ((tableSize - 1) / points : Nat)

/-- `getUnchecked` (WindowedSinc.hpp:27-40): the cast truncates; `none` if memory outside of the table or not written is read. -/
def getUnchecked (table : Nat → Option ℚ) (points tableSize : Nat) (x : ℚ) : Option ℚ :=
  let ix := position points tableSize x
  if ix < 0 then none
  else do
    let i0 := ⌊ix⌋.toNat
    let mu := ix - i0
    let y0 ← table i0
    let y1 ← table (i0 + 1)
    return y0 + mu * (y1 - y0)

/-- `SincInterpolator::process` (Interpolators.hpp:228-248, generic): the sum over `i < points` of the weight at `j0 - coeff + i`
times the sample `j0 + i`, with `j0 = 1 - points / 2`. -/
def sinc (table : Nat → Option ℚ) (points tableSize : Nat) (v : Signal) (c : ℚ) : Option ℚ :=
  let j0 : Int := 1 - (points / 2 : Nat)
  (List.range points).foldlM (fun (y : ℚ) (i : Nat) => do
    let h ← getUnchecked table points tableSize ((j0 : ℚ) - c + i)
    return y + h * v (j0 + (i : Int))) 0

/-- The number of points of the windowed sinc interpolators (Interpolators.hpp:250-265) and the size of their tables (:159-162). -/
def sincPoints : List Nat := [8, 12, 16, 24, 36, 48, 60, 72]
/-- `getTableSizeForNumPoints`. -/
def sincTableSize : Nat := 65536
/-- `TableExtra` (WindowedSinc.h:49). -/
def sincExtra : Nat := 4

end Verif.Interp
