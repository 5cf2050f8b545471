import Mathlib.Data.Int.Log
import Mathlib.Data.Rat.Floor
import Mathlib.Algebra.Order.Floor.Ring

/-!
The numbers and the rounding of `float` (IEEE 754 binary32, rounding to nearest, ties to even: the mode the library runs in)
as rational numbers.  `ScopedFTZ` is not modelled (results below 2^-126 are rounded as the standard says), nor are infinities
and NaN: `fl` of a number too large for the format is what a format without largest exponent would give.
-/
namespace Verif.Float32

/-- The finite numbers of the format: 24 bits times a power of two, the smallest being 2^-149. -/
def IsFloat (x : ℚ) : Prop := ∃ m e : ℤ, |m| < 2 ^ 24 ∧ -149 ≤ e ∧ x = m * (2 : ℚ) ^ e

/-- The exponent of the binade of a number; the lowest one holds the subnormal numbers. -/
def binExp (x : ℚ) : ℤ := max (Int.log 2 |x|) (-126)

/-- The distance of the floats around a number. -/
def ulp (x : ℚ) : ℚ := (2 : ℚ) ^ (binExp x - 23)

/-- Round to the nearest integer, ties to even. -/
def roundEven (q : ℚ) : ℤ :=
  if q - ⌊q⌋ < 1 / 2 then ⌊q⌋ else if 1 / 2 < q - ⌊q⌋ then ⌊q⌋ + 1 else if ⌊q⌋ % 2 = 0 then ⌊q⌋ else ⌊q⌋ + 1

/-- The result of an operation of `float` whose exact result is `x`. -/
def fl (x : ℚ) : ℚ := roundEven (x / ulp x) * ulp x

/-- `std::nextafter(x, 0.0f)` for a positive float: the float just below. -/
def below (x : ℚ) : ℚ :=
  if x = (2 : ℚ) ^ Int.log 2 x ∧ -126 < Int.log 2 x then x - ulp x / 2 else x - ulp x

end Verif.Float32
