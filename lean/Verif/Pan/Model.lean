import Mathlib.Analysis.SpecialFunctions.Trigonometric.Basic

/-!
Model of `src/sfizz/Panning.cpp`. Numbers are real, without rounding; the NEON version is not modelled.
-/
namespace Verif.Pan
open Real

/-- `panSize` (Panning.cpp:18). -/
def panSize : Nat := 4095

/-- The table (Panning.cpp:21-33): a quarter of a cosine and one more element; `none` outside. -/
noncomputable def panData (i : Int) : Option ℝ :=
  if i < 0 then none
  else if i < panSize then some (cos (i * (π / 2 / ((panSize : ℝ) - 1))))
  else if i < panSize + 1 then some (cos (((panSize - 1 : Nat) : ℝ) * (π / 2 / ((panSize : ℝ) - 1))))
  else none

/-- `lroundPositive` (MathHelpers.h:293-297) of a number that is not negative: the cast drops the fraction. -/
noncomputable def lroundPositive (x : ℝ) : Int := ⌊1 / 2 + x⌋

/-- `panLookup` (Panning.cpp:35-40). -/
noncomputable def panLookup (p : ℝ) : Option ℝ := panData (lroundPositive (p * ((panSize : ℝ) - 1)))

/-- `clamp` (MathHelpers.h) with the bounds in order. -/
noncomputable def clamp (x low high : ℝ) : ℝ := max low (min x high)

/-- `tickPan` (Panning.cpp:42-48). -/
noncomputable def tickPan (pan left right : ℝ) : Option (ℝ × ℝ) := do
  let p := (pan + 1) * (1 / 2)
  let p := clamp p 0 1
  let l ← panLookup p
  let r ← panLookup (1 - p)
  return (left * l, right * r)

/-- `tickWidth` (Panning.cpp:99-109). -/
noncomputable def tickWidth (width left right : ℝ) : Option (ℝ × ℝ) := do
  let w := (width + 1) * (1 / 2)
  let w := clamp w 0 1
  let coeff1 ← panLookup w
  let coeff2 ← panLookup (1 - w)
  let l := left
  let r := right
  return (l * coeff2 + r * coeff1, l * coeff1 + r * coeff2)

end Verif.Pan
