import Mathlib.Data.Real.Sqrt

/-!
Model of the crossfade gains, /repo/src/sfizz/ModifierHelpers.h:15-64, and of the ranges they are called with.

Gains are exact real numbers where the code computes in `float`. `std::nextafter(x, 0)` (the float just below) is taken
as `x` itself in the upper bounds.
-/
namespace Verif.Crossfade

/-- `CrossfadeCurve` (SfzHelpers.h). -/
inductive Curve
  | gain
  | power
deriving DecidableEq

/-- The shape of the fade (ModifierHelpers.h:32-35 and 57-60). -/
noncomputable def shape : Curve → ℝ → ℝ
  | .power, x => Real.sqrt x
  | .gain, x => x

/-- `crossfadeIn` (ModifierHelpers.h:18-39); `length` is `crossfadeRange.length()`, `gap` is `gapOffset`. -/
noncomputable def crossfadeIn (start stop length gap value : ℝ) (curve : Curve) : ℝ :=
  if value < start then 0
  else if length - gap ≤ 0 then 1
  else if value < stop then shape curve ((value - start) / (length - gap))
  else 1

/-- `crossfadeOut` (ModifierHelpers.h:44-64). -/
noncomputable def crossfadeOut (start length gap value : ℝ) (curve : Curve) : ℝ :=
  if length - gap ≤ 0 then 1
  else if value > start then
    if (value - start) / (length - gap) > 1 then 0 else shape curve (1 - (value - start) / (length - gap))
  else 1

/-- `UncheckedRange<uint8_t>::length` (Range.h:48): the difference is converted back to 8 bits. -/
def keyLength (lo hi : Nat) : Nat := (((hi : Int) - lo) % 256).toNat

/-- `crossfadeIn` on a key range (RegionStateful.cpp:85); `gapOffset` converts to 0 for `uint8_t`. -/
noncomputable def keyIn (lo hi : Nat) (key : Int) (curve : Curve) : ℝ := crossfadeIn lo hi (keyLength lo hi) 0 key curve

/-- `crossfadeOut` on a key range (RegionStateful.cpp:86). -/
noncomputable def keyOut (lo hi : Nat) (key : Int) (curve : Curve) : ℝ := crossfadeOut lo (keyLength lo hi) 0 key curve

/-- The lower bound of a velocity or controller range: `kNormalizeMidi` (Defaults.h:105). -/
noncomputable def lower (lo : Nat) : ℝ := (lo : ℝ) / 127

/-- The upper bound: `kNormalizeMidi|kFillGap` (Defaults.h:101-106), without the last bit that `nextafter` removes. -/
noncomputable def upper (hi : Nat) : ℝ := if hi ≤ 126 then ((hi : ℝ) + 1) / 127 else (hi : ℝ) / 127

/-- `crossfadeIn` on a velocity or controller range `xfin_lo…=lo xfin_hi…=hi` (RegionStateful.cpp:92, 106). -/
noncomputable def valueIn (lo hi : Nat) (value : ℝ) (curve : Curve) : ℝ :=
  crossfadeIn (lower lo) (upper hi) (upper hi - lower lo) (1 / 127) value curve

/-- `crossfadeOut` on a velocity or controller range (RegionStateful.cpp:93, 112). -/
noncomputable def valueOut (lo hi : Nat) (value : ℝ) (curve : Curve) : ℝ :=
  crossfadeOut (lower lo) (upper hi - lower lo) (1 / 127) value curve

end Verif.Crossfade
