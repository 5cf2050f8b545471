import Mathlib.Algebra.Order.Field.Rat
import Mathlib.Data.Rat.Floor

/-!
Model of `Curve` and `CurveSet` (`src/sfizz/Curve.{h,cpp}`).

Floats are exact rationals: rounding is not modelled, nor NaN (whose conversion to `int` in `evalCC7` is undefined).
The table `_points` is a function used below `size`; accesses outside give `none`. The spline interpolator is not modelled:
no opcode selects it (Curve.cpp:263-275, Synth.cpp:870-871).
-/
namespace Verif.Curve

/-- `NumValues` (Curve.h:24). -/
def size : Nat := 128

abbrev Points := Nat → ℚ

/-- `curve._points[i] = x; fillStatus[i] = true` (Curve.cpp:25-28, 62-65). -/
structure Build where
  points : Points := fun _ => 0
  filled : Nat → Bool := fun _ => false

def Build.set (b : Build) (i : Nat) (x : ℚ) : Build :=
  { points := fun j => if j = i then x else b.points j, filled := fun j => if j = i then true else b.filled j }

/-- The inner loop of `lerpFill` (Curve.cpp:177). -/
def nextFilled (filled : Nat → Bool) (right : Nat) : Nat :=
  if right < size ∧ filled right = false then nextFilled filled (right + 1) else right
termination_by size - right

theorem nextFilled_ge (filled : Nat → Bool) (right : Nat) : right ≤ nextFilled filled right := by
  fun_induction nextFilled with
  | case1 r _ ih => omega
  | case2 r _ => exact le_refl _

/-- `linearRamp` over `subspan(left, length)` (Curve.cpp:181; `linearRampScalar`, simd/HelpersScalar.h:87). -/
def ramp (p : Points) (left length : Nat) (start step : ℚ) : Points :=
  fun i => if left ≤ i ∧ i < left + length then start + ((i - left : Nat) : ℚ) * step else p i

/-- `lerpFill` (Curve.cpp:170-185); `none` is an access at or beyond `NumValues`. -/
def lerpLoop (filled : Nat → Bool) (p : Points) (left right : Nat) : Option Points :=
  if right < size then
    let r := nextFilled filled right
    if r - left > 1 then
      if r < size then
        lerpLoop filled (ramp p left (r - left) (p left) ((p r - p left) / ((r - left : Nat) : ℚ))) r (r + 1)
      else none
    else lerpLoop filled p r (r + 1)
  else some p
termination_by size - right
decreasing_by
  all_goals
    have := nextFilled_ge filled right
    omega

def lerpFill (b : Build) : Option Points := lerpLoop b.filled b.points 0 1

/-- `buildCurveFromHeader` (Curve.cpp:19-53) with the linear interpolator and `limit = false`; the members are the index and
value of the `v&` opcodes. -/
def fromHeader (members : List (Nat × ℚ)) : Option Points :=
  lerpFill (members.foldl (fun b m => if m.1 ≥ size then b else b.set m.1 m.2) ((({} : Build).set 0 0).set (size - 1) 1))

/-- `buildFromVelcurvePoints` (Curve.cpp:55-81) with the linear interpolator and `invert = false`: no bounds check, the
caller has made it (Region.cpp:476). -/
def fromVelcurve (members : List (Nat × ℚ)) : Option Points :=
  if members.all (fun m => decide (m.1 < size)) then
    lerpFill (members.foldl (fun b m => b.set m.1 m.2) ((({} : Build).set 0 0).set (size - 1) 1))
  else none

/-- `buildBipolar` (Curve.cpp:130-143). -/
def bipolar (v1 v2 : ℚ) : Option Points := lerpFill ((({} : Build).set 0 v1).set (size - 1) v2)

/-- `clamp` (MathHelpers.h:145-148). -/
def clamp {α : Type} [LinearOrder α] (v lo hi : α) : α := max (min v hi) lo

/-- `evalCC7(float)` (Curve.h:36-43); `none` is an access outside of the table. -/
def evalCC7 (p : Points) (value : ℚ) : Option ℚ :=
  let v := clamp value 0 127
  let i1 : Int := if 0 ≤ v then ⌊v⌋ else ⌈v⌉
  let i2 : Int := min 127 (i1 + 1)
  let mu := v - i1
  if 0 ≤ i1 ∧ i1 < size ∧ 0 ≤ i2 ∧ i2 < size then
    some (p i1.toNat + mu * (p i2.toNat - p i1.toNat))
  else none

/-- `evalCC7(int)` (Curve.h:29-32). -/
def evalCC7Int (p : Points) (value : Int) : Option ℚ :=
  let i := clamp value 0 127
  if 0 ≤ i ∧ i < size then some (p i.toNat) else none

/-- `evalNormalized` (Curve.h:48-51). -/
def evalNormalized (p : Points) (value : ℚ) : Option ℚ := evalCC7 p (value * 127)

/-! ### Curve sets -/

/-- `CurveSet`: slots hold a curve or nothing. -/
structure CurveSet (C : Type) where
  curves : List (Option C)
  explicit : Bool := false

/-- `config::maxCurves` (Config.h). -/
def maxCurves : Int := 256

/-- `addCurve` (Curve.cpp:225-249). -/
def CurveSet.add {C : Type} (s : CurveSet C) (c : C) (index : Int) : CurveSet C :=
  if index < -1 then s
  else if index ≥ maxCurves then s
  else if index = -1 then
    if s.explicit then s else { s with curves := s.curves ++ [some c] }
  else
    let i := index.toNat
    let l := if i ≥ s.curves.length then s.curves ++ List.replicate (i + 1 - s.curves.length) none else s.curves
    { curves := l.set i (some c), explicit := true }

/-- `getCurve` (Curve.cpp:280-291). -/
def CurveSet.get {C : Type} (dflt : C) (s : CurveSet C) (index : Nat) : C :=
  match s.curves[index]? with
  | some (some c) => c
  | _ => dflt

end Verif.Curve
