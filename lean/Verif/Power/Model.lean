import Mathlib.Algebra.Order.Field.Rat
import Mathlib.Algebra.Order.BigOperators.Group.List

/-!
Model of the power follower, /repo/src/sfizz/PowerFollower.{h,cpp}.

Values are exact rationals where the code computes in `float`. The input of `process` is the list of the frames of the block
(the sum of the channels, PowerFollower.cpp:59-61). The tracking factors (91-96) are parameters.
-/
namespace Verif.Power

/-- `config::powerFollowerStep` (Config.h:55). -/
def stepSize : Nat := 512

/-- `currentPower_`, `currentSum_`, `currentCount_` (PowerFollower.h:132-134). -/
structure State where
  power : ℚ
  sum : ℚ
  count : Nat
deriving DecidableEq, Repr

/-- `clear` (PowerFollower.cpp:84-89). -/
def clear : State := ⟨0, 0, 0⟩

/-- `sumSquares` (SIMDHelpers). -/
def sumSquares (xs : List ℚ) : ℚ := (xs.map (fun x => x * x)).sum

/-- PowerFollower.cpp:66-73: the estimate is updated when `step` frames have been summed. -/
def settle (a r : ℚ) (s : State) : State :=
  if s.count = stepSize then
    ⟨max (s.power * a + s.sum / stepSize * (1 - a)) (s.power * r + s.sum / stepSize * (1 - r)), 0, 0⟩
  else s

/-- The loop (PowerFollower.cpp:54-76). The `Option` is for the temporary buffer of `samplesPerBlock_` frames: a longer chunk
would be written beyond its end. A chunk of no frames would loop forever: also `none`. -/
def loop (a r : ℚ) (tempSize : Nat) (s : State) (xs : List ℚ) : Option State :=
  if xs.length = 0 then some s
  else if h : 0 < min (stepSize - s.count) xs.length ∧ min (stepSize - s.count) xs.length ≤ tempSize then
    loop a r tempSize
      (settle a r ⟨s.power, s.sum + sumSquares (xs.take (min (stepSize - s.count) xs.length)), s.count + min (stepSize - s.count) xs.length⟩)
      (xs.drop (min (stepSize - s.count) xs.length))
  else none
termination_by xs.length
decreasing_by simp only [List.length_drop]; omega

/-- `PowerFollower::process` (PowerFollower.cpp:38-82). -/
def process (a r : ℚ) (tempSize : Nat) (s : State) (xs : List ℚ) : Option State := loop a r tempSize s xs

/-- Successive blocks. -/
def run (a r : ℚ) (tempSize : Nat) (s : State) : List (List ℚ) → Option State
  | [] => some s
  | xs :: rest =>
    match process a r tempSize s xs with
    | none => none
    | some s' => run a r tempSize s' rest

end Verif.Power
