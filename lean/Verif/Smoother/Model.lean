import Mathlib.Algebra.Order.Field.Rat
import Mathlib.Data.Rat.Floor

/-!
Model of the linear controller smoother, /repo/src/sfizz/Smoothers.{h,cpp}.

Values are exact rationals where the code computes in `float`. The `uint32_t` frame counts are naturals.
`input` and `output` may be the same memory: the code reads the value it uses of every group of frames (its last one)
before writing the group, so the model takes the input as an immutable list.
-/
namespace Verif.Smoother

/-- The run-time members `current_`, `target_`, `step_` (Smoothers.h:96-98). -/
structure State where
  current : ℚ
  target : ℚ
  step : ℚ
deriving DecidableEq, Repr

/-- `LinearSmoother::setSmoothing` (Smoothers.cpp:73-77): the value of `smoothFrames_`.
Simplified: the conversion to `int32_t` is taken not to overflow. -/
def smoothFrames (smoothValue : Nat) (sampleRate : ℚ) : Int := ⌊(smoothValue : ℚ) / 1000 * sampleRate⌋

/-- `LinearSmoother::reset` (Smoothers.cpp:79-85). -/
def reset (value : ℚ) : State := ⟨value, value, 0⟩

/-- Smoothers.cpp:118-123, 167-172 and 192-197: take over the target of a group of `n` frames. -/
def retarget (n : Nat) (sf : Int) (s : State) (next : ℚ) : State :=
  if s.target ≠ next then { s with target := next, step := (next - s.current) / (max (n : Int) sf : Int) } else s

/-- The loops `for (…) output[i] = current = f(current);` -/
def frames (f : ℚ → ℚ) : Nat → ℚ → List ℚ × ℚ
  | 0, c => ([], c)
  | n + 1, c => ((f c :: (frames f n (f c)).1), (frames f n (f c)).2)

/-- Smoothers.cpp:173-184 and 198-209: the frames of one group once the target is known. -/
def move (n : Nat) (s : State) : List ℚ × State :=
  if s.target > s.current then
    ((frames (fun c => min s.target (c + s.step)) n s.current).1,
      { s with current := (frames (fun c => min s.target (c + s.step)) n s.current).2 })
  else if s.target < s.current then
    ((frames (fun c => max s.target (c + s.step)) n s.current).1,
      { s with current := (frames (fun c => max s.target (c + s.step)) n s.current).2 })
  else (List.replicate n s.target, s)

/-- One pass of the loop over groups of 16 frames (Smoothers.cpp:164-187), or the rest of the block (190-211). -/
def group (n : Nat) (sf : Int) (s : State) (next : ℚ) : List ℚ × State := move n (retarget n sf s next)

/-- Smoothers.cpp:164-211: groups of 16 frames, then what is left. -/
def groups (sf : Int) (s : State) (xs : List ℚ) : List ℚ × State :=
  if _h : 16 ≤ xs.length then
    ((group 16 sf s (xs.getD 15 0)).1 ++ (groups sf (group 16 sf s (xs.getD 15 0)).2 (xs.drop 16)).1,
      (groups sf (group 16 sf s (xs.getD 15 0)).2 (xs.drop 16)).2)
  else if xs.length = 0 then ([], s)
  else group xs.length sf s (xs.getLastD 0)
termination_by xs.length
decreasing_by all_goals (simp only [List.length_drop]; omega)

/-- `LinearSmoother::process` (Smoothers.cpp:92-217). -/
def process (sf : Int) (s : State) (xs : List ℚ) (canShortcut : Bool) : List ℚ × State :=
  if xs.length = 0 then ([], s)
  else if sf < 2 ∨ (canShortcut = true ∧ s.current = s.target ∧ s.current = xs.headD 0) then (xs, reset (xs.getLastD 0))
  else groups sf s xs

/-- Successive calls of `process`. -/
def run (sf : Int) (s : State) : List (List ℚ × Bool) → List ℚ × State
  | [] => ([], s)
  | (xs, sc) :: rest =>
    ((process sf s xs sc).1 ++ (run sf (process sf s xs sc).2 rest).1, (run sf (process sf s xs sc).2 rest).2)

/-- Four lanes. -/
abbrev Quad := ℚ × ℚ × ℚ × ℚ

/-- `simde_mm_set1_ps`. -/
def splat (x : ℚ) : Quad := (x, x, x, x)

/-- A lane-wise operation. -/
def lanes (f : ℚ → ℚ → ℚ) (a b : Quad) : Quad := (f a.1 b.1, f a.2.1 b.2.1, f a.2.2.1 b.2.2.1, f a.2.2.2 b.2.2.2)

/-- The four stored values. -/
def Quad.list (a : Quad) : List ℚ := [a.1, a.2.1, a.2.2.1, a.2.2.2]

/-- Smoothers.cpp:124-160: the vector code for a group of 16 frames once the target is known. -/
def moveSimd (s : State) : List ℚ × State :=
  let t := splat s.target
  let tmp1 := lanes (· * ·) (splat s.step) (1, 2, 3, 4)
  let tmp2 := splat tmp1.2.2.2
  let c1 := lanes (· + ·) (splat s.current) tmp1
  let c2 := lanes (· + ·) c1 tmp2
  let c3 := lanes (· + ·) c2 tmp2
  let c4 := lanes (· + ·) c3 tmp2
  if s.target > s.current then
    ((lanes min c1 t).list ++ (lanes min c2 t).list ++ (lanes min c3 t).list ++ (lanes min c4 t).list,
      { s with current := (lanes min c4 t).2.2.2 })
  else if s.target < s.current then
    ((lanes max c1 t).list ++ (lanes max c2 t).list ++ (lanes max c3 t).list ++ (lanes max c4 t).list,
      { s with current := (lanes max c4 t).2.2.2 })
  else (t.list ++ t.list ++ t.list ++ t.list, s)

end Verif.Smoother
