import Mathlib.Analysis.SpecialFunctions.Pow.Real
import Mathlib.Data.Real.Archimedean

/-!
Model of the shapes of the points of flexible envelopes: /repo/src/sfizz/FlexEGDescription.{h,cpp}, with the evaluation of
curves (Curve.h:36-51) over the real numbers: `float` is not rounded, and `std::pow` is the power.
-/
namespace Verif.Shapes

/-- The points of a curve (Curve.h:24): 128 of them. -/
abbrev Table := Nat → ℝ

/-- `evalCC7(float)` (Curve.h:36-43); `none` is an access outside of the table. -/
noncomputable def evalCC7 (p : Table) (value : ℝ) : Option ℝ :=
  let v := max (min value 127) 0
  let i1 : Int := if 0 ≤ v then ⌊v⌋ else ⌈v⌉
  let i2 : Int := min 127 (i1 + 1)
  let mu := v - i1
  if 0 ≤ i1 ∧ i1 < 128 ∧ 0 ≤ i2 ∧ i2 < 128 then some (p i1.toNat + mu * (p i2.toNat - p i1.toNat)) else none

/-- `evalNormalized` (Curve.h:48-51). -/
noncomputable def evalNormalized (p : Table) (value : ℝ) : Option ℝ := evalCC7 p (value * 127)

/-- The curve made for a shape (FlexEGDescription.cpp:47-69); the default curve is the straight one (Curve.cpp:152-155). -/
noncomputable def build (shape : ℝ) : Table := fun i =>
  if shape = 0 then (i : ℝ) / 127
  else if shape > 0 then ((i : ℝ) / 127) ^ (1 + shape)
  else 1 - (1 - (i : ℝ) / 127) ^ (1 - shape)

/-! ### The curves kept -/

/-- A point of an envelope: `shape_` and `shapeCurve_` (FlexEGDescription.h:37-38). A curve is known by a number, like an
address that is not used again. -/
structure Point where
  shape : ℝ := 0
  curve : Option Nat := none

/-- The points that exist, the map from shapes to curves (`FlexEGShapes`, FlexEGDescription.cpp:30-36), and the curves made so far. The
map holds weak references: they count nothing. -/
structure State where
  points : List Point
  map : ℝ → Option Nat
  made : List Table

/-- Nothing made yet. -/
def State.new : State := ⟨[], fun _ => none, []⟩

/-- `use_count() != 0`: some point holds the curve. -/
def State.held (s : State) (id : Nat) : Prop := ∃ p ∈ s.points, p.curve = some id

open Classical in
/-- `getShapeCurve` (FlexEGDescription.cpp:38-74), for a point that gives up its own curve only after (FlexEGDescription.cpp:18): the number of the curve. -/
noncomputable def getShapeCurve (s : State) (shape : ℝ) : Nat × State :=
  match s.map shape with
  | some id =>
    if s.held id then (id, s)
    else (s.made.length, { s with map := Function.update s.map shape (some s.made.length), made := s.made ++ [build shape] })
  | none => (s.made.length, { s with map := Function.update s.map shape (some s.made.length), made := s.made ++ [build shape] })

/-- What happens to points: one is made, one is copied (with its envelope), one gets a shape, one is destroyed; and
`clearUnusedCurves` (FlexEGDescription.cpp:76-86). -/
inductive Op
  | make
  | copy (i : Nat)
  | setShape (i : Nat) (shape : ℝ)
  | destroy (i : Nat)
  | clear

open Classical in
/-- The effect. `setShape` is FlexEGDescription.cpp:15-19. -/
noncomputable def step (s : State) : Op → State
  | .make => { s with points := s.points ++ [{}] }
  | .copy i =>
    match (s.points[i]?) with
    | none => s
    | some p => { s with points := s.points ++ [p] }
  | .setShape i shape =>
    if i < s.points.length then
      let r := getShapeCurve s shape
      { r.2 with points := r.2.points.set i ⟨shape, some r.1⟩ }
    else s
  | .destroy i => { s with points := s.points.eraseIdx i }
  | .clear => { s with map := fun x => (s.map x).bind fun id => if s.held id then some id else none }

/-- `FlexEGPoint::curve` (FlexEGDescription.cpp:21-27): the table that is read; `none` would be a curve that does not exist. -/
noncomputable def curve (s : State) (p : Point) : Option Table :=
  match p.curve with
  | some id => s.made[id]?
  | none => some (build 0)

/-- A history. -/
noncomputable def run (s : State) (ops : List Op) : State := ops.foldl step s

end Verif.Shapes
