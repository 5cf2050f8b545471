import Mathlib.Order.Defs.LinearOrder
import Mathlib.Order.Lattice
import Mathlib.Order.MinMax

/-!
Model of `sfz::Range<Type, Checked>` (`src/sfizz/Range.h`).

The class only compares and copies its bounds, so the value type is an arbitrary linear order
(for `float` this excludes NaN, which is not ordered).
-/
namespace Verif.Range

variable {α : Type*} [LinearOrder α]

/-- `Range<Type, Checked>`: members `_start`, `_end` (Range.h:155-156). -/
structure R (α : Type*) where
  start : α
  stop : α
  deriving DecidableEq, Repr

/-- Constructor `Range(Type start, Type end)` (Range.h:29-33). -/
def mk (checked : Bool) (s e : α) : R α := ⟨s, if checked then max s e else e⟩

/-- `setStart` (Range.h:49-56). -/
def setStart (checked : Bool) (r : R α) (s : α) : R α :=
  if checked && decide (s > r.stop) then ⟨s, s⟩ else ⟨s, r.stop⟩

/-- `setEnd` (Range.h:58-65). -/
def setEnd (checked : Bool) (r : R α) (e : α) : R α :=
  if checked && decide (e < r.start) then ⟨e, e⟩ else ⟨r.start, e⟩

/-- `isValid` (Range.h:70-76). -/
def isValid (checked : Bool) (r : R α) : Bool := checked || decide (r.start ≤ r.stop)

/-- `::clamp` (MathHelpers.h:145-148 as used by Range.h:84): `max(min(v, hi), lo)`. -/
def clamp (r : R α) (v : α) : α := max (min v r.stop) r.start

/-- `containsWithEnd` (Range.h:92). -/
def containsWithEnd (r : R α) (v : α) : Bool := decide (v ≥ r.start) && decide (v ≤ r.stop)

/-- `contains` (Range.h:100). -/
def contains (r : R α) (v : α) : Bool := decide (v ≥ r.start) && decide (v < r.stop)

/-- `shrinkIfSmaller` (Range.h:107-119). -/
def shrinkIfSmaller (checked : Bool) (r : R α) (s e : α) : R α :=
  let (s, e) := if checked && decide (s > e) then (e, s) else (s, e)
  ⟨if s > r.start then s else r.start, if e < r.stop then e else r.stop⟩

/-- `expandTo` (Range.h:121-127). -/
def expandTo (r : R α) (v : α) : R α :=
  if v > r.stop then ⟨r.start, v⟩ else if v < r.start then ⟨v, r.stop⟩ else r

/-- The public mutators of a checked range, except `shrinkIfSmaller`. -/
inductive Op (α : Type*) where
  | assign (s e : α)   -- `r = Range(s, e)`
  | setStart (s : α)
  | setEnd (e : α)
  | expandTo (v : α)

/-- One call on a checked range. -/
def step (r : R α) : Op α → R α
  | .assign s e => mk true s e
  | .setStart s => setStart true r s
  | .setEnd e => setEnd true r e
  | .expandTo v => expandTo r v

/-- A history of calls. -/
def run (r : R α) (ops : List (Op α)) : R α := ops.foldl step r

end Verif.Range
