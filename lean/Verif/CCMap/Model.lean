import Verif.Common.LowerBound

/-!
Model of `sfz::CCMap<ValueType>` (`src/sfizz/CCMap.h`): a vector of `{cc, data}` searched with
`lower_bound`, plus a default value. `none` results are undefined behaviour.
-/
namespace Verif.CCMap
open Verif.Common

variable {V : Type}

/-- `CCMap`: members `defaultValue`, `container` (CCMap.h:127-128). -/
structure M (V : Type) where
  dflt : V
  items : List (Int × V)

/-- `CCDataComparator::operator()(ccData, cc)` (SfzHelpers.h:45-48). -/
def ltCC (cc : Int) (d : Int × V) : Bool := decide (d.1 < cc)

/-- Constructor (CCMap.h:35-38). -/
def empty (d : V) : M V := ⟨d, []⟩

/-- `get` (CCMap.h:67-75). Outer `none`: undefined behaviour; inner `none`: empty optional. -/
def get (m : M V) (cc : Int) : Option (Option V) :=
  match lowerBound (ltCC cc) m.items with
  | none => none
  | some i =>
    match m.items[i]? with
    | none => some none                       -- it == container.end()
    | some d => if d.1 != cc then some none else some (some d.2)

/-- `getWithDefault` (CCMap.h:51-59). -/
def getWithDefault (m : M V) (cc : Int) : Option V :=
  match lowerBound (ltCC cc) m.items with
  | none => none
  | some i =>
    match m.items[i]? with
    | none => some m.dflt
    | some d => if d.1 != cc then some m.dflt else some d.2

/-- `operator[]` followed by a write through the returned reference, `m[cc] = f(m[cc])` (CCMap.h:83-92). -/
def update (m : M V) (cc : Int) (f : V → V) : Option (M V) :=
  match lowerBound (ltCC cc) m.items with
  | none => none
  | some i =>
    match m.items[i]? with
    | none => some { m with items := m.items.insertIdx i (cc, f m.dflt) }
    | some d =>
      if d.1 != cc then some { m with items := m.items.insertIdx i (cc, f m.dflt) }
      else some { m with items := m.items.set i (d.1, f d.2) }

/-- `contains` (CCMap.h:108-111), `std::binary_search`: `i != end && !comp(value, *i)`. -/
def contains (m : M V) (cc : Int) : Option Bool :=
  match lowerBound (ltCC cc) m.items with
  | none => none
  | some i =>
    match m.items[i]? with
    | none => some false
    | some d => some (!decide (cc < d.1))

/-- A history of `m[cc] = f(m[cc])` statements. -/
def run (m : M V) : List (Int × (V → V)) → Option (M V)
  | [] => some m
  | (cc, f) :: ops => (update m cc f).bind (fun m' => run m' ops)

end Verif.CCMap
