import Mathlib.Data.Rat.Lemmas
import Mathlib.Algebra.Order.Ring.Rat
import Mathlib.Algebra.Ring.Parity
import Verif.Spec.Normalize
/-!
# The area of a region by the even-odd rule

A point belongs to a region if a ray from it crosses the rings of the region an
odd number of times.
-/

namespace TopoGeo.Spec

/-- The horizontal ray from `(x, y)` towards larger `x` crosses the segment. Of
the ends of a segment the one with smaller `y` counts as part of it, the other
does not. -/
def RayCrosses (x y : ℚ) (s : Point × Point) : Prop :=
  (((s.1.yi : ℚ) ≤ y ∧ y < s.2.yi) ∨ ((s.2.yi : ℚ) ≤ y ∧ y < s.1.yi)) ∧
    x < s.1.xi + (y - s.1.yi) * (s.2.xi - s.1.xi) / (s.2.yi - s.1.yi)

instance (x y : ℚ) (s : Point × Point) : Decidable (RayCrosses x y s) := by unfold RayCrosses; infer_instance

/-- The point `(x, y)` is in the area enclosed by the segments. -/
def Encloses (segments : List (Point × Point)) (x y : ℚ) : Prop := Odd (segments.countP fun s => RayCrosses x y s)

instance (segments : List (Point × Point)) (x y : ℚ) : Decidable (Encloses segments x y) := by
  unfold Encloses; infer_instance

/-- The segments of a ring. -/
def ringSegs : Ring → List (Point × Point)
  | .points ps => segs ps
  | .edges es => es.flatMap segs

/-- The segments of a region. -/
def regionSegs {δ : Type} (r : Region δ) : List (Point × Point) := (r.outerRings ++ r.innerRings).flatMap ringSegs

/-- The segments of a region of a topology. -/
def topoRegionSegs {δ : Type} (t : Topology δ) (r : TopoRegion δ) : List (Point × Point) :=
  (r.outerRings ++ r.innerRings).flatMap fun ring => (pathsOf t ring).flatMap segs

end TopoGeo.Spec
