import Verif.Spec.Area
import Verif.Spec.ReadGeo
/-!
# Polygons with real vertices
-/

namespace TopoGeo.Spec

/-- A segment of the real plane. -/
abbrev RSeg := (ℝ × ℝ) × (ℝ × ℝ)

/-- Where the line through the ends of the segment is at height `y`. -/
noncomputable def crossXR (y : ℝ) (s : RSeg) : ℝ := s.1.1 + (y - s.1.2) * (s.2.1 - s.1.1) / (s.2.2 - s.1.2)

open Classical in
/-- How the segment passes the ray from `(x, y)` towards larger `x`, as in `turn`. -/
noncomputable def turnR (x y : ℝ) (s : RSeg) : ℤ :=
  if x < crossXR y s then
    if s.1.2 ≤ y ∧ y < s.2.2 then 1
    else if s.2.2 ≤ y ∧ y < s.1.2 then -1
    else 0
  else 0

/-- How often the segments wind around the point `(x, y)`. -/
noncomputable def windingR (l : List RSeg) (x y : ℝ) : ℤ := (l.map (turnR x y)).sum

/-- The points that the segments enclose by the even-odd rule. -/
def enclosedR (l : List RSeg) : Set (ℝ × ℝ) := {p | Odd (windingR l p.1 p.2)}

/-- The segments of a path in the real plane. -/
def segsR (l : List (ℝ × ℝ)) : List RSeg := l.zip l.tail

/-- The length of a path, measured along the axes. -/
noncomputable def lengthR (l : List (ℝ × ℝ)) : ℝ := ((segsR l).map fun s => |s.2.1 - s.1.1| + |s.2.2 - s.1.2|).sum

/-- A point of the grid as a point of the real plane. -/
def onPlane (p : Point) : ℝ × ℝ := (p.xi, p.yi)

/-- The point has finite coordinates inside the box. -/
def InsideBox (west south east north : Rat) (p : ShpPoint) : Prop :=
  ∃ x y, IsAt p x y ∧ (west ≤ x ∧ x ≤ east) ∧ (south ≤ y ∧ y ≤ north)

/-- Where exact arithmetic puts a point of a shapefile: the box becomes the square
from `(0, 0)` to `(2^32 - 1, 2^32 - 1)`, with north at the top. -/
noncomputable def exactPlace (west south east north : Rat) (p : ShpPoint) : ℝ × ℝ :=
  (((((doubleVal p.x).getD 0 - west) / (east - west) * (2 ^ 32 - 1) : Rat) : ℝ),
   (((north - (doubleVal p.y).getD 0) / (north - south) * (2 ^ 32 - 1) : Rat) : ℝ))

/-- What the area of a ring may be off by when it is read: half of the lengths of
both rings, the exact one and the one that is read, times 1 + 2^-18. -/
noncomputable def readingError (exact : List (ℝ × ℝ)) (read : List Point) : ℝ :=
  (1 + 1 / 2 ^ 18) * (lengthR exact + lengthR (read.map onPlane)) / 2

/-- The segments of the polygon that the rings of a record make up, placed exactly. -/
noncomputable def exactSegs (west south east north : Rat) (rings : List ShpPolygonRing) : List RSeg :=
  rings.flatMap fun ring => segsR (ring.map (exactPlace west south east north))

/-- What the area of a polygon may be off by: the sum over its rings. -/
noncomputable def polygonError (b : ShpBoundingBox) (west south east north : Rat) (rings : List ShpPolygonRing) : ENNReal :=
  (rings.map fun ring => ENNReal.ofReal
    (readingError (ring.map (exactPlace west south east north)) (ring.map (ShapefileQuantizer.new b).quantize))).sum

end TopoGeo.Spec
