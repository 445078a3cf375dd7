import Verif.Spec.QuantizedArea
import Verif.Spec.Example
/-!
# The area of a ring in the coordinates of its file
-/

namespace TopoGeo.Spec

/-- Twice the signed area of the triangle of the two points and the origin, in the
coordinates of the file, with north up; clockwise is positive. -/
def fileCross (p q : ShpPoint) : Rat :=
  (doubleVal q.x).getD 0 * (doubleVal p.y).getD 0 - (doubleVal p.x).getD 0 * (doubleVal q.y).getD 0

/-- The signed area of a closed ring in the coordinates of the file; clockwise is positive. -/
def fileArea (ring : ShpPolygonRing) : Rat := ((ring.zip ring.tail).map fun s => fileCross s.1 s.2).sum / 2

/-- The signed area as a share of the area of the box. -/
def boxShare (west south east north : Rat) (ring : ShpPolygonRing) : Rat :=
  fileArea ring / ((east - west) * (north - south))

/-- What reading may change the area of the ring by, in units of the grid: as `readingError`,
in terms of the exact ring only. -/
noncomputable def areaDoubt (west south east north : Rat) (ring : ShpPolygonRing) : ℝ :=
  (1 + 1 / 2 ^ 18) * (lengthR (ring.map (exactPlace west south east north)) + (ring.length - 1 : Nat) * (2 * (1 + 1 / 2 ^ 18)))

end TopoGeo.Spec
