import Verif.Model.ReadGeo
import Verif.Spec.Geo
/-!
# Specification: quantization, and the split into outer and inner rings
-/

namespace TopoGeo.Spec

/-- The exact value of a double, if it is finite. -/
def doubleVal (bits : UInt64) : Option Rat :=
  match F64.ofBits bits with
  | .fin neg q => some (if neg then -q else q)
  | _ => none

/-- A bounding box with finite sides, west of east and south of north, whose
width and height do not overflow: they stay below the greatest double and half
the distance to what would be the next one. -/
structure IsBox (b : ShpBoundingBox) (west south east north : Rat) : Prop where
  westSide : doubleVal b.b0 = some west
  southSide : doubleVal b.b1 = some south
  eastSide : doubleVal b.b2 = some east
  northSide : doubleVal b.b3 = some north
  wide : west < east
  high : south < north
  width : east - west < 2 ^ 1024 - 2 ^ 970
  height : north - south < 2 ^ 1024 - 2 ^ 970

/-- A point with finite coordinates. -/
structure IsAt (p : ShpPoint) (x y : Rat) : Prop where
  x : doubleVal p.x = some x
  y : doubleVal p.y = some y

/-- A list is split in two, keeping the order on both sides. -/
inductive Split {α : Type} (left : α → Prop) : List α → List α → List α → Prop where
  | nil : Split left [] [] []
  | left {a as ls rs} : left a → Split left as ls rs → Split left (a :: as) (a :: ls) rs
  | right {a as ls rs} : ¬ left a → Split left as ls rs → Split left (a :: as) ls (a :: rs)

/-- The test that decides whether a ring is an outer one: twice the signed area is
not negative, after wrapping in a release build. -/
def CountsAsOuter : Build → Ring → Prop
  | .debug, r => 0 ≤ ringShoelace r
  | .release, r => 0 ≤ wrap64 (ringShoelace r)

/-- A ring that runs clockwise around the bounding box of its file. -/
structure IsFrame (ring : ShpPolygonRing) (west south east north : Rat) : Prop where
  corners : ∃ a b c d : ShpPoint, ring = [a, b, c, d, a] ∧
    IsAt a west north ∧ IsAt b east north ∧ IsAt c east south ∧ IsAt d west south

end TopoGeo.Spec
