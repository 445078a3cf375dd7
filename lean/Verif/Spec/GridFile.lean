import Verif.Spec.F64
import Verif.Spec.Shp
import Verif.Spec.Units
/-!
# Specification: a file for every map

How to write a map of the grid into a shapefile: the bounding box is that of the
grid, coordinates are written as they are, and y is counted from the south.
-/

namespace TopoGeo.Spec

/-- The bits of the double that is the natural number `n`, for `n < 2 ^ 53`. -/
def natBits (n : Nat) : UInt64 :=
  if n = 0 then 0 else UInt64.ofNat ((1023 + n.log2) * 2 ^ 52 + (n * 2 ^ (52 - n.log2) - 2 ^ 52))

/-- From 0 to 4294967295, in both directions. -/
def gridBox : ShpBoundingBox := ⟨natBits 0, natBits 0, natBits (2 ^ 32 - 1), natBits (2 ^ 32 - 1)⟩

/-- A point of the grid as it is written. -/
def gridPoint (p : Point) : ShpPoint := ⟨natBits p.x.toNat, natBits (2 ^ 32 - 1 - p.y.toNat)⟩

/-- The rings of a region, as lists of points. -/
structure Shape where
  outer : List (List Point)
  inner : List (List Point)

/-- The rings of a region as they are written, outer ones first. -/
def Shape.written (s : Shape) : List ShpPolygonRing := (s.outer ++ s.inner).map (·.map gridPoint)

/-- Outer rings wind clockwise and inner rings counter-clockwise. -/
def Shape.Wound (m : Build) (s : Shape) : Prop :=
  (∀ r ∈ s.outer, (Ring.points r).windingOrder m = .ok .clockwise) ∧
  (∀ r ∈ s.inner, (Ring.points r).windingOrder m = .ok .counterClockwise)

/-- A region has precisely these rings. -/
def Shape.Is {δ : Type} (s : Shape) (g : Region δ) : Prop :=
  g.outerRings = s.outer.map .points ∧ g.innerRings = s.inner.map .points

end TopoGeo.Spec
