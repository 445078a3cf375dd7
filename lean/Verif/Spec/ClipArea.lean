import Verif.Spec.ClipCover
import Verif.Spec.RealPlane
/-!
# Clipping in the real plane
-/

namespace TopoGeo.Spec

/-- The part of the plane inside of the mask, without its line. -/
def insideOf : ClipMask → Set (ℝ × ℝ)
  | .minX c => {p | (c.toNat : ℝ) < p.1}
  | .maxX c => {p | p.1 < c.toNat}
  | .minY c => {p | (c.toNat : ℝ) < p.2}
  | .maxY c => {p | p.2 < c.toNat}

/-- The point that has the coordinate `a` that the mask looks at and `b` along its line. -/
def placed : ClipMask → ℝ → ℝ → ℝ × ℝ
  | .minX _, a, b | .maxX _, a, b => (a, b)
  | .minY _, a, b | .maxY _, a, b => (b, a)

/-- The points at most one unit from the segment, measured along the mask line. -/
def nearSegment (mask : ClipMask) (s : Point × Point) : Set (ℝ × ℝ) :=
  {p | ∃ u v : ℝ, 0 ≤ u ∧ u ≤ 1 ∧ -1 ≤ v ∧ v ≤ 1 ∧
    p = placed mask (tested mask s.1 + u * (tested mask s.2 - tested mask s.1))
      (other mask s.1 + u * (other mask s.2 - other mask s.1) + v)}

/-- The segments that the mask line cuts, not at a right angle. -/
def cutSegs (mask : ClipMask) (l : List (Point × Point)) : List (Point × Point) := l.filter fun s => CutAskew mask s

/-- The points inside of the mask that are at most one unit from a segment that its
line cuts, not at a right angle. -/
def cutZone (mask : ClipMask) (l : List (Point × Point)) : Set (ℝ × ℝ) :=
  {p | p ∈ insideOf mask ∧ ∃ s ∈ cutSegs mask l, p ∈ nearSegment mask s}

/-- How deep these segments reach inside, added up. -/
def cutDepth (mask : ClipMask) (l : List (Point × Point)) : Nat :=
  ((cutSegs mask l).map fun s => (max (depth mask s.1) (depth mask s.2)).toNat).sum

/-- The points inside of the mask that a ring of the region encloses which clipping
drops. -/
def lostInside {δ : Type} (m : Build) (mask : ClipMask) (t : Topology δ) (r : TopoRegion δ) : Set (ℝ × ℝ) :=
  {p | p ∈ insideOf mask ∧ ∃ cs, ClippedBy m mask t.edges cs ∧ ∃ ring ∈ lostRings cs r, p ∈ enclosed (topoRingSegs t ring)}

end TopoGeo.Spec
