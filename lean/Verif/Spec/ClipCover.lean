import Verif.Spec.ClipHalves
import Verif.Spec.EvenOdd
/-!
# What a clipped map covers

Points are rational: what matters is the area, not the grid.
-/

namespace TopoGeo.Spec

/-- The coordinate of `(x, y)` a mask looks at. -/
def across : ClipMask → ℚ → ℚ → ℚ
  | .minX _, x, _ | .maxX _, x, _ => x
  | .minY _, _, y | .maxY _, _, y => y

/-- The coordinate of `(x, y)` along the mask line. -/
def alongside : ClipMask → ℚ → ℚ → ℚ
  | .minX _, _, y | .maxX _, _, y => y
  | .minY _, x, _ | .maxY _, x, _ => x

/-- `(x, y)` is inside of the mask and not on its line. -/
def Within : ClipMask → ℚ → ℚ → Prop
  | .minX c, x, _ => (c.toNat : ℚ) < x
  | .maxX c, x, _ => x < c.toNat
  | .minY c, _, y => (c.toNat : ℚ) < y
  | .maxY c, _, y => y < c.toNat

instance (mask : ClipMask) (x y : ℚ) : Decidable (Within mask x y) := by cases mask <;> unfold Within <;> infer_instance

/-- Measured along the mask line, `(x, y)` is less than one unit from the segment. -/
def NearSegment (mask : ClipMask) (p q : Point) (x y : ℚ) : Prop :=
  ∃ u : ℚ, 0 ≤ u ∧ u ≤ 1 ∧ across mask x y = tested mask p + u * (tested mask q - tested mask p) ∧
    alongside mask x y < other mask p + u * (other mask q - other mask p) + 1 ∧
    other mask p + u * (other mask q - other mask p) < alongside mask x y + 1

/-- The mask line cuts the segment, and not at a right angle: rounding may matter. -/
def CutAskew (mask : ClipMask) (s : Point × Point) : Prop := Crosses mask s.1 s.2 ∧ other mask s.1 ≠ other mask s.2

instance (mask : ClipMask) (s : Point × Point) : Decidable (CutAskew mask s) := inferInstanceAs (Decidable (_ ∧ _))

/-- Rounding may have moved the border past `(x, y)`: the point is less than one
unit from a segment that the mask line cuts, not at a right angle. -/
def NearCut (mask : ClipMask) (segments : List (Point × Point)) (x y : ℚ) : Prop :=
  ∃ s ∈ segments, CutAskew mask s ∧ NearSegment mask s.1 s.2 x y

/-- The segments of a ring of a topology. -/
def topoRingSegs {δ : Type} (t : Topology δ) (ring : TopoRing) : List (Point × Point) := (pathsOf t ring).flatMap segs

/-- The rings of a region that clipping drops: those whose area is zero then, and
all if that holds for all outer ones. -/
def lostRings {δ : Type} (cs : List (List Point)) (r : TopoRegion δ) : List TopoRing :=
  if keptClipped cs r.outerRings = [] then r.outerRings ++ r.innerRings
  else (r.outerRings ++ r.innerRings).filter fun ring => piecesArea cs (clippedPieces cs ring) = 0

/-- No ring of the region that clipping drops encloses the point. -/
def KeepsRings {δ : Type} (m : Build) (mask : ClipMask) (t : Topology δ) (r : TopoRegion δ) (x y : ℚ) : Prop :=
  ∀ cs, ClippedBy m mask t.edges cs → ∀ ring ∈ lostRings cs r, ¬ Encloses (topoRingSegs t ring) x y

end TopoGeo.Spec
