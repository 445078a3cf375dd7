import Verif.Spec.ClipArea
import Verif.Spec.QuantizedArea
/-!
# The error that the steps from a file to a simplified map may add up to
-/

namespace TopoGeo.Spec

/-- The points inside of all masks. -/
def window (masks : List ClipMask) : Set (ℝ × ℝ) := {p | ∀ mask ∈ masks, p ∈ insideOf mask}

/-- How deep those segments of the rings, once read, reach inside of the masks that
the mask lines cut at other than right angles. -/
def ringsDepth (b : ShpBoundingBox) (masks : List ClipMask) (rings : List ShpPolygonRing) : Nat :=
  (masks.map fun mask => (rings.map fun ring => cutDepth mask (segs (ring.map (ShapefileQuantizer.new b).quantize))).sum).sum

/-- Twice the areas of the triangles that simplifying cuts off. -/
def fans {δ : Type} (t : Topology δ) (keeps : List (List Nat)) : Option (TopoRegion δ) → Nat
  | none => 0
  | some r => ((bypassed t keeps r).map fan).sum

/-- The points that the region, if it is there, covers. -/
def covered {δ : Type} (t : Topology δ) (o : Option (TopoRegion δ)) : Set (ℝ × ℝ) :=
  {p | ∃ r ∈ o, p ∈ enclosed (topoRegionSegs t r)}

end TopoGeo.Spec
