import Verif.Spec.Canonical
import Verif.Spec.NormalizeTwice
import Verif.Spec.GridFile
/-!
# Specification: the outlines of a topology

The regions of a topology, drawn ring by ring. Nothing is said of where one edge
ends and the next one starts.
-/

namespace TopoGeo.Spec

/-- A ring as the list of the points it passes. -/
def ringOutline {δ : Type} (t : Topology δ) (ring : TopoRing) : List Point := joinPath (pathsOf t ring)

/-- The regions of a topology, with rings of points. -/
def outlineRegions {δ : Type} (t : Topology δ) : List (Region δ) :=
  t.regions.map fun r => ⟨r.data, r.outerRings.map fun ring => .points (ringOutline t ring),
    r.innerRings.map fun ring => .points (ringOutline t ring)⟩

/-- The rings of a region of a topology, to be written to a file. -/
def outlineShape {δ : Type} (t : Topology δ) (r : TopoRegion δ) : Shape :=
  ⟨r.outerRings.map (ringOutline t), r.innerRings.map (ringOutline t)⟩

end TopoGeo.Spec
