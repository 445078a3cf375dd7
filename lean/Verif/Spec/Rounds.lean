import Verif.Spec.Normalize
/-!
# How large the input of an operation is

Sizes count the regions, the rings, the edges and the points.
-/

namespace TopoGeo.Spec

/-- The size of paths: the paths and their points. -/
def pathsVolume (paths : List (List Point)) : Nat := (paths.map fun p => p.length + 1).sum

/-- The size of a ring. -/
def ringVolume : Ring → Nat
  | .points ps => 1 + ps.length
  | .edges es => 1 + pathsVolume es

/-- The size of a region. -/
def regionVolume {δ : Type} (r : Region δ) : Nat := 1 + ((r.outerRings ++ r.innerRings).map ringVolume).sum

/-- The size of regions. -/
def regionsVolume {δ : Type} (rs : List (Region δ)) : Nat := (rs.map regionVolume).sum

/-- The size of a ring of a topology, an edge counting at each of its uses. -/
def topoRingVolume {δ : Type} (t : Topology δ) (ring : TopoRing) : Nat := 1 + pathsVolume (pathsOf t ring)

/-- The size of a region of a topology. -/
def topoRegionVolume {δ : Type} (t : Topology δ) (r : TopoRegion δ) : Nat :=
  1 + ((r.outerRings ++ r.innerRings).map (topoRingVolume t)).sum

/-- The size of the regions of a topology. -/
def walkedVolume {δ : Type} (t : Topology δ) : Nat := (t.regions.map (topoRegionVolume t)).sum

/-- The size of the edges of a topology, each counted once. -/
def storedVolume {δ : Type} (t : Topology δ) : Nat := pathsVolume (t.edges.map (·.points))

end TopoGeo.Spec
