import Verif.Spec.Rounds
import Verif.Spec.Topology
/-!
# What operations cannot do without
-/

namespace TopoGeo.Spec

/-- The size of what has to be looked at to build a region: the inner rings count if an
outer ring is kept. -/
def examinedVolume {δ : Type} (r : Region δ) : Nat :=
  1 + (r.outerRings.map ringVolume).sum + if keptRings r.outerRings = [] then 0 else (r.innerRings.map ringVolume).sum

/-- The size of the outer rings of a topology in edges. -/
def outlineVolume {δ : Type} (t : Topology δ) : Nat :=
  (t.regions.map fun r => 1 + (r.outerRings.map fun ring => 1 + ring.directedEdges.length).sum).sum

end TopoGeo.Spec
