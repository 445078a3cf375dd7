import Verif.Model.Topology
/-!
# Regions tagged with something else
-/

namespace TopoGeo.Spec

/-- A region with other data. -/
def retagRegion {δ ε : Type} (f : δ → ε) (r : Region δ) : Region ε := ⟨f r.data, r.outerRings, r.innerRings⟩

/-- A topology whose regions have other data. -/
def retag {δ ε : Type} (f : δ → ε) (t : Topology δ) : Topology ε :=
  ⟨t.regions.map fun r => ⟨f r.data, r.outerRings, r.innerRings⟩, t.edges⟩

end TopoGeo.Spec
