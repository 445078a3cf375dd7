import Verif.Spec.BuildSafe
import Verif.Spec.ClipSafe
/-!
# Topologies as one would draw them
-/

namespace TopoGeo.Spec

/-- No point is in two regions, the border of no region runs along itself, and no
segment stays where it is. -/
structure DrawnTopology {δ : Type} (t : Topology δ) : Prop where
  apart : ∀ x y, cover t x y ≤ 1
  once : ∀ r ∈ t.regions, (topoRegionSegs t r).Pairwise fun s s' => ¬ RunsAlong s s'
  moves : ∀ r ∈ t.regions, ∀ s ∈ topoRegionSegs t r, s.1 ≠ s.2

end TopoGeo.Spec
