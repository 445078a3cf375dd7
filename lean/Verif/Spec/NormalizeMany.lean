import Verif.Spec.NormalizeTwice
/-!
# How large a topology is, for counting passes of normalization
-/

namespace TopoGeo.Spec

/-- The sum of the sizes of the cross products of all segments the rings pass. -/
def crossSize {δ : Type} (t : Topology δ) : Nat :=
  (((allRings t).flatMap fun ring => (pathsOf t ring).flatMap segs).map fun s => (cross s.1 s.2).natAbs).sum

end TopoGeo.Spec
