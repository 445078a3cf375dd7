import Verif.Spec.Normalize
/-!
# Normalizing more than once

What is said about normalizing a topology again and again.
-/

namespace TopoGeo.Spec

/-- Each segment lies on one edge, once, either way. -/
def SegmentsOnce {δ : Type} (t : Topology δ) : Prop :=
  (t.edges.flatMap fun e => segs e.points ++ (segs e.points).map Prod.swap).Nodup

/-- No ring has an area whose sign 64-bit arithmetic cannot change. -/
def AreasBounded {δ : Type} (t : Topology δ) : Prop :=
  ∀ ring ∈ allRings t, wrap64 (shoelaceEdges (pathsOf t ring)) ≠ -2 ^ 63

/-- `t'` is what remains after normalizing `k` times, whichever builds run. -/
inductive NormalizedTimes {δ : Type} : Nat → Topology δ → Topology δ → Prop
  | zero (t : Topology δ) : NormalizedTimes 0 t t
  | succ {k : Nat} {t t' t'' : Topology δ} (m : Build) : NormalizedTimes k t t' → normalize m t' = .ok t'' →
      NormalizedTimes (k + 1) t t''

end TopoGeo.Spec
