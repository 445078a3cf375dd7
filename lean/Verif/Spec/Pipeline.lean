import Verif.Spec.Normalize
import Verif.Model.Clip
import Verif.Model.Simplify
/-!
# Combining the operations
-/

namespace TopoGeo.Spec

open TopoGeo

/-- The topologies that the library can make: built from closed rings, and then
normalized, clipped and simplified in any order, any number of times. -/
inductive Made {δ : Type} (m : Build) : Topology δ → Prop
  | built (rs : List (Region δ)) (t : Topology δ) (h : buildTopology m rs = .ok t)
      (closed : ∀ r ∈ rs, ∀ ring ∈ r.outerRings ++ r.innerRings, ringArea ring ≠ 0 → ClosedRing (ringPaths ring)) :
      Made m t
  | normalized (t t' : Topology δ) (made : Made m t) (h : normalize m t = .ok t') : Made m t'
  | clipped (t t' : Topology δ) (mask : ClipMask) (made : Made m t) (h : clipTopology m t mask = .ok t') : Made m t'
  | simplified (t t' : Topology δ) (s : Nat) (made : Made m t) (hs : s ≤ u64Max) (h : simplify m t s = .ok t') :
      Made m t'

end TopoGeo.Spec
