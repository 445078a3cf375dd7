import Verif.Spec.ClipWinding
/-!
# Regions whose rings are simple, as they are given
-/

namespace TopoGeo.Spec

/-- The rings of the region are closed and simple, twice their areas fit in 64 bits and a
sign, and what an inner ring encloses, an outer one does too. -/
structure PlainGiven {δ : Type} (r : Region δ) : Prop where
  closed : ∀ ring ∈ r.outerRings ++ r.innerRings, RingClosed ring
  simple : ∀ ring ∈ r.outerRings ++ r.innerRings, SimpleRing (ringSegs ring)
  fit : ∀ ring ∈ r.outerRings ++ r.innerRings, (ringShoelace ring).natAbs < 2 ^ 64
  holes : ∀ inner ∈ r.innerRings, ∀ p ∈ enclosed (ringSegs inner), ∃ outer ∈ r.outerRings, p ∈ enclosed (ringSegs outer)

end TopoGeo.Spec
