import Verif.Spec.ClipArea
import Verif.Spec.ClipSquare
import Verif.Spec.BuildSafe
/-!
# What clipping makes of rings
-/

namespace TopoGeo.Spec

/-- `l'` winds around points inside of the mask as often as `l`, except next to segments
that are cut askew, and not at all around points outside. -/
def CutFrom (mask : ClipMask) (l l' : List (Point × Point)) : Prop :=
  (∀ p ∈ insideOf mask, p ∉ cutZone mask l → winding l' p.1 p.2 = winding l p.1 p.2) ∧
  ∀ p ∈ insideOf (mirror mask), winding l' p.1 p.2 = 0

/-- If `l` winds at most once around each point, then so does `l'`, in the same direction,
and its signed area is the area that `l` encloses inside of the mask. -/
def CutSimply (mask : ClipMask) (l l' : List (Point × Point)) : Prop :=
  (WindsOnce l → WindsOnce l') ∧ (WindsOnceBack l → WindsOnceBack l') ∧
  (WindsOnce l → areaOf (enclosed l ∩ insideOf mask) = ENNReal.ofReal (((l'.map fun s => cross s.1 s.2).sum : ℤ) / 2)) ∧
  (WindsOnceBack l → areaOf (enclosed l ∩ insideOf mask) = ENNReal.ofReal (-((l'.map fun s => cross s.1 s.2).sum : ℤ) / 2))

/-- A ring winds around each point at most once, and always in the same direction. -/
def SimpleRing (l : List (Point × Point)) : Prop := WindsOnce l ∨ WindsOnceBack l

/-- What an inner ring of the region encloses, an outer one does too. -/
def HolesWithin {δ : Type} (t : Topology δ) (r : TopoRegion δ) : Prop :=
  ∀ ring ∈ r.innerRings, ∀ p ∈ enclosed (topoRingSegs t ring), ∃ outer ∈ r.outerRings, p ∈ enclosed (topoRingSegs t outer)

/-- Rings are simple, twice their areas fit in 64 bits and a sign, and holes are within
regions. -/
structure PlainRings {δ : Type} (t : Topology δ) : Prop where
  simple : ∀ ring ∈ allRings t, SimpleRing (topoRingSegs t ring)
  fit : ∀ ring ∈ allRings t, (shoelaceEdges (pathsOf t ring)).natAbs < 2 ^ 64
  holes : ∀ r ∈ t.regions, HolesWithin t r

/-- The same for what is kept of a region. -/
structure PlainRegion {δ : Type} (k : KeptRegion δ) : Prop where
  simple : ∀ paths ∈ k.rings, SimpleRing (paths.flatMap segs)
  fit : ∀ paths ∈ k.rings, (shoelaceEdges paths).natAbs < 2 ^ 64
  holes : ∀ inner ∈ k.inner, ∀ p ∈ enclosed (inner.flatMap segs), ∃ outer ∈ k.outer, p ∈ enclosed (outer.flatMap segs)

end TopoGeo.Spec
