import Verif.Spec.Canonical
/-!
# When adjacent polygons of a region can be merged
-/

namespace TopoGeo.Spec

/-- Directed segments of which as many start at a point as end there. -/
def Balanced (l : List (Point × Point)) : Prop := ∀ p, l.countP (·.1 = p) = l.countP (·.2 = p)

/-- The segments inside of a region are balanced, for the outer and for the inner
rings. -/
def InsideBalanced {δ : Type} (t : Topology δ) : Prop :=
  ∀ r ∈ t.regions, Balanced (selfSegs t .clockwise r.outerRings) ∧ Balanced (selfSegs t .counterClockwise r.innerRings)

/-- If a region lies on both sides of an edge, then either two of its outer rings
or two of its inner rings meet there. -/
def MeetsAlike {δ : Type} (t : Topology δ) : Prop :=
  ∀ i, ∀ a ∈ ringsUsing t i, ∀ b ∈ ringsUsing t i, a.region = b.region → a.inner = b.inner

end TopoGeo.Spec
