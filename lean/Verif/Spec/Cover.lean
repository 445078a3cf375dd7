import Verif.Spec.EvenOdd
/-!
# What all regions together cover
-/

namespace TopoGeo.Spec

/-- How many regions cover the point `(x, y)`. -/
def cover {δ : Type} (t : Topology δ) (x y : ℚ) : Nat :=
  t.regions.countP fun r => Encloses (topoRegionSegs t r) x y

/-- The edge has a ring on one side only. -/
def OnBorder (e : TopoEdge) : Prop := e.ring0.isSome ∧ e.ring1 = none

instance (e : TopoEdge) : Decidable (OnBorder e) := by unfold OnBorder; infer_instance

/-- The segments of the edges that have a ring on one side only. -/
def borderSegs {δ : Type} (t : Topology δ) : List (Point × Point) :=
  (t.edges.filter fun e => OnBorder e).flatMap fun e => segs e.points

/-- The signed area of a region: the sum over its rings, as they run. -/
def regionShoelace {δ : Type} (t : Topology δ) (r : TopoRegion δ) : Int :=
  ((r.outerRings ++ r.innerRings).map fun ring => shoelaceEdges (pathsOf t ring)).sum

/-- The signed areas of all regions together. -/
def mapShoelace {δ : Type} (t : Topology δ) : Int := (t.regions.map (regionShoelace t)).sum

/-- The signed area along the border: the sum over the edges with a ring on one
side only, as they are used. -/
def borderShoelace {δ : Type} (t : Topology δ) : Int :=
  (((allDirectedEdges t).filter fun de => (t.edges[de.edge]?).any fun e => OnBorder e).map
    fun de => shoelace (pathOf t de)).sum

/-- No edge is used twice in the same direction: neighbours run along their
common edges in opposite directions. -/
def Opposed {δ : Type} (t : Topology δ) : Prop := (allDirectedEdges t).Nodup

instance {δ : Type} (t : Topology δ) : Decidable (Opposed t) := by unfold Opposed; infer_instance

end TopoGeo.Spec
