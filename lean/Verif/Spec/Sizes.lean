import Verif.Spec.Normalize
/-!
# Sizes

How large topologies are, to compare what goes in with what comes out.
-/

namespace TopoGeo.Spec

/-- How many points the edges of a topology have, all in all. -/
def pointCount {δ : Type} (t : Topology δ) : Nat := (t.edges.map fun e => e.points.length).sum

/-- How many segments the rings of a topology walk along, all in all. -/
def walkedSegments {δ : Type} (t : Topology δ) : Nat :=
  ((allRings t).flatMap fun ring => (pathsOf t ring).flatMap segs).length

/-- The rings are at most as many as the old ones. They stem from some of these,
in this order, and have at most twice as many edges. -/
def AtMostTwice (rings rings' : List TopoRing) : Prop :=
  ∃ from', from'.Sublist rings ∧
    List.Forall₂ (fun ring ring' : TopoRing => ring'.directedEdges.length ≤ 2 * ring.directedEdges.length) from' rings'

end TopoGeo.Spec
