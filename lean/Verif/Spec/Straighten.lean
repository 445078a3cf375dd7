import Verif.Spec.Cover
import Verif.Spec.Simplify
/-!
# The stretches of edges that simplifying makes straight
-/

namespace TopoGeo.Spec

/-- The points of a path from position `i` to position `j`. -/
def stretch (ps : List Point) (i j : Nat) : List Point := (ps.drop i).take (j - i + 1)

/-- The stretches of a path between points that are kept. -/
def stretches (ps : List Point) : List Nat → List (List Point)
  | i :: j :: rest => stretch ps i j :: stretches ps (j :: rest)
  | _ => []

/-- The stretches of a path that have points between their ends: a line from end to
end replaces them. -/
def straightened (ps : List Point) (kept : List Nat) : List (List Point) := (stretches ps kept).filter fun l => 2 < l.length

/-- A stretch and the line back from its end to its start. -/
def bow (l : List Point) : List Point := l ++ l.head?.toList

/-- `(x, y)` is in the smallest box around the points. -/
def InBox (l : List Point) (x y : ℚ) : Prop :=
  (∃ p ∈ l, (p.xi : ℚ) ≤ x) ∧ (∃ p ∈ l, x < p.xi) ∧ (∃ p ∈ l, (p.yi : ℚ) ≤ y) ∧ (∃ p ∈ l, y < p.yi)

instance (l : List Point) (x y : ℚ) : Decidable (InBox l x y) := by unfold InBox; infer_instance

/-- The second edge has those points of the first that are at the given positions,
its ends among them. -/
def ReducedTo (e e' : TopoEdge) (kept : List Nat) : Prop :=
  Picks e.points kept e'.points ∧ kept.head? = some 0 ∧ kept.getLast? = some (e.points.length - 1)

/-- The stretches of the edges of a region that are made straight if for each edge the
given positions are kept. -/
def bypassed {δ : Type} (t : Topology δ) (keeps : List (List Nat)) (r : TopoRegion δ) : List (List Point) :=
  ((r.outerRings ++ r.innerRings).flatMap (·.directedEdges)).flatMap fun de =>
    straightened ((t.edges[de.edge]?.map (·.points)).getD []) (keeps[de.edge]?.getD [])

end TopoGeo.Spec
