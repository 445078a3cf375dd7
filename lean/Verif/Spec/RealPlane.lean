import Mathlib.Order.SymmDiff
import Verif.Spec.Area
import Verif.Spec.BuildCover
import Verif.Spec.Straighten
/-!
# What regions cover in the real plane
-/

namespace TopoGeo.Spec

/-- The points that a ring encloses which does not get into a topology. -/
def lostPart {δ : Type} (r : Region δ) : Set (ℝ × ℝ) := {p | ∃ ring ∈ droppedRings r, p ∈ enclosed (ringSegs ring)}

/-- The points that belong to one of the parts but not to the other. -/
def changed (s s' : Set (ℝ × ℝ)) : Set (ℝ × ℝ) := symmDiff s s'

/-- Twice the areas of the triangles from a point to the segments of a path. -/
def fanFrom (p : Point) : List Point → Nat
  | q :: r :: rest => triangleArea2 p q r + fanFrom p (r :: rest)
  | _ => 0

/-- Twice the areas of the triangles from the first point of a path to its
segments. -/
def fan : List Point → Nat
  | p :: rest => fanFrom p rest
  | [] => 0

end TopoGeo.Spec
