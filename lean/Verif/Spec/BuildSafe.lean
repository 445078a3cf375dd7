import Verif.Spec.EvenOdd
import Verif.Spec.Cover
/-!
# Maps without overlaps

Regions that have no point in common, and borders that do not run along
themselves.
-/

namespace TopoGeo.Spec

/-- The segments of rings that are given by their paths. -/
def partSegs (part : List (List (List Point))) : List (Point × Point) := part.flatMap fun paths => paths.flatMap segs

/-- How many of the parts have the point, by the even-odd rule. -/
def timesCovered (parts : List (List (List (List Point)))) (x y : ℚ) : Nat :=
  parts.countP fun part => Encloses (partSegs part) x y

/-- The point is on the straight line through the segment. -/
def InLine (s : Point × Point) (p : Point) : Prop :=
  (s.2.xi - s.1.xi) * (p.yi - s.1.yi) = (s.2.yi - s.1.yi) * (p.xi - s.1.xi)

instance (s : Point × Point) (p : Point) : Decidable (InLine s p) := by unfold InLine; infer_instance

/-- Two ranges have more than one number in common. -/
def RangesMeet (a b c d : Int) : Prop := max (min a b) (min c d) < min (max a b) (max c d)

instance (a b c d : Int) : Decidable (RangesMeet a b c d) := by unfold RangesMeet; infer_instance

/-- Two segments are on the same straight line and have more than one point in
common. -/
def RunsAlong (s s' : Point × Point) : Prop :=
  InLine s s'.1 ∧ InLine s s'.2 ∧
    (RangesMeet s.1.xi s.2.xi s'.1.xi s'.2.xi ∨ RangesMeet s.1.yi s.2.yi s'.1.yi s'.2.yi)

instance (s s' : Point × Point) : Decidable (RunsAlong s s') := by unfold RunsAlong; infer_instance

/-- Parts as one would draw them: rings are closed, no point is in two parts, the
border of no part runs along itself, and no segment stays where it is. Borders of
different parts may run along each other in any way, and borders may meet and
cross in single points. -/
structure DrawnApart (parts : List (List (List (List Point)))) : Prop where
  closed : ∀ part ∈ parts, ∀ paths ∈ part, ClosedRing paths
  apart : ∀ x y, timesCovered parts x y ≤ 1
  once : ∀ part ∈ parts, (partSegs part).Pairwise fun s s' => ¬ RunsAlong s s'
  moves : ∀ part ∈ parts, ∀ s ∈ partSegs part, s.1 ≠ s.2

/-- The kept rings of a region. -/
def KeptRegion.rings {δ : Type} (k : KeptRegion δ) : List (List (List Point)) := k.outer ++ k.inner

/-- The regions with their kept rings are drawn like that. -/
def DrawnMap {δ : Type} (rs : List (Region δ)) : Prop := DrawnApart ((keptRegions rs).map (·.rings))

/-- The rings that are kept are those of the parts. The parts of a region may be
neighbours. -/
def DrawnIn {δ : Type} (parts : List (List (List (List Point)))) (rs : List (Region δ)) : Prop :=
  DrawnApart parts ∧ List.Perm ((keptRegions rs).flatMap (·.rings)) parts.flatten

end TopoGeo.Spec
