import Verif.Spec.BuildSafe
import Verif.Spec.Merge
/-!
# Maps whose rings wind around each point once

How often rings wind around a point, when outer rings are walked clockwise and
inner rings counter-clockwise.
-/

namespace TopoGeo.Spec

/-- How the segment passes the horizontal ray from `(x, y)` towards larger `x`:
`1` if it crosses it towards larger `y`, `-1` if towards smaller `y`, `0` if it does
not cross it. -/
def passing (x y : ℚ) (s : Point × Point) : Int :=
  (if ((s.1.yi : ℚ) ≤ y ∧ y < s.2.yi) ∧ x < s.1.xi + (y - s.1.yi) * (s.2.xi - s.1.xi) / (s.2.yi - s.1.yi) then 1 else 0) -
  (if ((s.2.yi : ℚ) ≤ y ∧ y < s.1.yi) ∧ x < s.1.xi + (y - s.1.yi) * (s.2.xi - s.1.xi) / (s.2.yi - s.1.yi) then 1 else 0)

/-- How often the segments wind around the point `(x, y)`, clockwise if `y` grows
downwards. -/
def windsAround (l : List (Point × Point)) (x y : ℚ) : Int := (l.map (passing x y)).sum

/-- The segments of a ring, walked in the required orientation. -/
def windAs (order : WindingOrder) (paths : List (List Point)) : List (Point × Point) :=
  if Oriented order paths then paths.flatMap segs else (paths.flatMap segs).map Prod.swap

/-- The segments of what is kept of a region, walked in the required orientation. -/
def KeptRegion.walked {δ : Type} (k : KeptRegion δ) : List (Point × Point) :=
  k.outer.flatMap (windAs .clockwise) ++ k.inner.flatMap (windAs .counterClockwise)

/-- Parts that wind around each point at most once, all together, and whose borders
do not run along themselves. -/
structure WoundApart (parts : List (List (Point × Point))) : Prop where
  closed : ∀ part ∈ parts, Balanced part
  around : ∀ part ∈ parts, ∀ x y, 0 ≤ windsAround part x y
  apart : ∀ x y, windsAround parts.flatten x y ≤ 1
  once : ∀ part ∈ parts, part.Pairwise fun s s' => ¬ RunsAlong s s'
  moves : ∀ part ∈ parts, ∀ s ∈ part, s.1 ≠ s.2

/-- Each region is such a part. -/
def WoundMap {δ : Type} (rs : List (Region δ)) : Prop := WoundApart ((keptRegions rs).map (·.walked))

/-- The rings of the regions make up such parts. -/
def WoundIn {δ : Type} (parts : List (List (Point × Point))) (rs : List (Region δ)) : Prop :=
  WoundApart parts ∧ List.Perm ((keptRegions rs).flatMap (·.walked)) parts.flatten

end TopoGeo.Spec
