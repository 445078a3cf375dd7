import Mathlib.MeasureTheory.Measure.Lebesgue.Basic
import Verif.Spec.EvenOdd
/-!
# Area as measure theory has it

Points of the plane are pairs of real numbers; areas are Lebesgue measure.
-/

namespace TopoGeo.Spec

/-- Where the line through the ends of the segment is at height `y`. -/
noncomputable def crossX (y : ℝ) (s : Point × Point) : ℝ :=
  s.1.xi + (y - s.1.yi) * (s.2.xi - s.1.xi) / (s.2.yi - s.1.yi)

open Classical in
/-- How the segment passes the horizontal ray from `(x, y)` towards larger `x`:
`1` if it crosses it towards larger `y`, `-1` if towards smaller `y`, `0` if it does
not cross it. Of the ends of a segment the one with smaller `y` counts as part of
it, the other does not. -/
noncomputable def turn (x y : ℝ) (s : Point × Point) : ℤ :=
  if x < crossX y s then
    if (s.1.yi : ℝ) ≤ y ∧ y < s.2.yi then 1
    else if (s.2.yi : ℝ) ≤ y ∧ y < s.1.yi then -1
    else 0
  else 0

/-- How often the segments wind around the point `(x, y)`. With `y` downwards, as
on a screen, clockwise is positive. -/
noncomputable def winding (l : List (Point × Point)) (x y : ℝ) : ℤ := (l.map (turn x y)).sum

/-- The points that the segments enclose by the even-odd rule. -/
def enclosed (l : List (Point × Point)) : Set (ℝ × ℝ) := {p | Odd (winding l p.1 p.2)}

/-- The area of a part of the plane, which may be infinite. -/
noncomputable def areaOf (s : Set (ℝ × ℝ)) : ENNReal := MeasureTheory.volume s

/-- The segments wind around every point once or not at all, always clockwise. -/
def WindsOnce (l : List (Point × Point)) : Prop := ∀ x y : ℝ, winding l x y = 0 ∨ winding l x y = 1

/-- The same, counter-clockwise. -/
def WindsOnceBack (l : List (Point × Point)) : Prop := ∀ x y : ℝ, winding l x y = 0 ∨ winding l x y = -1

/-- The ring ends where it starts and has no gaps. -/
def RingClosed : Ring → Prop
  | .points ps => Closed ps
  | .edges es => ClosedRing es

instance (r : Ring) : Decidable (RingClosed r) := by
  cases r <;> unfold RingClosed <;> infer_instance

end TopoGeo.Spec
