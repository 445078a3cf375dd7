import Verif.Spec.ClipWinding
import Verif.Spec.ReadGeo
/-!
# Rings within a rectangle
-/

namespace TopoGeo.Spec

/-- The ends of the segments are in the rectangle between the two corners. -/
def EndsWithin (l : List (Point × Point)) (a b : Point) : Prop :=
  ∀ s ∈ l, (a.xi ≤ s.1.xi ∧ s.1.xi ≤ b.xi ∧ a.yi ≤ s.1.yi ∧ s.1.yi ≤ b.yi) ∧
    (a.xi ≤ s.2.xi ∧ s.2.xi ≤ b.xi ∧ a.yi ≤ s.2.yi ∧ s.2.yi ≤ b.yi)

instance (l : List (Point × Point)) (a b : Point) : Decidable (EndsWithin l a b) := by
  unfold EndsWithin; infer_instance

/-- The rectangle, without its right and its lower side. -/
def cornerBox (a b : Point) : Set (ℝ × ℝ) :=
  Set.Ico (a.xi : ℝ) b.xi ×ˢ Set.Ico (a.yi : ℝ) b.yi

/-- What arithmetic modulo `2 ^ 64` makes of `n`, twice the area that a ring encloses once,
clockwise: a number and a direction. -/
def readClockwise (n : Nat) : Nat × WindingOrder :=
  if n < 2 ^ 63 then (n, .clockwise)
  else if n < 2 ^ 64 then (2 ^ 64 - n, .counterClockwise)
  else if n < 2 ^ 64 + 2 ^ 63 then (n - 2 ^ 64, .clockwise)
  else (2 ^ 65 - n, .counterClockwise)

/-- The same if it encloses it counter-clockwise. -/
def readCounterClockwise (n : Nat) : Nat × WindingOrder :=
  if n = 0 then (0, .clockwise)
  else if n ≤ 2 ^ 63 then (n, .counterClockwise)
  else if n ≤ 2 ^ 64 then (2 ^ 64 - n, .clockwise)
  else if n ≤ 2 ^ 64 + 2 ^ 63 then (n - 2 ^ 64, .counterClockwise)
  else (2 ^ 65 - n, .clockwise)

end TopoGeo.Spec
