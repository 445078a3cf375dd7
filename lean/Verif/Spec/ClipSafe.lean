import Verif.Spec.ClipCover
import Verif.Spec.Cover
/-!
# Where the borders of regions pass the mask line
-/

namespace TopoGeo.Spec

/-- One end is inside of the mask, the other is outside or on the mask line. -/
def PassesLine (mask : ClipMask) (s : Point × Point) : Prop := ¬ (0 < depth mask s.1 ↔ 0 < depth mask s.2)

instance (mask : ClipMask) (s : Point × Point) : Decidable (PassesLine mask s) := by unfold PassesLine; infer_instance

/-- Where the segment meets the mask line, measured along it. -/
def meetsAt (mask : ClipMask) (s : Point × Point) : ℚ :=
  other mask s.1 + (bound mask - tested mask s.1) * (other mask s.2 - other mask s.1) /
    (tested mask s.2 - tested mask s.1 : ℚ)

/-- The point where clipping makes it end there. -/
def clippedAt (m : Build) (mask : ClipMask) (s : Point × Point) : Option Point :=
  if depth mask s.1 = 0 then some s.1
  else if depth mask s.2 = 0 then some s.2
  else (mask.intersect m s.1 s.2).toOption

/-- The segments of the edges as they are stored. -/
def storedSegs {δ : Type} (t : Topology δ) : List (Point × Point) := t.edges.flatMap fun e => segs e.points

/-- Clipping does not make segments end in the same point that pass the mask line in
different ones. -/
def CutsApart {δ : Type} (m : Build) (mask : ClipMask) (t : Topology δ) : Prop :=
  ∀ s ∈ storedSegs t, ∀ s' ∈ storedSegs t, PassesLine mask s → PassesLine mask s' → ∀ p,
    clippedAt m mask s = some p → clippedAt m mask s' = some p → meetsAt mask s = meetsAt mask s'

/-- The turns of a closed line: each segment with the one that follows it. -/
def turns (l : List (Point × Point)) : List ((Point × Point) × (Point × Point)) := l.zip (l.tail ++ l.take 1)

/-- The line comes from inside to the mask line and turns back. -/
def TouchesLine (mask : ClipMask) (w : (Point × Point) × (Point × Point)) : Prop :=
  0 < depth mask w.1.1 ∧ depth mask w.1.2 = 0 ∧ w.1.2 = w.2.1 ∧ 0 < depth mask w.2.2

instance (mask : ClipMask) (w : (Point × Point) × (Point × Point)) : Decidable (TouchesLine mask w) := by
  unfold TouchesLine; infer_instance

/-- How often the border of a region passes the mask line at `c`. -/
def timesPassed {δ : Type} (mask : ClipMask) (t : Topology δ) (r : TopoRegion δ) (c : ℚ) : Nat :=
  (topoRegionSegs t r).countP fun s => PassesLine mask s ∧ meetsAt mask s = c

/-- How often it only touches the line there, from inside. -/
def timesTouched {δ : Type} (mask : ClipMask) (t : Topology δ) (r : TopoRegion δ) (c : ℚ) : Nat :=
  ((r.outerRings ++ r.innerRings).flatMap fun ring => turns (topoRingSegs t ring)).countP
    fun w => TouchesLine mask w ∧ (other mask w.1.2 : ℚ) = c

/-- No region passes the mask line twice in the same point, other than by touching
it from inside: that counts as two, there and back. -/
def PassesOnce {δ : Type} (mask : ClipMask) (t : Topology δ) : Prop :=
  ∀ r ∈ t.regions, ∀ c, timesPassed mask t r c ≤ 1 + 2 * timesTouched mask t r c

/-- No point inside of the mask belongs to two regions. -/
def NoOverlap {δ : Type} (mask : ClipMask) (t : Topology δ) : Prop :=
  ∀ x y, Within mask x y → cover t x y ≤ 1

end TopoGeo.Spec
