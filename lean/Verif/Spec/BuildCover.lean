import Verif.Spec.Cover
/-!
# What regions cover, before they become a topology
-/

namespace TopoGeo.Spec

/-- The rings of a region that do not get into a topology: those whose area is
zero, and all if that holds for all outer ones. -/
def droppedRings {δ : Type} (r : Region δ) : List Ring :=
  if keptRings r.outerRings = [] then r.outerRings ++ r.innerRings
  else (r.outerRings ++ r.innerRings).filter fun ring => ringArea ring = 0

/-- No ring that is dropped encloses the point. -/
def NothingDropped {δ : Type} (r : Region δ) (x y : ℚ) : Prop :=
  ∀ ring ∈ droppedRings r, ¬ Encloses (ringSegs ring) x y

instance {δ : Type} (r : Region δ) (x y : ℚ) : Decidable (NothingDropped r x y) := by
  unfold NothingDropped; infer_instance

/-- How many of the regions cover the point `(x, y)`. -/
def inputCover {δ : Type} (rs : List (Region δ)) (x y : ℚ) : Nat := rs.countP fun r => Encloses (regionSegs r) x y

end TopoGeo.Spec
