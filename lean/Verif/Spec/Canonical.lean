import Mathlib.Data.List.Rotate
import Verif.Spec.Normalize
/-!
# Drawing the same map in different ways
-/

namespace TopoGeo.Spec

open scoped List

/-- The same closed curve, started elsewhere or walked the other way. -/
def SameCurve (a b : List (List Point)) : Prop := a ~r b ∨ a ~r (b.map List.reverse).reverse

/-- The same closed curves, in any order. -/
def SameCurves (a b : List (List (List Point))) : Prop := ∃ c, c.Perm b ∧ List.Forall₂ SameCurve a c

/-- The same regions. The rings of each may be listed in another order, may
start elsewhere and may be walked the other way. -/
def SameMap {δ : Type} (rs rs' : List (Region δ)) : Prop :=
  List.Forall₂ (fun (k k' : KeptRegion δ) => k.data = k'.data ∧ SameCurves k.outer k'.outer ∧
    SameCurves k.inner k'.inner) (keptRegions rs) (keptRegions rs')

/-- No two segments of the boundary of a region start at the same point. Outer
and inner rings are looked at separately. -/
def PassedOnce {δ : Type} (t : Topology δ) : Prop :=
  ∀ r ∈ t.regions, ((boundary t .clockwise r.outerRings).map (·.1.1)).Nodup ∧
    ((boundary t .counterClockwise r.innerRings).map (·.1.1)).Nodup

instance {δ : Type} (t : Topology δ) : Decidable (PassedOnce t) := by
  unfold PassedOnce; infer_instance

/-- The regions have the same data, and the same boundaries with the same
regions on both sides. -/
def SameBoundaries {δ : Type} (t t' : Topology δ) : Prop :=
  List.Forall₂ (fun r r' => r.data = r'.data ∧
    (boundary t .clockwise r.outerRings).Perm (boundary t' .clockwise r'.outerRings) ∧
    (boundary t .counterClockwise r.innerRings).Perm (boundary t' .counterClockwise r'.innerRings))
    t.regions t'.regions

end TopoGeo.Spec
