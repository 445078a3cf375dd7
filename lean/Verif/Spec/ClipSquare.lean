import Verif.Spec.ClipNormalize
/-!
# Several masks, one after the other, whose lines cut borders at right angles
-/

namespace TopoGeo.Spec

/-- Where borders pass the mask line, they are at right angles to it. -/
def CutsSquare {δ : Type} (mask : ClipMask) (t : Topology δ) : Prop :=
  ∀ s ∈ storedSegs t, PassesLine mask s → other mask s.1 = other mask s.2

/-- The segment is horizontal or vertical. -/
def AxisParallel (s : Point × Point) : Prop := s.1.x = s.2.x ∨ s.1.y = s.2.y

instance (s : Point × Point) : Decidable (AxisParallel s) := by unfold AxisParallel; infer_instance

/-- The lines of two masks meet. -/
def Across : ClipMask → ClipMask → Prop
  | .minX _, .minY _ | .minX _, .maxY _ | .maxX _, .minY _ | .maxX _, .maxY _ => True
  | .minY _, .minX _ | .minY _, .maxX _ | .maxY _, .minX _ | .maxY _, .maxX _ => True
  | _, _ => False

/-- Masks that come after the masks `done`: the line of each is met by the lines of
those before it in at most one point. -/
def OneCorner : List ClipMask → List ClipMask → Prop
  | _, [] => True
  | done, mask :: masks =>
    (∀ a ∈ done, ∀ b ∈ done, Across a mask → Across b mask → bound a = bound b) ∧ OneCorner (mask :: done) masks

end TopoGeo.Spec
