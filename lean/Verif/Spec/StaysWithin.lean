import Verif.Spec.SimpleArea
import Verif.Spec.NoOverflow
/-!
# Maps that stay within rectangles
-/

namespace TopoGeo.Spec

/-- Each rectangle that holds all corners of the one holds all corners of the other. -/
def NoLarger (l l' : List (Point × Point)) : Prop := ∀ a b, EndsWithin l a b → EndsWithin l' a b

/-- The ends of the segments are inside of the mask or on its line. -/
def EndsInside (mask : ClipMask) (l : List (Point × Point)) : Prop := ∀ s ∈ l, 0 ≤ depth mask s.1 ∧ 0 ≤ depth mask s.2

instance (mask : ClipMask) (l : List (Point × Point)) : Decidable (EndsInside mask l) := by
  unfold EndsInside; infer_instance

end TopoGeo.Spec
