import Verif.Spec.Clip
/-!
# Edges of a clipped topology with the same points
-/

namespace TopoGeo.Spec

/-- The mask line cuts a segment of the path, and `a`, `b` are what remains: its
end inside of the mask, and the crossing that `intersect` computes. -/
def LeftOfCut (m : Build) (mask : ClipMask) (edge : List Point) (a b : Point) : Prop :=
  ∃ p q, [p, q] ∈ pairs edge ∧ Crosses mask p q ∧
    ((b = q ∧ mask.intersect m p q = .ok a) ∨ (a = p ∧ mask.intersect m p q = .ok b))

/-- The same line, either way. -/
def SameLine (e f : List Point) : Prop := f = e ∨ f = e.reverse

end TopoGeo.Spec
