import Verif.Model.Display
/-!
# Specification: texts
-/

namespace TopoGeo.Spec

/-- Rings that are equal, or both empty. -/
def SameRing (a b : Ring) : Prop :=
  a = b ∨ ((a = .points [] ∨ a = .edges []) ∧ (b = .points [] ∨ b = .edges []))

/-- Texts with a separator between each two. -/
inductive Separated (sep : Text) : List Text → Text → Prop where
  | none : Separated sep [] []
  | one (t : Text) : Separated sep [t] t
  | more (t : Text) (ts : List Text) (rest : Text) : ts ≠ [] → Separated sep ts rest → Separated sep (t :: ts) (t ++ sep ++ rest)

end TopoGeo.Spec
