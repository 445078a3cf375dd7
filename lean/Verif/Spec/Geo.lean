import Verif.Model.Geo
/-!
# Geometry by mathematics: exact integer areas

Nothing here uses machine arithmetic or the model's loops.
-/

namespace TopoGeo.Spec

/-- The `i64` range. -/
def InI64 (z : Int) : Prop := -2 ^ 63 ≤ z ∧ z < 2 ^ 63

instance (z : Int) : Decidable (InI64 z) := inferInstanceAs (Decidable (_ ∧ _))

/-- The representative of `z` modulo 2^64 in the `i64` range. -/
def wrap64 (z : Int) : Int := (z + 2 ^ 63) % 2 ^ 64 - 2 ^ 63

/-- Cross product of two position vectors: `x₁·y₂ - x₂·y₁`. -/
def cross (p q : Point) : Int :=
  (p.x.toNat : Int) * (q.y.toNat : Int) - (q.x.toNat : Int) * (p.y.toNat : Int)

/-- The shoelace sum of a path: the sum of cross products of consecutive
points. For a closed path it is twice the signed area. -/
def shoelace : List Point → Int
  | p :: q :: rest => cross p q + shoelace (q :: rest)
  | _ => 0

/-- The shoelace sum of a ring given by edges. -/
def shoelaceEdges (es : List (List Point)) : Int := (es.map shoelace).sum

/-- A path whose first and last point coincide. -/
def Closed (ps : List Point) : Prop := ps.head? = ps.getLast?

instance (ps : List Point) : Decidable (Closed ps) := inferInstanceAs (Decidable (_ = _))

/-- The mathematical signed double area of a ring. -/
def ringShoelace : Ring → Int
  | .points ps => shoelace ps
  | .edges es => shoelaceEdges es

/-- Consecutive edges share their common end point. -/
def Chained : List (List Point) → Prop
  | e :: f :: rest => (∃ p, e.getLast? = some p ∧ f.head? = some p) ∧ Chained (f :: rest)
  | _ => True

/-- The path made by following chained edges: each edge after the first one
contributes its points but for the first. -/
def joinPath : List (List Point) → List Point
  | [] => []
  | e :: rest => e ++ (rest.map List.tail).flatten

/-- `q` is `p` moved by `(dx, dy)`. -/
def Moved (dx dy : Int) (p q : Point) : Prop :=
  (q.x.toNat : Int) = p.x.toNat + dx ∧ (q.y.toNat : Int) = p.y.toNat + dy

/-- Opposite winding. -/
def flip : WindingOrder → WindingOrder
  | .clockwise => .counterClockwise
  | .counterClockwise => .clockwise

end TopoGeo.Spec
