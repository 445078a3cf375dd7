import Verif.Spec.ClipTopology
import Verif.Model.Simplify
/-!
# Specification: simplifying edges

What `src/simplify` is supposed to do, without reference to heaps or linked
lists.
-/

namespace TopoGeo.Spec

/-- Twice the area of a triangle. -/
def triangleArea2 (a b c : Point) : Nat :=
  ((b.xi - a.xi) * (c.yi - a.yi) - (c.xi - a.xi) * (b.yi - a.yi)).natAbs

/-- What the code takes as the weight of `b` between `a` and `c`, as 64-bit
arithmetic yields it. It is not the area: one `-` is a `*`. -/
def weightOf (a b c : Point) : Nat :=
  (wrap64 (b.xi * a.xi * (c.yi - a.yi) - (c.xi - a.xi) * (b.yi - a.yi))).natAbs

/-- Edges that can be simplified: a line of two points or more, or a ring of
four points or more. -/
def Simplifiable (ps : List Point) : Prop :=
  2 ≤ ps.length ∧ (ps.head? = ps.getLast? → 4 ≤ ps.length)

instance (ps : List Point) : Decidable (Simplifiable ps) := inferInstanceAs (Decidable (_ ∧ _))

/-- The `j`-th point has a weight for which `P` holds, between some point
before it and some point after it. -/
def HasWeight (ps : List Point) (j : Nat) (P : Nat → Prop) : Prop :=
  ∃ i k a b c, i < j ∧ j < k ∧ ps[i]? = some a ∧ ps[j]? = some b ∧ ps[k]? = some c ∧ P (weightOf a b c)

/-- The points of `ps` at the given positions. -/
def Picks (ps : List Point) (kept : List Nat) (out : List Point) : Prop :=
  kept.Pairwise (· < ·) ∧ kept.map (ps[·]?) = out.map some

/-- The ways to take one inner point out of a line, each with the weight of that
point. -/
def removals : List Point → List (Nat × List Point)
  | a :: b :: c :: rest =>
    (weightOf a b c, a :: c :: rest) :: (removals (b :: c :: rest)).map fun (w, l) => (w, a :: l)
  | _ => []

/-- The lines that remain if `n` times a lightest inner point is taken out,
unless it is as heavy as the threshold: what Visvalingam and Whyatt's algorithm
yields on a line, one result for each way to break ties. -/
def lightestFirst (s : Nat) : Nat → List Point → List (List Point)
  | 0, ps => [ps]
  | n + 1, ps =>
    match ((removals ps).map (·.1)).min? with
    | some w => if w < s then ((removals ps).filter (·.1 = w)).flatMap fun x => lightestFirst s n x.2 else [ps]
    | none => [ps]

/-- What simplifying does to an edge of a topology. -/
def SimplifiedTo (m : Build) (s : Nat) (e e' : TopoEdge) : Prop :=
  simplifyEdge m e.points s = .ok e'.points ∧ e'.ring0 = e.ring0 ∧ e'.ring1 = e.ring1

/-- Paths that start and end alike, the second one with fewer points. -/
def Thinned (p p' : List Point) : Prop := p'.Sublist p ∧ p'.head? = p.head? ∧ p'.getLast? = p.getLast?

end TopoGeo.Spec
