import Verif.Spec.EvenOdd
import Verif.Spec.Sizes
import Verif.Spec.Order
/-!
# Maps that are too small for an overflow
-/

namespace TopoGeo.Spec

/-- The coordinates have at most `k` bits. -/
def OnGrid (k : Nat) (p : Point) : Prop := p.x.toNat < 2 ^ k ∧ p.y.toNat < 2 ^ k

instance (k : Nat) (p : Point) : Decidable (OnGrid k p) := by unfold OnGrid; infer_instance

/-- Segments between points of the grid, so few that no area can overflow. -/
def SmallSegs (k : Nat) (S : List (Point × Point)) : Prop :=
  (∀ s ∈ S, OnGrid k s.1 ∧ OnGrid k s.2) ∧ S.length * 2 ^ (2 * k) < 2 ^ 63

/-- All points of the edges are on the grid. -/
def GridMap {δ : Type} (k : Nat) (t : Topology δ) : Prop := ∀ e ∈ t.edges, ∀ p ∈ e.points, OnGrid k p

/-- The segments of the rings of regions. -/
def givenSegs {δ : Type} (rs : List (Region δ)) : List (Point × Point) :=
  rs.flatMap fun r => (r.outerRings ++ r.innerRings).flatMap ringSegs

/-- How many of the operations clip. -/
def clips : List Operation → Nat
  | [] => 0
  | .clip _ :: ops => clips ops + 1
  | _ :: ops => clips ops

/-- The operations, one after the other. -/
def applyAll {δ : Type} (m : Build) (t : Topology δ) : List Operation → R (Topology δ)
  | [] => .ok t
  | op :: ops => do
    let t' ← op.apply m t
    applyAll m t' ops

end TopoGeo.Spec
