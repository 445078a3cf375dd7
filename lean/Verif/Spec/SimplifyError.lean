import Verif.Spec.Simplify
/-!
# Specification: moving and mirroring what is simplified
-/

namespace TopoGeo.Spec

/-- Two computations that panic alike, or yield corresponding paths. -/
def SameUpTo (T : Point → Point → Prop) (x y : R (List Point)) : Prop :=
  (∃ ps qs, x = .ok ps ∧ y = .ok qs ∧ List.Forall₂ T ps qs) ∨ ∃ e, x = .error e ∧ y = .error e

/-- The same for topologies: both have the same regions, whose edges are related point
by point and lie between the same rings, or both are the same panic. -/
def SameMapUpTo {δ : Type} (T : Point → Point → Prop) (x y : R (Topology δ)) : Prop :=
  (∃ t u, x = .ok t ∧ y = .ok u ∧ u.regions = t.regions ∧ List.Forall₂ (fun (e f : TopoEdge) =>
    List.Forall₂ T e.points f.points ∧ e.ring0 = f.ring0 ∧ e.ring1 = f.ring1) t.edges u.edges) ∨
  ∃ e, x = .error e ∧ y = .error e

/-- `q` is `p` mirrored at a horizontal line. -/
def Mirrored (h : Int) (p q : Point) : Prop :=
  p.x = q.x ∧ (p.y.toNat : Int) + q.y.toNat = h

/-- Coordinates for which computing a weight cannot overflow. -/
def Small (p : Point) : Prop := p.x.toNat < 2 ^ 21 ∧ p.y.toNat < 2 ^ 21

/-- The x and y coordinates exchanged. -/
def swapAxes (p : Point) : Point := ⟨p.y, p.x⟩

end TopoGeo.Spec
