import Verif.Spec.ClipTopology
import Verif.Spec.Normalize
/-!
# The same map at another place

All points move by the same vector. What regions are tagged with may change as well.
-/

namespace TopoGeo.Spec

/-- Both computations panic in the same way, or both return, and their results are
related. If `lenient`, one of them, or both, may overflow instead. -/
def Agree (lenient : Prop) {α β : Type} (r : α → β → Prop) : R α → R β → Prop
  | .ok a, .ok b => r a b
  | .error e, .error e' => e = e' ∨ (lenient ∧ (e = .overflow ∨ e' = .overflow))
  | .error e, .ok _ => lenient ∧ e = .overflow
  | .ok _, .error e => lenient ∧ e = .overflow

/-- The points of a path correspond. -/
abbrev SamePath (T : Point → Point → Prop) : List Point → List Point → Prop := List.Forall₂ T

/-- The points of a ring correspond. -/
def MatchedRing (T : Point → Point → Prop) : Ring → Ring → Prop
  | .points ps, .points qs => SamePath T ps qs
  | .edges es, .edges fs => List.Forall₂ (SamePath T) es fs
  | _, _ => False

/-- The points of a region correspond, and what it is tagged with. -/
structure SameRegion {δ ε : Type} (T : Point → Point → Prop) (D : δ → ε → Prop) (r : Region δ) (s : Region ε) : Prop where
  data : D r.data s.data
  outer : List.Forall₂ (MatchedRing T) r.outerRings s.outerRings
  inner : List.Forall₂ (MatchedRing T) r.innerRings s.innerRings

/-- The points of an edge correspond. It is between the same rings. -/
structure SameEdge (T : Point → Point → Prop) (e f : TopoEdge) : Prop where
  points : SamePath T e.points f.points
  ring0 : e.ring0 = f.ring0
  ring1 : e.ring1 = f.ring1

/-- The region has the same rings, made of the same edges. -/
structure SameTopoRegion {δ ε : Type} (D : δ → ε → Prop) (r : TopoRegion δ) (s : TopoRegion ε) : Prop where
  data : D r.data s.data
  outer : r.outerRings = s.outerRings
  inner : r.innerRings = s.innerRings

/-- The topologies differ in the place of points and in what regions are tagged with. -/
structure SameTopology {δ ε : Type} (T : Point → Point → Prop) (D : δ → ε → Prop) (t : Topology δ) (u : Topology ε) : Prop where
  regions : List.Forall₂ (SameTopoRegion D) t.regions u.regions
  edges : List.Forall₂ (SameEdge T) t.edges u.edges

/-- The ring ends where it starts. -/
def RingCloses : Ring → Prop
  | .points ps => Closed ps
  | .edges es => es = [] ∨ ClosedRing es

instance (ring : Ring) : Decidable (RingCloses ring) := by cases ring <;> unfold RingCloses <;> infer_instance

/-- The mask line moves along. -/
def MovedMask (dx dy : Int) : ClipMask → ClipMask → Prop
  | .minX c, .minX c' | .maxX c, .maxX c' => (c'.toNat : Int) = c.toNat + dx
  | .minY c, .minY c' | .maxY c, .maxY c' => (c'.toNat : Int) = c.toNat + dy
  | _, _ => False

end TopoGeo.Spec
