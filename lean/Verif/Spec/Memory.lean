import Verif.Model.Memory
import Verif.Spec.Topology
import Mathlib.Data.List.Forall2
/-!
# What the raw pointers of a topology should refer to
-/

namespace TopoGeo.Spec

/-- The edge of the topology whose address is `p`, by number. -/
def edgeIndex {δ : Type} (w : World) (t : MTopology δ) (p : Nat) : Option Nat :=
  locate t.edges.address w.edgeSize t.edges.elems.length p

/-- The region of the topology whose address is `p`, by number. -/
def regionIndex {δ : Type} (w : World) (t : MTopology δ) (p : Nat) : Option Nat :=
  locate t.regions.address w.regionSize t.regions.elems.length p

/-- The ring number `k` of a box is at address `p`. -/
def RingInBox (w : World) (b : MBox MRing) (k p : Nat) : Prop :=
  k < b.elems.length ∧ p = b.address + w.ringSize * k

/-- The ring at address `p`, by region, kind and number. -/
def RingIs {δ : Type} (w : World) (t : MTopology δ) (p : Nat) (rp : RingPtr) : Prop :=
  ∃ r, t.regions.elems[rp.region]? = some r ∧ RingInBox w (if rp.inner then r.innerRings else r.outerRings) rp.index p

/-- A pointer to a ring that may be null. At most one ring is at its address. -/
def RingOrNull {δ : Type} (w : World) (t : MTopology δ) (p : Nat) : Option RingPtr → Prop
  | none => p = 0
  | some rp => p ≠ 0 ∧ ∀ rp', RingIs w t p rp' ↔ rp' = rp

/-- A pointer to a region that may be null. -/
def RegionOrNull {δ : Type} (w : World) (t : MTopology δ) (p : Nat) : Option Nat → Prop
  | none => p = 0
  | some n => p ≠ 0 ∧ regionIndex w t p = some n

/-- A ring in memory and the same ring with pointers replaced by numbers. -/
def RingReads {δ : Type} (w : World) (t : MTopology δ) (mem : MRing) (ring : TopoRing) : Prop :=
  List.Forall₂ (fun d de => edgeIndex w t d.edge = some de.edge ∧ d.direction = de.direction)
    mem.directedEdges ring.directedEdges ∧ RegionOrNull w t mem.region ring.region

/-- A topology in memory and the same topology with pointers replaced by numbers:
all its pointers are null or refer to its own elements. -/
structure Reads {δ : Type} (w : World) (mem : MTopology δ) (t : Topology δ) : Prop where
  edges : List.Forall₂ (fun E e => E.points = e.points ∧ RingOrNull w mem E.ring0 e.ring0 ∧ RingOrNull w mem E.ring1 e.ring1)
    mem.edges.elems t.edges
  regions : List.Forall₂ (fun R r => R.data = r.data ∧ List.Forall₂ (RingReads w mem) R.outerRings.elems r.outerRings ∧
    List.Forall₂ (RingReads w mem) R.innerRings.elems r.innerRings) mem.regions.elems t.regions

/-- What any machine provides: elements take up space, and address 0 is not used. -/
structure RealWorld (w : World) : Prop where
  edge : 0 < w.edgeSize
  ring : 0 < w.ringSize
  region : 0 < w.regionSize
  address : ∀ b, w.address b ≠ 0

/-- Two blocks of memory do not overlap. -/
def Apart (a n a' n' : Nat) : Prop := a + n ≤ a' ∨ a' + n' ≤ a

/-- What any allocator provides: the boxes of rings of a topology do not overlap. -/
def BoxesApart {δ : Type} (w : World) (t : MTopology δ) : Prop :=
  ∀ (n n' : Nat) (r r' : MRegion δ) (i i' : Bool), t.regions.elems[n]? = some r → t.regions.elems[n']? = some r' → (n, i) ≠ (n', i') →
    let b := if i then r.innerRings else r.outerRings
    let b' := if i' then r'.innerRings else r'.outerRings
    Apart b.address (w.ringSize * b.elems.length) b'.address (w.ringSize * b'.elems.length)

/-- `collect` returns vectors without spare capacity. -/
def ExactCapacity (w : World) : Prop := (∀ n, w.edgesCapacity n = n) ∧ ∀ n, w.regionsCapacity n = n

end TopoGeo.Spec
