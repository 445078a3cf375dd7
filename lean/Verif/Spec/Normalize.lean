import Verif.Spec.ClipTopology
import Verif.Model.Normalize
/-!
# What normalizing means

Rings of a topology as lists of paths with the regions on their two sides, and
their directed segments. Nothing here refers to the steps of `normalize`.
-/

namespace TopoGeo.Spec

/-- The directed segments of a path. -/
def segs : List Point → List (Point × Point)
  | p :: q :: rest => (p, q) :: segs (q :: rest)
  | _ => []

/-- The path of a directed edge (empty if its edge does not exist). -/
def pathOf {δ : Type} (t : Topology δ) (de : DirectedEdge) : List Point := (walk t.edges de).getD []

/-- The paths of a ring. -/
def pathsOf {δ : Type} (t : Topology δ) (ring : TopoRing) : List (List Point) :=
  ring.directedEdges.map (pathOf t)

/-- The regions on the two sides of an edge: those of its first and of its
second user. -/
abbrev Sides := Option Nat × Option Nat

/-- The regions of the users of edge `i`. -/
def sides {δ : Type} (t : Topology δ) (i : Nat) : Sides :=
  ((ringsUsing t i)[0]?.map (·.region), (ringsUsing t i)[1]?.map (·.region))

/-- A path and the regions on its sides. -/
structure Bound where
  path : List Point
  sides : Sides
deriving DecidableEq

/-- Not the same region on both sides. -/
def Bound.separates (b : Bound) : Bool := b.sides.1 ≠ b.sides.2

/-- A ring of a topology with the sides of its edges. -/
def bounds {δ : Type} (t : Topology δ) (ring : TopoRing) : List Bound :=
  ring.directedEdges.map fun de => ⟨pathOf t de, sides t de.edge⟩

/-- The same ring, walked the other way. -/
def turned (bs : List Bound) : List Bound := (bs.map fun b => ⟨b.path.reverse, b.sides⟩).reverse

/-- Paths that enclose an area in the given orientation, as 64-bit arithmetic
sees it. -/
def Oriented (order : WindingOrder) (paths : List (List Point)) : Prop :=
  match order with
  | .clockwise => 0 < wrap64 (shoelaceEdges paths)
  | .counterClockwise => wrap64 (shoelaceEdges paths) < 0

instance (order : WindingOrder) (paths : List (List Point)) : Decidable (Oriented order paths) := by
  unfold Oriented; split <;> infer_instance

/-- A ring, walked in the required orientation. -/
def wound {δ : Type} (t : Topology δ) (order : WindingOrder) (ring : TopoRing) : List Bound :=
  if Oriented order (pathsOf t ring) then bounds t ring else turned (bounds t ring)

/-- Directed segments with their sides. -/
def sidedSegs (bs : List Bound) : List ((Point × Point) × Sides) :=
  bs.flatMap fun b => (segs b.path).map fun s => (s, b.sides)

/-- The boundary of some rings: their segments in the required orientation,
without those that have the same region on both sides. -/
def boundary {δ : Type} (t : Topology δ) (order : WindingOrder) (rings : List TopoRing) :
    List ((Point × Point) × Sides) :=
  rings.flatMap fun ring => sidedSegs ((wound t order ring).filter Bound.separates)

/-- Each element differs from the next one, and the last one from the first
one, unless there is only one. -/
def CyclicallyDistinct {α : Type} (l : List α) : Prop :=
  l.length ≤ 1 ∨ List.IsChain (· ≠ ·) (l ++ l.take 1)

/-- The leftmost (topmost) point comes first: in a ring of one path, of all
points; in other rings, of all ends of paths. -/
def StartsLeftmost (paths : List (List Point)) : Prop :=
  match paths with
  | [e] => ∀ p ∈ e, ∀ q, e.head? = some q → ¬ p < q
  | _ => ∀ e ∈ paths, ∀ p, e.head? = some p → ∀ q, paths.head?.bind List.head? = some q → ¬ p < q

/-- The first points of the rings are in order. -/
def SortedByFirst (rings : List (List (List Point))) : Prop :=
  rings.Pairwise fun a b => ∀ p, a.head?.bind List.head? = some p → ∀ q, b.head?.bind List.head? = some q → ¬ q < p

/-- All rings of a topology are closed, without gaps. -/
def RingsClosed {δ : Type} (t : Topology δ) : Prop :=
  ∀ ring ∈ allRings t, ∃ paths, ReadsAs t.edges paths ring ∧ ClosedRing paths

/-- Topologies as they are meant to be: exact back pointers, closed rings and no
edges of zero length. -/
structure WellFormed {δ : Type} (t : Topology δ) : Prop where
  pointers : BackPointersExact t
  closed : RingsClosed t
  extended : ∀ e ∈ t.edges, ¬ ZeroLength e.points

/-- Their paths. -/
def pathsIn (bs : List Bound) : List (List Point) := bs.map (·.path)

/-- The ring that consists of the given paths. -/
def ringOf (bs : List Bound) : Ring := .edges (pathsIn bs)

/-- `t'` is the topology of regions that correspond to the regions of `t` one
by one: with the same data, and with outer and inner rings that are related by
`P` to the old ones. -/
def Rebuilt {δ : Type} (m : Build) (t t' : Topology δ)
    (P : WindingOrder → List TopoRing → List (List Bound) → Prop) : Prop :=
  ∃ rs : List (Region δ), buildTopology m rs = .ok t' ∧
    List.Forall₂ (fun (r : TopoRegion δ) (r' : Region δ) => r'.data = r.data ∧
      ∃ outer inner : List (List Bound), r'.outerRings = outer.map ringOf ∧ r'.innerRings = inner.map ringOf ∧
        P .clockwise r.outerRings outer ∧ P .counterClockwise r.innerRings inner) t.regions rs

/-- No edge of these rings has the same region on both sides. -/
def NoSelfEdges {δ : Type} (t : Topology δ) (rings : List TopoRing) : Prop :=
  ∀ ring ∈ rings, ∀ de ∈ ring.directedEdges, (sides t de.edge).1 ≠ (sides t de.edge).2

/-- The directed segments of rings, walked in the required orientation, that
have the same region on both sides. -/
def selfSegs {δ : Type} (t : Topology δ) (order : WindingOrder) (rings : List TopoRing) : List (Point × Point) :=
  (rings.flatMap fun ring => sidedSegs ((wound t order ring).filter fun b => !b.separates)).map (·.1)

/-- The total of signed areas. -/
def totalShoelace (rings : List (List Bound)) : Int := (rings.map fun bs => shoelaceEdges (pathsIn bs)).sum

/-- How often rings pass over the segment between two points, either way. -/
def passes {δ : Type} (t : Topology δ) (p q : Point) : Nat :=
  ((allRings t).flatMap fun ring => (pathsOf t ring).flatMap segs).countP fun s => s = (p, q) ∨ s = (q, p)

/-- The documented normalization rules, as far as they concern single rings. -/
structure Normal {δ : Type} (t : Topology δ) : Prop where
  wellFormed : WellFormed t
  noSelf : NoSelfEdges t (allRings t)
  distinct : ∀ ring ∈ allRings t, CyclicallyDistinct (ring.directedEdges.map fun de => sides t de.edge)
  clockwise : ∀ r ∈ t.regions, ∀ ring ∈ r.outerRings, Oriented .clockwise (pathsOf t ring)
  counterClockwise : ∀ r ∈ t.regions, ∀ ring ∈ r.innerRings, Oriented .counterClockwise (pathsOf t ring)
  first : ∀ ring ∈ allRings t, StartsLeftmost (pathsOf t ring)
  sorted : ∀ r ∈ t.regions, SortedByFirst (r.outerRings.map (pathsOf t)) ∧ SortedByFirst (r.innerRings.map (pathsOf t))

/-- `b` comes directly after `a` in a list whose end is joined to its start. -/
def Adjoins {α : Type} (l : List α) (a b : α) : Prop :=
  ∃ i, l[i]? = some a ∧ l[(i + 1) % l.length]? = some b

/-- All rings, walked in the required orientation: the number of the region and
the segments of the ring with their sides. -/
def walks {δ : Type} (t : Topology δ) : List (Nat × List ((Point × Point) × Sides)) :=
  t.regions.zipIdx.flatMap fun (r, n) =>
    (r.outerRings.map fun ring => (n, sidedSegs (wound t .clockwise ring))) ++
    (r.innerRings.map fun ring => (n, sidedSegs (wound t .counterClockwise ring)))

/-- Maps without overlaps and without rings that touch themselves. Where a ring
passes over two segments, one after the other, with the same two regions on
their sides, the other region's ring passes over them the other way. -/
structure Tidy {δ : Type} (t : Topology δ) : Prop where
  /-- a segment lies on one edge, once -/
  segments : (t.edges.flatMap fun e => segs e.points ++ (segs e.points).map Prod.swap).Nodup
  /-- no two rings have area on the same side of a segment -/
  once : ((walks t).flatMap fun w => w.2.map (·.1)).Nodup
  /-- a ring passes a point once -/
  simple : ∀ w ∈ walks t, (w.2.map (·.1.1)).Nodup
  /-- shared boundaries are shared at their inner points, too -/
  matched : ∀ w ∈ walks t, ∀ a b, Adjoins w.2 a b → a.2 = b.2 → a.2.2 ≠ none →
    ∃ w' ∈ walks t, Adjoins w'.2 (b.1.swap, b.2) (a.1.swap, a.2)

/-- Maps of regions that neither overlap nor touch themselves. -/
structure Clean {δ : Type} (t : Topology δ) : Prop where
  /-- no two rings have area on the same side of a segment -/
  once : ((walks t).flatMap fun w => w.2.map (·.1)).Nodup
  /-- the boundary of a region passes a point once -/
  simple : ∀ n, (((walks t).filter (·.1 = n)).flatMap fun w => w.2.map (·.1.1)).Nodup

end TopoGeo.Spec
