import Verif.Spec.Order
/-!
# Parts of a map, and what a region looks like
-/

namespace TopoGeo.Spec

variable {δ : Type}

/-- What a region looks like, whatever the numbers of its edges are: its data, and for
every edge of its rings the points that the topology stores and the direction in which
the ring follows them. -/
structure Drawn (δ : Type) where
  data : δ
  outer : List (List (Option (List Point) × Direction))
  inner : List (List (Option (List Point) × Direction))
deriving DecidableEq

/-- What a ring looks like. -/
def drawnRing (t : Topology δ) (ring : TopoRing) : List (Option (List Point) × Direction) :=
  ring.directedEdges.map fun de => (t.edges[de.edge]?.map (·.points), de.direction)

/-- What the regions of a topology look like, in order. -/
def drawn (t : Topology δ) : List (Drawn δ) :=
  t.regions.map fun r => ⟨r.data, r.outerRings.map (drawnRing t), r.innerRings.map (drawnRing t)⟩

/-- What a region looks like, and which regions are on the sides of its edges. -/
structure Surrounded (δ : Type) where
  data : δ
  outer : List (List ((Option (List Point) × Direction) × Sides))
  inner : List (List ((Option (List Point) × Direction) × Sides))

/-- What a ring looks like, and which regions are on the sides of its edges. -/
def surroundedRing (t : Topology δ) (ring : TopoRing) : List ((Option (List Point) × Direction) × Sides) :=
  ring.directedEdges.map fun de => ((t.edges[de.edge]?.map (·.points), de.direction), sides t de.edge)

/-- What the regions of a topology look like, in order, and which regions are on the
sides of their edges. -/
def surrounded (t : Topology δ) : List (Surrounded δ) :=
  t.regions.map fun r => ⟨r.data, r.outerRings.map (surroundedRing t), r.innerRings.map (surroundedRing t)⟩

/-- Another number for each region. -/
def otherSides (g : Nat → Nat) (s : Sides) : Sides := (s.1.map g, s.2.map g)

/-- The same region among neighbours with other numbers. -/
def Surrounded.rename (g : Nat → Nat) (r : Surrounded δ) : Surrounded δ :=
  ⟨r.data, r.outer.map (List.map fun x => (x.1, otherSides g x.2)), r.inner.map (List.map fun x => (x.1, otherSides g x.2))⟩

/-- Topology `u` is a part of topology `t`: edge `i` of `u` is edge `f i` of `t`, with
the same points in the same order; region `j` of `u` is region `g j` of `t`, with the
same data and the same rings, which follow the same edges in the same directions; the
regions of `u` come in the same order in `t`. -/
structure PartOf (f g : Nat → Nat) (u t : Topology δ) : Prop where
  inj : ∀ i < u.edges.length, ∀ j < u.edges.length, f i = f j → i = j
  increasing : ∀ i j, i < j → g i < g j
  edge : ∀ (i : Nat) (e : TopoEdge), u.edges[i]? = some e → ∃ e', t.edges[f i]? = some e' ∧ e'.points = e.points
  region : ∀ j, t.regions[g j]? = u.regions[j]?.map (renumberRegion f g)

/-- No ring of another region uses an edge of the part. -/
def Separate (f g : Nat → Nat) (u t : Topology δ) : Prop :=
  ∀ i < u.edges.length, ∀ rp ∈ ringsUsing t (f i), ∃ j < u.regions.length, rp.region = g j

end TopoGeo.Spec
