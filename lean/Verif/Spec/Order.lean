import Verif.Spec.Pipeline
/-!
# Topologies that differ in the numbers of edges and regions only
-/

namespace TopoGeo.Spec

/-- The same ring of a region with another number. -/
def renumberPtr (g : Nat → Nat) (p : RingPtr) : RingPtr := ⟨g p.region, p.inner, p.index⟩

/-- The same ring, if edge `i` has the number `f i` and region `j` the number `g j`. -/
def renumberRing (f g : Nat → Nat) (r : TopoRing) : TopoRing :=
  ⟨r.directedEdges.map fun de => ⟨f de.edge, de.direction⟩, r.region.map g⟩

/-- The same region, with other numbers. -/
def renumberRegion {δ : Type} (f g : Nat → Nat) (r : TopoRegion δ) : TopoRegion δ :=
  ⟨r.data, r.outerRings.map (renumberRing f g), r.innerRings.map (renumberRing f g)⟩

/-- The numbers below `n` get other numbers below `n`. -/
structure Reorders (n : Nat) (f : Nat → Nat) : Prop where
  lt : ∀ i < n, f i < n
  inj : ∀ i < n, ∀ j < n, f i = f j → i = j

/-- Topology `u` is topology `t` with other numbers: edge `i` of `t` is edge `f i` of
`u`, with the same points in the same order, used by the same rings; region `j` of `t`
is region `g j` of `u`, with the same data and the same rings, in the same order, which
follow the same edges in the same directions. -/
structure Renumbered {δ : Type} (f g : Nat → Nat) (t u : Topology δ) : Prop where
  edges : u.edges.length = t.edges.length
  regions : u.regions.length = t.regions.length
  reorders_edges : Reorders t.edges.length f
  reorders_regions : Reorders t.regions.length g
  edge : ∀ (i : Nat) (e : TopoEdge), t.edges[i]? = some e → ∃ e', u.edges[f i]? = some e' ∧ e'.points = e.points ∧
    [e'.ring0, e'.ring1].Perm ([e.ring0, e.ring1].map (·.map (renumberPtr g)))
  region : ∀ (j : Nat) (r : TopoRegion δ), t.regions[j]? = some r → u.regions[g j]? = some (renumberRegion f g r)

/-- Two computations panic both, or give topologies that differ in numbers only. -/
def SameButNumbers {δ : Type} (x y : R (Topology δ)) : Prop :=
  (∃ e e', x = .error e ∧ y = .error e') ∨ ∃ t u f g, x = .ok t ∧ y = .ok u ∧ Renumbered f g t u

/-- An operation on topologies. -/
inductive Operation where
  | normalize
  | clip (mask : ClipMask)
  | simplify (smallest : Nat)

/-- Do it. -/
def Operation.apply {δ : Type} (m : Build) (t : Topology δ) : Operation → R (Topology δ)
  | .normalize => TopoGeo.normalize m t
  | .clip mask => clipTopology m t mask
  | .simplify s => TopoGeo.simplify m t s

end TopoGeo.Spec
