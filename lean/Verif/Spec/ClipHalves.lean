import Verif.Spec.ClipTopology
/-!
# The two halves of a map that is cut along a line
-/

namespace TopoGeo.Spec

instance (mask : ClipMask) (p q : Point) : Decidable (Crosses mask p q) := inferInstanceAs (Decidable (_ ∨ _))

/-- Twice the signed area of a ring of a topology. -/
def topoRingArea (edges : List TopoEdge) (ring : TopoRing) : Int :=
  shoelaceEdges (ring.directedEdges.map fun de => (walk edges de).getD [])

/-- Twice the signed area of a region: holes wind the other way round. -/
def topoRegionArea {δ : Type} (edges : List TopoEdge) (r : TopoRegion δ) : Int :=
  ((r.outerRings ++ r.innerRings).map (topoRingArea edges)).sum

/-- What rounding can add to twice the area next to a path: for each segment that
crosses the line its extent across the line. -/
def roundingOf (mask : ClipMask) : List Point → Nat
  | p :: q :: rest => (if Crosses mask p q then (tested mask q - tested mask p).natAbs else 0) + roundingOf mask (q :: rest)
  | _ => 0

/-- The same for a ring. -/
def ringRounding (mask : ClipMask) (edges : List TopoEdge) (ring : TopoRing) : Nat :=
  (ring.directedEdges.map fun de => roundingOf mask ((walk edges de).getD [])).sum

/-- The same for a region. -/
def regionRounding {δ : Type} (mask : ClipMask) (edges : List TopoEdge) (r : TopoRegion δ) : Nat :=
  ((r.outerRings ++ r.innerRings).map (ringRounding mask edges)).sum

/-- The list tells what became of each region: nothing, or a region of `t'` with
the same data. -/
def Survivors {δ : Type} (t t' : Topology δ) (L : List (Option (TopoRegion δ))) : Prop :=
  L.reduceOption = t'.regions ∧ List.Forall₂ (fun r o => ∀ r' ∈ o, r'.data = r.data) t.regions L

/-- Twice the signed area of what is left of a ring. -/
def leftArea (cs : List (List Point)) (ring : TopoRing) : Int :=
  shoelaceEdges ((clippedPieces cs ring).map (Piece.path cs))

/-- The areas of what is left of rings fit in 64 bits. Holes of a region of which
nothing is left do not matter. -/
def LeftoversFit {δ : Type} (m : Build) (mask : ClipMask) (t : Topology δ) : Prop :=
  ∀ cs, ClippedBy m mask t.edges cs → ∀ r ∈ t.regions,
    (∀ ring ∈ r.outerRings, InI64 (leftArea cs ring)) ∧
    ((∃ ring ∈ r.outerRings, leftArea cs ring ≠ 0) → ∀ ring ∈ r.innerRings, InI64 (leftArea cs ring))

/-- Where nothing is left of a region, nothing is left of its holes. -/
def HolesFollow {δ : Type} (m : Build) (mask : ClipMask) (t : Topology δ) : Prop :=
  ∀ cs, ClippedBy m mask t.edges cs → ∀ r ∈ t.regions,
    (∀ ring ∈ r.outerRings, leftArea cs ring = 0) → (r.innerRings.map (leftArea cs)).sum = 0

/-- The products that `intersect` forms fit in 64 bits. -/
def ProductsFit {δ : Type} (mask : ClipMask) (t : Topology δ) : Prop :=
  ∀ e ∈ t.edges, ∀ p q, [p, q] ∈ pairs e.points → Crosses mask p q →
    InI64 ((bound mask - tested mask p) * (other mask q - other mask p))

end TopoGeo.Spec
