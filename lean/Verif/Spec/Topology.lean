import Verif.Spec.Geo
import Verif.Model.Topology
/-!
# What a topology means

Reading a topology back by following its directed edges, and what a topology
built from regions should contain. Nothing here refers to the builder.
-/

namespace TopoGeo.Spec

/-- The path that a directed edge stands for: the edge's points, reversed if
the direction is backward. -/
def walk (edges : List TopoEdge) (de : DirectedEdge) : Option (List Point) :=
  (edges[de.edge]?).map fun e =>
    match de.direction with
    | .forward => e.points
    | .backward => e.points.reverse

/-- The ring stands for the given list of paths. -/
def ReadsAs (edges : List TopoEdge) (paths : List (List Point)) (ring : TopoRing) : Prop :=
  ring.directedEdges.map (walk edges) = paths.map some

/-- An edge without extent: fewer than two points, or two equal points. -/
def ZeroLength (e : List Point) : Prop := e.length < 2 ∨ ∃ p, e = [p, p]

instance (e : List Point) : Decidable (ZeroLength e) :=
  match e with
  | [] => .isTrue (Or.inl (by simp))
  | [_] => .isTrue (Or.inl (by simp))
  | [p, q] =>
    if h : p = q then .isTrue (Or.inr ⟨p, by rw [h]⟩)
    else .isFalse (by rintro (h' | ⟨r, h'⟩) <;> simp_all)
  | _ :: _ :: _ :: _ => .isFalse (by rintro (h' | ⟨r, h'⟩) <;> simp at h' <;> omega)

/-- The signed area of a ring as 64-bit arithmetic yields it. -/
def ringArea (r : Ring) : Int := wrap64 (ringShoelace r)

/-- The signed area of a path as 64-bit arithmetic yields it. -/
def pathArea (ps : List Point) : Int := wrap64 (shoelace ps)

/-- The rings that count: those with non-zero area. -/
def keptRings (rs : List Ring) : List Ring := rs.filter fun r => ringArea r ≠ 0

/-- The consecutive pairs of a point sequence. -/
def pairs : List Point → List (List Point)
  | p :: q :: rest => [p, q] :: pairs (q :: rest)
  | _ => []

/-- The paths of a ring, without zero-length ones. -/
def ringPaths (r : Ring) : List (List Point) :=
  (match r with
   | .points ps => pairs ps
   | .edges es => es).filter fun e => ¬ ZeroLength e

/-- What is kept of a region: its data and the paths of its non-degenerate
rings. -/
structure KeptRegion (δ : Type) where
  data : δ
  outer : List (List (List Point))
  inner : List (List (List Point))

/-- The regions that have a non-degenerate outer ring. -/
def keptRegions {δ : Type} (rs : List (Region δ)) : List (KeptRegion δ) :=
  (rs.filter fun r => keptRings r.outerRings ≠ []).map fun r =>
    ⟨r.data, (keptRings r.outerRings).map ringPaths, (keptRings r.innerRings).map ringPaths⟩

/-- All paths in the order in which a scan meets them: by region, outer rings
before inner rings. -/
def allPaths {δ : Type} (rs : List (Region δ)) : List (List Point) :=
  (keptRegions rs).flatMap fun k => k.outer.flatten ++ k.inner.flatten

/-- The direction in which a path is stored: from its smaller to its larger
end; a closed path clockwise. -/
def storedForward (e : List Point) : Prop :=
  match e.head?, e.getLast? with
  | some p, some q => p < q ∨ (p = q ∧ 0 ≤ pathArea e)
  | _, _ => True

instance (e : List Point) : Decidable (storedForward e) := by
  unfold storedForward; split <;> infer_instance

/-- The stored form of a path. -/
def stored (e : List Point) : List Point := if storedForward e then e else e.reverse

/-- Each element once, in the order of first occurrence. -/
def firstOccurrences {α : Type} [DecidableEq α] : List α → List α
  | [] => []
  | a :: rest => a :: (firstOccurrences rest).filter (· ≠ a)

/-- The rings that use edge `i`, once per use, in traversal order: regions in
order, outer rings before inner rings. -/
def ringsUsing {δ : Type} (t : Topology δ) (i : Nat) : List RingPtr :=
  t.regions.zipIdx.flatMap fun (r, n) =>
    (r.outerRings.zipIdx.flatMap fun (ring, k) =>
      (ring.directedEdges.filter (·.edge = i)).map fun _ => ⟨n, false, k⟩) ++
    (r.innerRings.zipIdx.flatMap fun (ring, k) =>
      (ring.directedEdges.filter (·.edge = i)).map fun _ => ⟨n, true, k⟩)

/-- All rings of a topology. -/
def allRings {δ : Type} (t : Topology δ) : List TopoRing :=
  t.regions.flatMap fun r => r.outerRings ++ r.innerRings

/-- All directed edges of a topology. -/
def allDirectedEdges {δ : Type} (t : Topology δ) : List DirectedEdge :=
  (allRings t).flatMap (·.directedEdges)

/-- Back pointers are exact: each edge's slots list the rings that use it, and
each ring points to its region. -/
def BackPointersExact {δ : Type} (t : Topology δ) : Prop :=
  (∀ (i : Nat) (e : TopoEdge), t.edges[i]? = some e →
    (ringsUsing t i).length ≤ 2 ∧
    e.ring0 = (ringsUsing t i)[0]? ∧ e.ring1 = (ringsUsing t i)[1]?) ∧
  (∀ (n : Nat) (r : TopoRegion δ), t.regions[n]? = some r → ∀ ring ∈ r.outerRings ++ r.innerRings, ring.region = some n) ∧
  (∀ de ∈ allDirectedEdges t, de.edge < t.edges.length)

/-- The other direction. -/
def opposite : Direction → Direction
  | .forward => .backward
  | .backward => .forward

end TopoGeo.Spec
