import Verif.Model.Memory
import Verif.Model.Simplify
/-!
# Model of the operations on topologies in memory

`Model/Memory.lean` has the functions that make raw pointers. Here are the functions
that follow them: `normalize`, `clip_topology` and `simplify` read a topology in
memory through its addresses. A topology comes with the `World` in which it was made;
what an operation makes is placed in another one.
-/

namespace TopoGeo

/-- A pointer to a region as `normalize` keeps it: `NormEdge` has numbers for regions,
`none` for the null pointer. -/
def regionPointer (p : Nat) : Option Nat := if p = 0 then none else some p

/-- The loop over directed edges (src/normalize.rs:375-377), following pointers. -/
def mWithDirectedEdges {δ : Type} (w : World) (t : MTopology δ) : List MDirectedEdge → R (List NormEdge)
  | [] => .ok []
  | d :: rest => do
    let (points, p, q) ← mWithDirectedEdge w t d
    let es ← mWithDirectedEdges w t rest
    .ok (⟨points, (regionPointer p, regionPointer q)⟩ :: es)

/-- One ring in `normalize_region_rings` (src/normalize.rs:370-384). Regions are compared
by address. -/
def mNormalizeRing {δ : Type} (m : Build) (w : World) (t : MTopology δ) (order : WindingOrder) (ring : MRing) : R NormRing := do
  let edges ← mWithDirectedEdges w t ring.directedEdges
  let joined ← joinRelatedEdges edges
  let wound ← windEdges m joined order
  rotateEdges wound

/-- The loop in `normalize_region_rings` (src/normalize.rs:370-384). -/
def mNormalizeRings {δ : Type} (m : Build) (w : World) (t : MTopology δ) (order : WindingOrder) : List MRing → R (List NormRing)
  | [] => .ok []
  | r :: rest => do
    let n ← mNormalizeRing m w t order r
    let ns ← mNormalizeRings m w t order rest
    .ok (n :: ns)

/-- `normalize_region_rings` (src/normalize.rs:367-391). -/
def mNormalizeRegionRings {δ : Type} (m : Build) (w : World) (t : MTopology δ) (rings : List MRing) (order : WindingOrder) :
    R (List Ring) := do
  let ns ← mNormalizeRings m w t order rings
  let joined ← joinAdjacentRings ns
  let sorted ← sortRings joined
  .ok (sorted.map normRingToRing)

/-- The loop in `normalize` (src/normalize.rs:412-420). -/
def mNormalizeLoop {δ : Type} (m : Build) (w : World) (t : MTopology δ) (b : TopologyBuilder δ) :
    List (MRegion δ) → R (TopologyBuilder δ)
  | [] => .ok b
  | r :: rest => do
    let outer ← mNormalizeRegionRings m w t r.outerRings.elems .clockwise
    let inner ← mNormalizeRegionRings m w t r.innerRings.elems .counterClockwise
    let b' ← b.addRegion m ⟨r.data, outer, inner⟩
    mNormalizeLoop m w t b' rest

/-- `normalize` (src/normalize.rs:409-423): the topology of the world `w` is read, the new
one is placed in the world `w'`. -/
def mNormalize {δ : Type} (m : Build) (w w' : World) (t : MTopology δ) : R (MTopology δ) := do
  let b ← mNormalizeLoop m w t TopologyBuilder.new t.regions.elems
  let slots ← placeEdges (List.replicate b.edges.length none) b.edges
  let points ← expectAll slots
  mFinishTopology w' points b.regions

/-- The loop in `clip_ring` (src/clip/topology.rs:177-211): `first` is `old_edge_0_ptr`.
Pointers to edges are turned into numbers and not followed. -/
def mClipRingLoop (m : Build) (w : World) (first : Nat) (b : ClipBuilder) (s : ClipRingState) : List MDirectedEdge → R ClipRingState
  | [] => .ok s
  | d :: rest => do
    let i ← mOffset m w first d.edge
    let s' ← clipRingStep m b s ⟨i, d.direction⟩
    mClipRingLoop m w first b s' rest

/-- `clip_ring` (src/clip/topology.rs:170-228). -/
def mClipRing (m : Build) (w : World) (first : Nat) (b : ClipBuilder) (ring : MRing) : R (Option BuildRing × ClipBuilder) := do
  let s ← mClipRingLoop m w first b ⟨[], 0, none, none, b.newEdges⟩ ring.directedEdges
  let s' ← match s.start, s.previous with
    | some p0, some pn => if p0 ≠ pn then s.plug m pn p0 else .ok s
    | _, _ => .ok s
  let b' : ClipBuilder := { b with newEdges := s'.newEdges }
  if s'.area2 = 0 then .ok (none, b') else .ok (some s'.ret, b')

/-- `clip_rings` (src/clip/topology.rs:162-165). -/
def mClipRings (m : Build) (w : World) (first : Nat) (b : ClipBuilder) : List MRing → R (List BuildRing × ClipBuilder)
  | [] => .ok ([], b)
  | r :: rest => do
    let (o, b1) ← mClipRing m w first b r
    let (rs, b2) ← mClipRings m w first b1 rest
    .ok (o.toList ++ rs, b2)

/-- `Builder::add_region` (src/clip/topology.rs:146-157). -/
def mClipRegion {δ : Type} (m : Build) (w : World) (first : Nat) (b : ClipBuilder) (region : MRegion δ) :
    R (Option (BuildRegion δ) × ClipBuilder) := do
  let (outer, b1) ← mClipRings m w first b region.outerRings.elems
  if outer.length > 0 then do
    let (inner, b2) ← mClipRings m w first b1 region.innerRings.elems
    .ok (some ⟨region.data, outer, inner⟩, b2)
  else .ok (none, b1)

/-- The loop of `clip_topology` (src/clip/topology.rs:301-303). -/
def mClipRegions {δ : Type} (m : Build) (w : World) (first : Nat) (b : ClipBuilder) :
    List (MRegion δ) → R (List (BuildRegion δ) × ClipBuilder)
  | [] => .ok ([], b)
  | r :: rest => do
    let (o, b1) ← mClipRegion m w first b r
    let (rs, b2) ← mClipRegions m w first b1 rest
    .ok (o.toList ++ rs, b2)

/-- `clip_topology` (src/clip/topology.rs:298-306): the topology of the world `w` is read,
the new one is placed in the world `w'`. `Builder::new` looks at the points of edges only. -/
def mClip {δ : Type} (m : Build) (w w' : World) (t : MTopology δ) (mask : ClipMask) : R (MTopology δ) := do
  let b ← ClipBuilder.new m mask (t.edges.elems.map fun e => ⟨e.points, none, none⟩)
  let (regions, b') ← mClipRegions m w t.edges.address b t.regions.elems
  let fresh ← placeNewEdges b'.newEdges.firstEdgeId
    (List.replicate b'.newEdges.edges.length (⟨0, 0⟩, ⟨0, 0⟩)) b'.newEdges.edges
  mFinishTopology w' (b'.oldEdges ++ fresh.map (fun pq => [pq.1, pq.2])) regions

/-- The loop in `simplify` (src/simplify/mod.rs:6-9). -/
def mSimplifyEdges (m : Build) (smallest : Nat) : List MEdge → R (List MEdge)
  | [] => .ok []
  | e :: rest => do
    let ps ← simplifyEdge m e.points smallest
    let es ← mSimplifyEdges m smallest rest
    .ok ({ e with points := ps } :: es)

/-- `simplify` (src/simplify/mod.rs:5-11): edges are changed where they are. -/
def mSimplify {δ : Type} (m : Build) (t : MTopology δ) (smallest : Nat) : R (MTopology δ) := do
  let es ← mSimplifyEdges m smallest t.edges.elems
  .ok { t with edges := { t.edges with elems := es } }

end TopoGeo
