import Verif.Model.Normalize
/-!
# Model of raw pointers in `src/topology` and `src/clip/topology.rs`

The other modules take pointers for indices. Here the second half of both
`into_topology` functions is modelled once more with addresses, so that it can be
proved when that is right. A vector is a block of memory with an address and a
capacity; an element of a block has the address of the block plus its index times
its size. Where blocks are placed, and the capacity of the vectors that `collect`
returns, is left to a `World`. Points and directed edges are kept within the
elements that own them, since no pointers to them are taken.
-/

namespace TopoGeo

/-- The blocks of memory that `into_topology` allocates and takes pointers into:
the vectors of edges and regions, the boxed rings of each region, and the blocks
that `into_boxed_slice` makes of vectors with spare capacity. -/
inductive Block where
  | edges
  | regions
  | rings (region : Nat) (inner : Bool)
  | edgesShrunk
  | regionsShrunk
deriving DecidableEq, Repr

/-- What the code leaves to the allocator, to the compiler and to `collect`. -/
structure World where
  /-- where a block is placed -/
  address : Block → Nat
  /-- `size_of::<TopoEdge<Data>>()` -/
  edgeSize : Nat
  /-- `size_of::<TopoRing<Data>>()` -/
  ringSize : Nat
  /-- `size_of::<TopoRegion<Data>>()` -/
  regionSize : Nat
  /-- the capacity of the vector of edges, by its length -/
  edgesCapacity : Nat → Nat
  /-- the capacity of the vector of regions, by its length -/
  regionsCapacity : Nat → Nat

/-- `Vec<T>`. -/
structure MVec (α : Type) where
  address : Nat
  capacity : Nat
  elems : List α

/-- `Box<[T]>`. -/
structure MBox (α : Type) where
  address : Nat
  elems : List α

/-- `TopoEdge` (src/topology/types.rs:58-62). The null pointer is 0. -/
structure MEdge where
  points : List Point
  ring0 : Nat
  ring1 : Nat

/-- `DirectedEdge` (src/topology/types.rs:39-43). -/
structure MDirectedEdge where
  edge : Nat
  direction : Direction

/-- `TopoRing` (src/topology/types.rs:33-37). -/
structure MRing where
  directedEdges : List MDirectedEdge
  region : Nat

/-- `TopoRegion` (src/topology/types.rs:21-26). -/
structure MRegion (δ : Type) where
  data : δ
  outerRings : MBox MRing
  innerRings : MBox MRing

/-- `Topology` (src/topology/types.rs:13-16). -/
structure MTopology (δ : Type) where
  regions : MBox (MRegion δ)
  edges : MBox MEdge

/-- The address of an element of a block. -/
def elemAddress (base size i : Nat) : Nat := base + size * i

/-- The element of a block at an address: the index of the element if the address
is that of one, and `none` if accessing it would be undefined behaviour. -/
def locate (base size len p : Nat) : Option Nat :=
  if base ≤ p ∧ (p - base) % size = 0 ∧ (p - base) / size < len then some ((p - base) / size) else none

/-- `into_boxed_slice`: a vector without spare capacity stays where it is,
otherwise it is moved to a smaller block. -/
def MVec.intoBoxedSlice {α : Type} (v : MVec α) (moved : Nat) : MBox α :=
  if v.capacity = v.elems.length then ⟨v.address, v.elems⟩ else ⟨moved, v.elems⟩

/-- `build_ring_to_topo_ring_with_null_ptrs` (src/topology/build.rs:29-41,
src/clip/topology.rs:91-103). -/
def mBuildRing (w : World) (edges : MVec MEdge) (ring : BuildRing) : R MRing :=
  if ring.all (fun de => de.edge < edges.elems.length) then
    .ok ⟨ring.map fun de => ⟨elemAddress edges.address w.edgeSize de.edge, de.direction⟩, 0⟩
  else .error .index

/-- Mapping it over a list of rings. -/
def mBuildRings (w : World) (edges : MVec MEdge) : List BuildRing → R (List MRing)
  | [] => .ok []
  | r :: rest => do
    let t ← mBuildRing w edges r
    let ts ← mBuildRings w edges rest
    .ok (t :: ts)

/-- Building regions with null pointers (src/topology/build.rs:152-165,
src/clip/topology.rs:254-266). The rings of a region are boxed before any pointer
to them is taken, so it does not matter whether that moves them. -/
def mBuildRegions {δ : Type} (w : World) (edges : MVec MEdge) (n : Nat) : List (BuildRegion δ) → R (List (MRegion δ))
  | [] => .ok []
  | r :: rest => do
    let outer ← mBuildRings w edges r.outerRings
    let inner ← mBuildRings w edges r.innerRings
    let ts ← mBuildRegions w edges (n + 1) rest
    .ok (⟨r.data, ⟨w.address (.rings n false), outer⟩, ⟨w.address (.rings n true), inner⟩⟩ :: ts)

/-- The inner loop that stores a ring pointer in each edge of the ring
(src/topology/build.rs:173-184, src/clip/topology.rs:276-287): the edge is written
to through its pointer. -/
def mAttachRing (w : World) (edges : MVec MEdge) (ring : Nat) : List MDirectedEdge → R (MVec MEdge)
  | [] => .ok edges
  | de :: rest =>
    match (locate edges.address w.edgeSize edges.elems.length de.edge).bind fun i => edges.elems[i]?.map fun e => (i, e) with
    | none => .error .nullDeref
    | some (i, e) =>
      if e.ring0 = 0 then mAttachRing w { edges with elems := edges.elems.set i { e with ring0 := ring } } ring rest
      else if e.ring1 = 0 then mAttachRing w { edges with elems := edges.elems.set i { e with ring1 := ring } } ring rest
      else .error .assert

/-- The loop over the rings of one box (src/topology/build.rs:170-185,
src/clip/topology.rs:273-288): each ring gets its pointer to the region, and its
edges get pointers to the ring. Returns the rings as well. -/
def mAttachRings (w : World) (edges : MVec MEdge) (region base index : Nat) : List MRing → R (List MRing × MVec MEdge)
  | [] => .ok ([], edges)
  | r :: rest => do
    let edges' ← mAttachRing w edges (elemAddress base w.ringSize index) r.directedEdges
    let (rs, edges'') ← mAttachRings w edges' region base (index + 1) rest
    .ok ({ r with region := region } :: rs, edges'')

/-- The loop over regions (src/topology/build.rs:167-186,
src/clip/topology.rs:270-289). -/
def mAttachRegions {δ : Type} (w : World) (edges : MVec MEdge) (base index : Nat) :
    List (MRegion δ) → R (List (MRegion δ) × MVec MEdge)
  | [] => .ok ([], edges)
  | r :: rest => do
    let region := elemAddress base w.regionSize index
    let (outer, e1) ← mAttachRings w edges region r.outerRings.address 0 r.outerRings.elems
    let (inner, e2) ← mAttachRings w e1 region r.innerRings.address 0 r.innerRings.elems
    let (rs, e3) ← mAttachRegions w e2 base (index + 1) rest
    .ok (⟨r.data, ⟨r.outerRings.address, outer⟩, ⟨r.innerRings.address, inner⟩⟩ :: rs, e3)

/-- The common second half of `into_topology` (src/topology/build.rs:148-192,
src/clip/topology.rs:239-295), with addresses. -/
def mFinishTopology {δ : Type} (w : World) (points : List (List Point)) (regions : List (BuildRegion δ)) :
    R (MTopology δ) := do
  let edges : MVec MEdge := ⟨w.address .edges, w.edgesCapacity points.length, points.map fun ps => ⟨ps, 0, 0⟩⟩
  let rs ← mBuildRegions w edges 0 regions
  let (rs', edges') ← mAttachRegions w edges (w.address .regions) 0 rs
  let regions' : MVec (MRegion δ) := ⟨w.address .regions, w.regionsCapacity rs'.length, rs'⟩
  .ok ⟨regions'.intoBoxedSlice (w.address .regionsShrunk), edges'.intoBoxedSlice (w.address .edgesShrunk)⟩

/-- `new`, then `add_region` for each region, then `into_topology`
(src/topology/build.rs:51-192). -/
def mBuildTopology {δ : Type} (w : World) (m : Build) (regions : List (Region δ)) : R (MTopology δ) := do
  let b ← TopologyBuilder.new.addRegions m regions
  let slots ← placeEdges (List.replicate b.edges.length none) b.edges
  let points ← expectAll slots
  mFinishTopology w points b.regions

/-- `clip_topology` (src/clip/topology.rs:298-306). The old topology is given with
numbers for pointers; `mOffset` is how its pointers are turned into numbers. -/
def mClipTopology {δ : Type} (w : World) (m : Build) (t : Topology δ) (mask : ClipMask) : R (MTopology δ) := do
  let b ← ClipBuilder.new m mask t.edges
  let (regions, b') ← clipRegions m b t.regions
  let fresh ← placeNewEdges b'.newEdges.firstEdgeId
    (List.replicate b'.newEdges.edges.length (⟨0, 0⟩, ⟨0, 0⟩)) b'.newEdges.edges
  mFinishTopology w (b'.oldEdges ++ fresh.map (fun pq => [pq.1, pq.2])) regions

/-- The edge behind a `*const TopoEdge`. -/
def MTopology.edgeAt {δ : Type} (t : MTopology δ) (w : World) (p : Nat) : Option MEdge :=
  (locate t.edges.address w.edgeSize t.edges.elems.length p).bind fun i => t.edges.elems[i]?

/-- The ring behind a `*const TopoRing`. -/
def MTopology.ringAt {δ : Type} (t : MTopology δ) (w : World) (p : Nat) : Option MRing :=
  t.regions.elems.findSome? fun r => [r.outerRings, r.innerRings].findSome? fun b =>
    (locate b.address w.ringSize b.elems.length p).bind fun i => b.elems[i]?

/-- `NormEdge::with_directed_edge` (src/normalize.rs:56-70) with addresses: the
points, and the two pointers to regions. -/
def mWithDirectedEdge {δ : Type} (w : World) (t : MTopology δ) (de : MDirectedEdge) : R (List Point × Nat × Nat) :=
  match t.edgeAt w de.edge with
  | none => .error .nullDeref
  | some edge => do
    let points := if de.direction = .backward then edge.points.reverse else edge.points
    match t.ringAt w edge.ring0 with
    | none => .error .nullDeref
    | some ring0 =>
      if edge.ring1 = 0 then .ok (points, ring0.region, 0)
      else match t.ringAt w edge.ring1 with
        | none => .error .nullDeref
        | some ring1 => .ok (points, ring0.region, ring1.region)

/-- The offset in `find_old_edge_id` (src/clip/topology.rs:230-234), on addresses.
The subtraction is one of `usize`. -/
def mOffset (m : Build) (w : World) (first p : Nat) : R Nat :=
  if first ≤ p then .ok ((p - first) / w.edgeSize)
  else match m with
    | .debug => .error .overflow
    | .release => .ok ((2 ^ 64 + p - first) / w.edgeSize)

end TopoGeo
