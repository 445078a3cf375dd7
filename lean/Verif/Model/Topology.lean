import Verif.Model.Geo
/-!
# Model of `src/topology/types.rs` and `src/topology/build.rs`

Raw pointers are indices. A `*const TopoEdge` is the index of the edge in
`topology.edges`; a `*const TopoRegion` is an index in `topology.regions`; a
`*const TopoRing` is a `RingPtr`; the null pointer is `none`. The model assumes
that the slices stay where they are (`into_boxed_slice` does not move them).
`Verif/Model/Memory.lean` models the same functions with addresses, and C75 proves
when the assumption is right.
-/

namespace TopoGeo

/-- `topology::Direction` (src/topology/types.rs:45-49). -/
inductive Direction where
  | forward
  | backward
deriving DecidableEq, Repr

/-- `topology::DirectedEdge` (src/topology/types.rs:39-43). Also used for
`BuildDirectedEdge` (src/topology/build.rs:20-24, src/clip/topology.rs:24-28),
which holds the same index before it is turned into a pointer. -/
structure DirectedEdge where
  edge : Nat
  direction : Direction
deriving DecidableEq, Repr

/-- A non-null `*const TopoRing`. -/
structure RingPtr where
  region : Nat
  inner : Bool
  index : Nat
deriving DecidableEq, Repr

/-- `topology::TopoEdge` (src/topology/types.rs:58-62). -/
structure TopoEdge where
  points : List Point
  ring0 : Option RingPtr
  ring1 : Option RingPtr
deriving DecidableEq, Repr

/-- `topology::TopoRing` (src/topology/types.rs:33-37). -/
structure TopoRing where
  directedEdges : List DirectedEdge
  region : Option Nat
deriving DecidableEq, Repr

/-- `topology::TopoRegion` (src/topology/types.rs:21-26). -/
structure TopoRegion (δ : Type) where
  data : δ
  outerRings : List TopoRing
  innerRings : List TopoRing
deriving DecidableEq, Repr

/-- `topology::Topology` (src/topology/types.rs:13-16). -/
structure Topology (δ : Type) where
  regions : List (TopoRegion δ)
  edges : List TopoEdge
deriving DecidableEq, Repr

/-- `BuildRing` (src/topology/build.rs:17-18, src/clip/topology.rs:21-22). -/
abbrev BuildRing := List DirectedEdge

/-- `BuildRegion` (src/topology/build.rs:10-15, src/clip/topology.rs:14-19). -/
structure BuildRegion (δ : Type) where
  data : δ
  outerRings : List BuildRing
  innerRings : List BuildRing
deriving DecidableEq, Repr

/-- `HashMap<BuildEdge, EdgeId>` (src/topology/build.rs:46), an association
list in insertion order; iteration order is a parameter of `placeEdges`. -/
abbrev EdgeMap := List (List Point × Nat)

/-- Hash map lookup. -/
def mapGet {κ : Type u} [DecidableEq κ] (k : κ) : List (κ × Nat) → Option Nat
  | [] => none
  | (k', v) :: rest => if k = k' then some v else mapGet k rest

/-- `TopologyBuilder` (src/topology/build.rs:43-47). -/
structure TopologyBuilder (δ : Type) where
  regions : List (BuildRegion δ)
  edges : EdgeMap
deriving Repr

/-- `TopologyBuilder::new` (src/topology/build.rs:51-56). -/
def TopologyBuilder.new {δ : Type} : TopologyBuilder δ := ⟨[], []⟩

/-- The test for zero-length edges (src/topology/build.rs:104). -/
def isZeroLength (points : List Point) : Bool :=
  points.length < 2 || (points.length == 2 && points[0]? == points[1]?)

/-- The choice of direction (src/topology/build.rs:109-117): forward iff
`p1 < p2`, or `p1 == p2` and the closed path is clockwise (the winding is only
evaluated in the second case). Returns the canonical points as well. The
argument is known to be non-empty; `none` stands for the index panics of
`points[0]` on an empty slice, which the caller excludes. -/
def canonicalize (m : Build) (points : List Point) : R (List Point × Direction) :=
  match points.head?, points.getLast? with
  | some p1, some p2 =>
    if p1 < p2 then .ok (points, .forward)
    else if p1 = p2 then do
      let w ← (Ring.points points).windingOrder m
      if w = .clockwise then .ok (points, .forward) else .ok (points.reverse, .backward)
    else .ok (points.reverse, .backward)
  | _, _ => .error .index

/-- The `entry` match (src/topology/build.rs:119-128): get the id of the key or
insert it with the next id. -/
def mapEntry {κ : Type u} [DecidableEq κ] (nextId : Nat) (k : κ) (es : List (κ × Nat)) :
    Nat × List (κ × Nat) :=
  match mapGet k es with
  | some id => (id, es)
  | none => (nextId, es ++ [(k, nextId)])

/-- `build_directed_edge` (src/topology/build.rs:101-131). -/
def buildDirectedEdge (m : Build) (es : EdgeMap) (edge : Edge) :
    R (Option DirectedEdge × EdgeMap) :=
  if isZeroLength edge then .ok (none, es)
  else do
    let (points, dir) ← canonicalize m edge
    let (id, es') := mapEntry es.length points es
    .ok (some ⟨id, dir⟩, es')

/-- The `flat_map` over edges in `build_ring` (src/topology/build.rs:93-95). -/
def buildDirectedEdges (m : Build) (es : EdgeMap) : List Edge → R (List DirectedEdge × EdgeMap)
  | [] => .ok ([], es)
  | e :: rest => do
    let (o, es1) ← buildDirectedEdge m es e
    let (ds, es2) ← buildDirectedEdges m es1 rest
    .ok (o.toList ++ ds, es2)

/-- `build_ring` (src/topology/build.rs:88-98). -/
def buildRing (m : Build) (es : EdgeMap) (ring : Ring) : R (Option BuildRing × EdgeMap) := do
  let a ← ring.area2 m
  if a = 0 then .ok (none, es)
  else do
    let (ds, es') ← buildDirectedEdges m es ring.getEdges
    .ok (some ds, es')

/-- `build_rings` (src/topology/build.rs:79-81). -/
def buildRings (m : Build) (es : EdgeMap) : List Ring → R (List BuildRing × EdgeMap)
  | [] => .ok ([], es)
  | r :: rest => do
    let (o, es1) ← buildRing m es r
    let (rs, es2) ← buildRings m es1 rest
    .ok (o.toList ++ rs, es2)

/-- `add_region` (src/topology/build.rs:58-71). -/
def TopologyBuilder.addRegion {δ : Type} (m : Build) (b : TopologyBuilder δ) (region : Region δ) :
    R (TopologyBuilder δ) := do
  let (outer, es1) ← buildRings m b.edges region.outerRings
  if outer.length > 0 then do
    let (inner, es2) ← buildRings m es1 region.innerRings
    .ok ⟨b.regions ++ [⟨region.data, outer, inner⟩], es2⟩
  else .ok ⟨b.regions, es1⟩

/-- Repeated calls of `add_region`. -/
def TopologyBuilder.addRegions {δ : Type} (m : Build) (b : TopologyBuilder δ) :
    List (Region δ) → R (TopologyBuilder δ)
  | [] => .ok b
  | r :: rest => do
    let b' ← b.addRegion m r
    b'.addRegions m rest

/-- `ret[id] = value` on a `Vec`, panicking out of bounds. -/
def vecSet {α : Type u} (l : List α) (i : Nat) (a : α) : R (List α) :=
  if i < l.length then .ok (l.set i a) else .error .index

/-- Putting the edges in their places by id (src/topology/build.rs:137-146).
`order` is the list of entries in the order in which the hash map is
iterated. -/
def placeEdges {α : Type u} (slots : List (Option α)) : List (α × Nat) → R (List (Option α))
  | [] => .ok slots
  | (k, id) :: rest => do
    let slots' ← vecSet slots id (some k)
    placeEdges slots' rest

/-- `o.expect(...)` on each slot (src/topology/build.rs:148-150). -/
def expectAll {α : Type u} : List (Option α) → R (List α)
  | [] => .ok []
  | none :: _ => .error .explicit
  | some a :: rest => do
    let as ← expectAll rest
    .ok (a :: as)

/-- `build_ring_to_topo_ring_with_null_ptrs` (src/topology/build.rs:29-41,
src/clip/topology.rs:91-103): takes the address of each edge, so panics when
an id is out of bounds. -/
def buildRingToTopoRing (nEdges : Nat) (ring : BuildRing) : R TopoRing :=
  if ring.all (fun de => de.edge < nEdges) then .ok ⟨ring, none⟩ else .error .index

/-- Mapping `build_ring_to_topo_ring_with_null_ptrs` over a list of rings. -/
def buildRingsToTopoRings (nEdges : Nat) : List BuildRing → R (List TopoRing)
  | [] => .ok []
  | r :: rest => do
    let t ← buildRingToTopoRing nEdges r
    let ts ← buildRingsToTopoRings nEdges rest
    .ok (t :: ts)

/-- Building regions with null pointers (src/topology/build.rs:152-165,
src/clip/topology.rs:254-266). -/
def buildRegionsToTopoRegions {δ : Type} (nEdges : Nat) : List (BuildRegion δ) → R (List (TopoRegion δ))
  | [] => .ok []
  | r :: rest => do
    let outer ← buildRingsToTopoRings nEdges r.outerRings
    let inner ← buildRingsToTopoRings nEdges r.innerRings
    let ts ← buildRegionsToTopoRegions nEdges rest
    .ok (⟨r.data, outer, inner⟩ :: ts)

/-- The inner loop that stores a ring pointer in each edge of the ring
(src/topology/build.rs:173-184, src/clip/topology.rs:276-287). -/
def attachRing (edges : List TopoEdge) (rp : RingPtr) : List DirectedEdge → R (List TopoEdge)
  | [] => .ok edges
  | de :: rest =>
    match edges[de.edge]? with
    | none => .error .nullDeref
    | some e =>
      if e.ring0 = none then attachRing (edges.set de.edge { e with ring0 := some rp }) rp rest
      else if e.ring1 = none then attachRing (edges.set de.edge { e with ring1 := some rp }) rp rest
      else .error .assert

/-- The loop over the rings of one kind of one region
(src/topology/build.rs:170-185, src/clip/topology.rs:273-288). -/
def attachRings (edges : List TopoEdge) (region : Nat) (inner : Bool) (index : Nat) :
    List TopoRing → R (List TopoEdge)
  | [] => .ok edges
  | r :: rest => do
    let edges' ← attachRing edges ⟨region, inner, index⟩ r.directedEdges
    attachRings edges' region inner (index + 1) rest

/-- The loop over regions (src/topology/build.rs:167-186,
src/clip/topology.rs:270-289), edge side: outer rings are chained with inner
rings. -/
def attachRegions {δ : Type} (edges : List TopoEdge) (region : Nat) :
    List (TopoRegion δ) → R (List TopoEdge)
  | [] => .ok edges
  | r :: rest => do
    let e1 ← attachRings edges region false 0 r.outerRings
    let e2 ← attachRings e1 region true 0 r.innerRings
    attachRegions e2 (region + 1) rest

/-- `ring.region = region_p` for all rings of one region
(src/topology/build.rs:168-171, src/clip/topology.rs:271-274). -/
def setRegionPtr {δ : Type} (region : Nat) (r : TopoRegion δ) : TopoRegion δ :=
  { r with
    outerRings := r.outerRings.map (fun t => { t with region := some region })
    innerRings := r.innerRings.map (fun t => { t with region := some region }) }

/-- The loop over regions, ring side. The Rust code interleaves this with
`attachRegions`; the two touch disjoint memory. -/
def setRegionPtrs {δ : Type} (region : Nat) : List (TopoRegion δ) → List (TopoRegion δ)
  | [] => []
  | r :: rest => setRegionPtr region r :: setRegionPtrs (region + 1) rest

/-- From placed edge points and build regions to the topology: the common
second half of `into_topology` (src/topology/build.rs:152-192,
src/clip/topology.rs:254-295). -/
def finishTopology {δ : Type} (points : List (List Point)) (regions : List (BuildRegion δ)) :
    R (Topology δ) := do
  let edges0 : List TopoEdge := points.map (fun ps => ⟨ps, none, none⟩)
  let regions0 ← buildRegionsToTopoRegions edges0.length regions
  let edges ← attachRegions edges0 0 regions0
  .ok ⟨setRegionPtrs 0 regions0, edges⟩

/-- `into_topology` (src/topology/build.rs:133-192) when the hash map of edges
is iterated in the given order. -/
def TopologyBuilder.intoTopologyWith {δ : Type} (b : TopologyBuilder δ) (order : EdgeMap) :
    R (Topology δ) := do
  let slots ← placeEdges (List.replicate b.edges.length none) order
  let points ← expectAll slots
  finishTopology points b.regions

/-- `into_topology` with one particular iteration order. -/
def TopologyBuilder.intoTopology {δ : Type} (b : TopologyBuilder δ) : R (Topology δ) :=
  b.intoTopologyWith b.edges

/-- `new`, then `add_region` for each region, then `into_topology`. -/
def buildTopology {δ : Type} (m : Build) (regions : List (Region δ)) : R (Topology δ) := do
  let b ← TopologyBuilder.new.addRegions m regions
  b.intoTopology

end TopoGeo
