import Verif.Model.Clip
import Verif.Model.Normalize
import Verif.Model.Simplify
/-!
# The operations over an arbitrary standard library

The functions of build.rs, normalize.rs and clip/topology.rs that use `HashMap`,
`BTreeMap` or `Vec::sort`, once more. Elsewhere in the model a `HashMap` is an association
list, a `BTreeMap` is a sorted list and sorting is by insertion; here they are parameters.
Functions that use none of them are shared.
-/

namespace TopoGeo

/-- What is used of `HashMap<κ, ν>` or of `BTreeMap<κ, ν>`. `Map` is the state of a map with
everything that the library keeps in it, as capacity or keys of the hash function. -/
structure MapLib (κ ν : Type) where
  Map : Type
  /-- `new`. -/
  empty : Map
  /-- `entry`, to tell `Occupied` with its value from `Vacant`. -/
  get : Map → κ → Option ν
  /-- `VacantEntry::insert`. -/
  insert : Map → κ → ν → Map
  /-- The map after `remove`; what it returns is `get`. -/
  remove : Map → κ → Map
  /-- `len`. -/
  len : Map → Nat
  /-- `into_iter`, and `keys` without the values. -/
  entries : Map → List (κ × ν)

/-- `rings.sort()`, given `Ord::cmp` of rings, which may panic. -/
abbrev SortLib := (NormRing → NormRing → R Ordering) → List NormRing → R (List NormRing)

/-- What is used of `std::collections` and `std::vec`. -/
structure Library where
  /-- `HashMap<BuildEdge, EdgeId>` (src/topology/build.rs:46). -/
  paths : MapLib (List Point) Nat
  /-- `HashMap<BuildEdge, EdgeId>` (src/clip/topology.rs:50). -/
  pairs : MapLib (Point × Point) Nat
  /-- `BTreeMap<Point, NormEdge<T>>` (src/normalize.rs:275). -/
  tree : MapLib Point NormEdge
  /-- `Vec::<NormRing<T>>::sort` (src/normalize.rs:339, :387). -/
  sort : SortLib

/-- The match on `entry` (src/topology/build.rs:119-128, src/clip/topology.rs:70-76). -/
def MapLib.entryId {κ : Type} (H : MapLib κ Nat) (nextId : Nat) (k : κ) (es : H.Map) : Nat × H.Map :=
  match H.get es k with
  | some id => (id, es)
  | none => (nextId, H.insert es k nextId)

/-! ## build.rs -/

/-- `TopologyBuilder` (src/topology/build.rs:43-47). -/
structure LBuilder (δ : Type) (H : MapLib (List Point) Nat) where
  regions : List (BuildRegion δ)
  edges : H.Map

/-- `TopologyBuilder::new` (src/topology/build.rs:51-56). -/
def LBuilder.new {δ : Type} (H : MapLib (List Point) Nat) : LBuilder δ H := ⟨[], H.empty⟩

/-- `build_directed_edge` (src/topology/build.rs:101-131). -/
def lBuildDirectedEdge (m : Build) (H : MapLib (List Point) Nat) (es : H.Map) (edge : Edge) : R (Option DirectedEdge × H.Map) :=
  if isZeroLength edge then .ok (none, es)
  else do
    let (points, dir) ← canonicalize m edge
    let (id, es') := H.entryId (H.len es) points es
    .ok (some ⟨id, dir⟩, es')

/-- The `flat_map` over edges in `build_ring` (src/topology/build.rs:93-95). -/
def lBuildDirectedEdges (m : Build) (H : MapLib (List Point) Nat) (es : H.Map) : List Edge → R (List DirectedEdge × H.Map)
  | [] => .ok ([], es)
  | e :: rest => do
    let (o, es1) ← lBuildDirectedEdge m H es e
    let (ds, es2) ← lBuildDirectedEdges m H es1 rest
    .ok (o.toList ++ ds, es2)

/-- `build_ring` (src/topology/build.rs:88-98). -/
def lBuildRing (m : Build) (H : MapLib (List Point) Nat) (es : H.Map) (ring : Ring) : R (Option BuildRing × H.Map) := do
  let a ← ring.area2 m
  if a = 0 then .ok (none, es)
  else do
    let (ds, es') ← lBuildDirectedEdges m H es ring.getEdges
    .ok (some ds, es')

/-- `build_rings` (src/topology/build.rs:79-81). -/
def lBuildRings (m : Build) (H : MapLib (List Point) Nat) (es : H.Map) : List Ring → R (List BuildRing × H.Map)
  | [] => .ok ([], es)
  | r :: rest => do
    let (o, es1) ← lBuildRing m H es r
    let (rs, es2) ← lBuildRings m H es1 rest
    .ok (o.toList ++ rs, es2)

/-- `add_region` (src/topology/build.rs:58-71). -/
def LBuilder.addRegion {δ : Type} {H : MapLib (List Point) Nat} (m : Build) (b : LBuilder δ H) (region : Region δ) :
    R (LBuilder δ H) := do
  let (outer, es1) ← lBuildRings m H b.edges region.outerRings
  if outer.length > 0 then do
    let (inner, es2) ← lBuildRings m H es1 region.innerRings
    .ok ⟨b.regions ++ [⟨region.data, outer, inner⟩], es2⟩
  else .ok ⟨b.regions, es1⟩

/-- Repeated calls of `add_region`. -/
def LBuilder.addRegions {δ : Type} {H : MapLib (List Point) Nat} (m : Build) (b : LBuilder δ H) :
    List (Region δ) → R (LBuilder δ H)
  | [] => .ok b
  | r :: rest => do
    let b' ← b.addRegion m r
    b'.addRegions m rest

/-- `into_topology` (src/topology/build.rs:133-192). -/
def LBuilder.intoTopology {δ : Type} {H : MapLib (List Point) Nat} (b : LBuilder δ H) : R (Topology δ) := do
  let slots ← placeEdges (List.replicate (H.len b.edges) none) (H.entries b.edges)
  let points ← expectAll slots
  finishTopology points b.regions

/-- `new`, then `add_region` for each region, then `into_topology`. -/
def Library.buildTopology {δ : Type} (L : Library) (m : Build) (regions : List (Region δ)) : R (Topology δ) := do
  let b ← (LBuilder.new L.paths).addRegions m regions
  b.intoTopology

/-! ## normalize.rs -/

/-- The loop over useful edges (src/normalize.rs:290-299). -/
def lIndexEdges (T : MapLib Point NormEdge) (map : T.Map) : List NormEdge → R T.Map
  | [] => .ok map
  | e :: rest => match e.points.head? with
    | none => .error .index
    | some p => match T.get map p with
      | some _ => .error .explicit
      | none => lIndexEdges T (T.insert map p e) rest

/-- The loop over rings in `join_adjacent_rings` (src/normalize.rs:277-302). -/
def lSplitRings (T : MapLib Point NormEdge) (ret : List NormRing) (map : T.Map) : List NormRing → R (List NormRing × T.Map)
  | [] => .ok (ret, map)
  | ring :: rest =>
    let redundant := ring.filter (fun e => e.isRedundant)
    let useful := ring.filter (fun e => !e.isRedundant)
    if redundant.length = 0 then lSplitRings T (ret ++ [useful]) map rest
    else if useful.length = 0 then lSplitRings T ret map rest
    else do
      let map' ← lIndexEdges T map useful
      lSplitRings T ret map' rest

/-- The inner `loop` (src/normalize.rs:316-331). -/
def lFollow (T : MapLib Point NormEdge) (start : Point) (fuel : Nat) (current : Point) (map : T.Map) (edges : List NormEdge) :
    R (List NormEdge × T.Map) :=
  match fuel with
  | 0 => .error .fuel
  | fuel + 1 =>
    match T.get map current with
    | none => .error .explicit
    | some edge =>
      match edge.points.getLast? with
      | none => .error .explicit
      | some e =>
        if e = start then .ok (edges ++ [edge], T.remove map current)
        else lFollow T start fuel e (T.remove map current) (edges ++ [edge])

/-- The `while` loop (src/normalize.rs:310-337). -/
def lMergeLoop (T : MapLib Point NormEdge) (fuel : Nat) (map : T.Map) (ret : List NormRing) : R (List NormRing) :=
  if T.len map > 0 then
    match fuel with
    | 0 => .error .fuel
    | fuel + 1 =>
      match (T.entries map).head? with
      | none => .error .explicit
      | some (start, _) => do
        let (edges, map') ← lFollow T start (T.len map + 1) start map []
        let joined ← joinRelatedEdges edges
        let rotated ← rotateEdges joined
        lMergeLoop T fuel map' (ret ++ [rotated])
  else .ok ret

/-- `Ord` of points, as derived (src/geo/mod.rs:7). -/
def Point.cmp (p q : Point) : Ordering := if p < q then .lt else if p = q then .eq else .gt

/-- `Ord::cmp` of rings (src/normalize.rs:21-25). -/
def cmpRings (a b : NormRing) : R Ordering := do
  let p ← ringKey a
  let q ← ringKey b
  .ok (p.cmp q)

/-- `join_adjacent_rings` (src/normalize.rs:270-341). -/
def lJoinAdjacentRings (L : Library) (rings : List NormRing) : R (List NormRing) := do
  let (ret, map) ← lSplitRings L.tree [] L.tree.empty rings
  if L.tree.len map = 0 then .ok ret
  else do
    let ret' ← lMergeLoop L.tree (L.tree.len map) map ret
    L.sort cmpRings ret'

/-- `normalize_region_rings` (src/normalize.rs:367-391). -/
def lNormalizeRegionRings {δ : Type} (L : Library) (m : Build) (t : Topology δ) (rings : List TopoRing) (order : WindingOrder) :
    R (List Ring) := do
  let ns ← normalizeRings m t order rings
  let joined ← lJoinAdjacentRings L ns
  let sorted ← L.sort cmpRings joined
  .ok (sorted.map normRingToRing)

/-- One iteration of the loop in `normalize` (src/normalize.rs:412-420), up to the call of
`add_region`. -/
def lNormalizeRegion {δ : Type} (L : Library) (m : Build) (t : Topology δ) (r : TopoRegion δ) : R (Region δ) := do
  let outer ← lNormalizeRegionRings L m t r.outerRings .clockwise
  let inner ← lNormalizeRegionRings L m t r.innerRings .counterClockwise
  .ok ⟨r.data, outer, inner⟩

/-- The loop in `normalize` (src/normalize.rs:412-420). -/
def lNormalizeLoop {δ : Type} (L : Library) (m : Build) (t : Topology δ) (b : LBuilder δ L.paths) :
    List (TopoRegion δ) → R (LBuilder δ L.paths)
  | [] => .ok b
  | r :: rest => do
    let region ← lNormalizeRegion L m t r
    let b' ← b.addRegion m region
    lNormalizeLoop L m t b' rest

/-- `normalize` (src/normalize.rs:409-423). -/
def Library.normalize {δ : Type} (L : Library) (m : Build) (t : Topology δ) : R (Topology δ) := do
  let b ← lNormalizeLoop L m t (LBuilder.new L.paths) t.regions
  b.intoTopology

/-! ## clip/topology.rs -/

/-- `NewEdgeSet` (src/clip/topology.rs:47-51). -/
structure LNewEdgeSet (H : MapLib (Point × Point) Nat) where
  firstEdgeId : Nat
  edges : H.Map

/-- `NewEdgeSet::build_directed_edge` (src/clip/topology.rs:65-79). -/
def LNewEdgeSet.buildDirectedEdge {H : MapLib (Point × Point) Nat} (s : LNewEdgeSet H) (p1 p2 : Point) :
    DirectedEdge × LNewEdgeSet H :=
  let k : Point × Point := if p1 < p2 then (p1, p2) else (p2, p1)
  let dir : Direction := if p1 < p2 then .forward else .backward
  let r := H.entryId (s.firstEdgeId + H.len s.edges) k s.edges
  (⟨r.1, dir⟩, { s with edges := r.2 })

/-- State of the loop in `clip_ring` (src/clip/topology.rs:171-175). -/
structure LClipRingState (H : MapLib (Point × Point) Nat) where
  ret : List DirectedEdge
  area2 : Int
  start : Option Point
  previous : Option Point
  newEdges : LNewEdgeSet H

/-- Add a straight line between `p` and `q` (src/clip/topology.rs:193-194, :216-217). -/
def LClipRingState.plug {H : MapLib (Point × Point) Nat} (m : Build) (s : LClipRingState H) (p q : Point) :
    R (LClipRingState H) := do
  let t ← signedArea2 m [p, q]
  let a ← m.i64 (s.area2 + t)
  let (de, ne) := s.newEdges.buildDirectedEdge p q
  .ok { s with ret := s.ret ++ [de], area2 := a, newEdges := ne }

/-- One iteration of the loop in `clip_ring` (src/clip/topology.rs:177-211). `b` holds the
clipped edges and where they are. -/
def lClipRingStep {H : MapLib (Point × Point) Nat} (m : Build) (b : ClipBuilder) (s : LClipRingState H) (de : DirectedEdge) :
    R (LClipRingState H) := do
  match ← b.findOldEdgeId de.edge with
  | none => .ok s
  | some edgeId =>
    match b.oldEdges[edgeId]? with
    | none => .error .index
    | some oldEdge => do
      let first ← firstPoint oldEdge de.direction
      let s1 : LClipRingState H := if s.start = none then { s with start := some first } else s
      let s2 ← match s1.previous with
        | some p => if p ≠ first then s1.plug m p first else .ok s1
        | none => .ok s1
      let last ← lastPoint oldEdge de.direction
      let t ← signedArea2 m (orient de.direction oldEdge)
      let a ← m.i64 (s2.area2 + t)
      .ok { s2 with
            ret := s2.ret ++ [⟨edgeId, de.direction⟩]
            previous := some last
            area2 := a }

/-- The loop in `clip_ring` (src/clip/topology.rs:177-211). -/
def lClipRingLoop {H : MapLib (Point × Point) Nat} (m : Build) (b : ClipBuilder) (s : LClipRingState H) :
    List DirectedEdge → R (LClipRingState H)
  | [] => .ok s
  | de :: rest => do
    let s' ← lClipRingStep m b s de
    lClipRingLoop m b s' rest

/-- `clip_ring` (src/clip/topology.rs:170-228). -/
def lClipRing {H : MapLib (Point × Point) Nat} (m : Build) (b : ClipBuilder) (ne : LNewEdgeSet H) (ring : TopoRing) :
    R (Option BuildRing × LNewEdgeSet H) := do
  let s ← lClipRingLoop m b ⟨[], 0, none, none, ne⟩ ring.directedEdges
  let s' ← match s.start, s.previous with
    | some p0, some pn => if p0 ≠ pn then s.plug m pn p0 else .ok s
    | _, _ => .ok s
  if s'.area2 = 0 then .ok (none, s'.newEdges) else .ok (some s'.ret, s'.newEdges)

/-- `clip_rings` (src/clip/topology.rs:162-165). -/
def lClipRings {H : MapLib (Point × Point) Nat} (m : Build) (b : ClipBuilder) (ne : LNewEdgeSet H) :
    List TopoRing → R (List BuildRing × LNewEdgeSet H)
  | [] => .ok ([], ne)
  | r :: rest => do
    let (o, ne1) ← lClipRing m b ne r
    let (rs, ne2) ← lClipRings m b ne1 rest
    .ok (o.toList ++ rs, ne2)

/-- `Builder::add_region` (src/clip/topology.rs:146-157). -/
def lClipRegion {δ : Type} {H : MapLib (Point × Point) Nat} (m : Build) (b : ClipBuilder) (ne : LNewEdgeSet H)
    (region : TopoRegion δ) : R (Option (BuildRegion δ) × LNewEdgeSet H) := do
  let (outer, ne1) ← lClipRings m b ne region.outerRings
  if outer.length > 0 then do
    let (inner, ne2) ← lClipRings m b ne1 region.innerRings
    .ok (some ⟨region.data, outer, inner⟩, ne2)
  else .ok (none, ne1)

/-- The loop of `clip_topology` (src/clip/topology.rs:301-303). -/
def lClipRegions {δ : Type} {H : MapLib (Point × Point) Nat} (m : Build) (b : ClipBuilder) (ne : LNewEdgeSet H) :
    List (TopoRegion δ) → R (List (BuildRegion δ) × LNewEdgeSet H)
  | [] => .ok ([], ne)
  | r :: rest => do
    let (o, ne1) ← lClipRegion m b ne r
    let (rs, ne2) ← lClipRegions m b ne1 rest
    .ok (o.toList ++ rs, ne2)

/-- `clip_topology` (src/clip/topology.rs:298-306), with `Builder::into_topology` (:237-295)
and `NewEdgeSet::into_iter` (:82-88). -/
def Library.clipTopology {δ : Type} (L : Library) (m : Build) (t : Topology δ) (mask : ClipMask) : R (Topology δ) := do
  let b ← ClipBuilder.new m mask t.edges
  let (regions, ne) ← lClipRegions m b (⟨b.oldEdges.length, L.pairs.empty⟩ : LNewEdgeSet L.pairs) t.regions
  let fresh ← placeNewEdges ne.firstEdgeId (List.replicate (L.pairs.len ne.edges) (⟨0, 0⟩, ⟨0, 0⟩)) (L.pairs.entries ne.edges)
  finishTopology (b.oldEdges ++ fresh.map (fun pq => [pq.1, pq.2])) regions

end TopoGeo
