import Verif.Model.SimplifyTime
import Verif.Model.Normalize
/-!
# Building, clipping and normalizing once more, counting rounds

The functions of Model/Topology.lean, Model/Clip.lean and Model/Normalize.lean
line by line, with `tick` at the start of each round of each loop, as in
Model/SimplifyTime.lean. A loop that does nothing but touch the elements of a
vector one after the other is `ticks` of the length of that vector, before the
loop; a panic in the middle of it is therefore counted as if the loop had come
to its end. The standard library is counted as documented:

* `to_vec`, `clone`, `reverse`, `extend_from_slice` and `collect` take a round
  per element, and those of a vector of vectors also a round per inner element;
* an entry of a `HashMap` takes a constant number of rounds and two rounds per
  element of the key, for the hash and for the comparison (this is the expected
  number, for hashes that spread the keys);
* an operation on a `BTreeMap` of `n` entries takes `log2 n + 1` rounds;
* `sort` of `n` elements takes `n * (log2 n + 1)` rounds;
* cloning the `Data` of a region takes one.

That these functions compute what the others do is `C110_same`.
-/

namespace TopoGeo

open Timed

/-- The rounds of copying edges: one per edge and one per point. -/
def pathRounds (paths : List (List Point)) : Nat := (paths.map fun p => p.length + 1).sum

/-- The rounds of one operation on a `BTreeMap` of `n` entries. -/
def mapRounds (n : Nat) : Nat := n.log2 + 1

/-- The rounds of `sort`. -/
def sortRounds (n : Nat) : Nat := n * (n.log2 + 1)

/-! ## src/topology/build.rs -/

/-- `signed_area2` (src/geo/mod.rs:91-100): a round per point. -/
def signedArea2T (m : Build) (ps : List Point) : Timed Int := do
  ticks ps.length
  lift (signedArea2 m ps)

/-- The edge loop in `Ring::area2_and_winding_order` (src/geo/mod.rs:185-188). -/
def edgesAreaLoopT (m : Build) (a : Int) : List Edge → Timed Int
  | [] => pure a
  | e :: rest => do
    tick
    let t ← signedArea2T m e
    let a' ← lift (m.i64 (a + t))
    edgesAreaLoopT m a' rest

/-- `Ring::area2_and_winding_order` (src/geo/mod.rs:182-198). -/
def Ring.area2AndWindingOrderT (m : Build) : Ring → Timed (Nat × WindingOrder)
  | .points ps => do
    ticks ps.length
    lift (TopoGeo.area2AndWindingOrder m ps)
  | .edges es => do
    let a ← edgesAreaLoopT m 0 es
    lift (splitSign m a)

/-- The choice of direction (src/topology/build.rs:109-117). -/
def canonicalizeT (m : Build) (points : List Point) : Timed (List Point × Direction) :=
  match points.head?, points.getLast? with
  | some p1, some p2 =>
    if p1 < p2 then pure (points, .forward)
    else if p1 = p2 then do
      ticks points.length
      let w ← (Ring.points points).area2AndWindingOrderT m
      if w.2 = .clockwise then pure (points, .forward)
      else do
        ticks points.length
        pure (points.reverse, .backward)
    else do
      ticks points.length
      pure (points.reverse, .backward)
  | _, _ => lift (.error .index)

/-- `build_directed_edge` (src/topology/build.rs:101-131). -/
def buildDirectedEdgeT (m : Build) (es : EdgeMap) (edge : Edge) : Timed (Option DirectedEdge × EdgeMap) := do
  ticks edge.length
  if isZeroLength edge then pure (none, es)
  else do
    let pd ← canonicalizeT m edge
    ticks (2 * pd.1.length + 1)
    let r := mapEntry es.length pd.1 es
    pure (some ⟨r.1, pd.2⟩, r.2)

/-- The `flat_map` over edges in `build_ring` (src/topology/build.rs:93-95). -/
def buildDirectedEdgesT (m : Build) (es : EdgeMap) : List Edge → Timed (List DirectedEdge × EdgeMap)
  | [] => pure ([], es)
  | e :: rest => do
    tick
    let o ← buildDirectedEdgeT m es e
    let ds ← buildDirectedEdgesT m o.2 rest
    pure (o.1.toList ++ ds.1, ds.2)

/-- `build_ring` (src/topology/build.rs:88-98). `ring.edges()` copies the
edges. -/
def buildRingT (m : Build) (es : EdgeMap) (ring : Ring) : Timed (Option BuildRing × EdgeMap) := do
  let a ← ring.area2AndWindingOrderT m
  if a.1 = 0 then pure (none, es)
  else do
    ticks (pathRounds ring.getEdges)
    let ds ← buildDirectedEdgesT m es ring.getEdges
    pure (some ds.1, ds.2)

/-- `build_rings` (src/topology/build.rs:79-81). -/
def buildRingsT (m : Build) (es : EdgeMap) : List Ring → Timed (List BuildRing × EdgeMap)
  | [] => pure ([], es)
  | r :: rest => do
    tick
    let o ← buildRingT m es r
    let rs ← buildRingsT m o.2 rest
    pure (o.1.toList ++ rs.1, rs.2)

/-- `add_region` (src/topology/build.rs:58-71). -/
def TopologyBuilder.addRegionT {δ : Type} (m : Build) (b : TopologyBuilder δ) (region : Region δ) :
    Timed (TopologyBuilder δ) := do
  tick
  let o ← buildRingsT m b.edges region.outerRings
  if o.1.length > 0 then do
    let i ← buildRingsT m o.2 region.innerRings
    pure ⟨b.regions ++ [⟨region.data, o.1, i.1⟩], i.2⟩
  else pure ⟨b.regions, o.2⟩

/-- Repeated calls of `add_region`. -/
def TopologyBuilder.addRegionsT {δ : Type} (m : Build) (b : TopologyBuilder δ) :
    List (Region δ) → Timed (TopologyBuilder δ)
  | [] => pure b
  | r :: rest => do
    let b' ← b.addRegionT m r
    b'.addRegionsT m rest

/-- The rounds of a loop over regions, their rings and the edges of these. -/
def buildRounds {δ : Type} (regions : List (BuildRegion δ)) : Nat :=
  (regions.map fun r => 1 + ((r.outerRings ++ r.innerRings).map fun ring => 1 + ring.length).sum).sum

/-- The common second half of `into_topology` (src/topology/build.rs:152-192,
src/clip/topology.rs:254-295): one loop over the edges, and two loops over
the regions. -/
def finishTopologyT {δ : Type} (points : List (List Point)) (regions : List (BuildRegion δ)) :
    Timed (Topology δ) := do
  ticks points.length
  let edges0 : List TopoEdge := points.map (fun ps => ⟨ps, none, none⟩)
  ticks (buildRounds regions)
  let regions0 ← lift (buildRegionsToTopoRegions edges0.length regions)
  ticks (buildRounds regions)
  let edges ← lift (attachRegions edges0 0 regions0)
  pure ⟨setRegionPtrs 0 regions0, edges⟩

/-- `into_topology` (src/topology/build.rs:133-192). -/
def TopologyBuilder.intoTopologyT {δ : Type} (b : TopologyBuilder δ) : Timed (Topology δ) := do
  ticks b.edges.length
  ticks b.edges.length
  let slots ← lift (placeEdges (List.replicate b.edges.length none) b.edges)
  ticks b.edges.length
  let points ← lift (expectAll slots)
  finishTopologyT points b.regions

/-- `new`, then `add_region` for each region, then `into_topology`. -/
def buildTopologyT {δ : Type} (m : Build) (regions : List (Region δ)) : Timed (Topology δ) := do
  let b ← TopologyBuilder.new.addRegionsT m regions
  b.intoTopologyT

/-! ## src/clip -/

/-- The loop of `clip_edge` (src/clip/edge.rs:52-89). -/
def clipLoopT (m : Build) (mask : ClipMask) (prev : Point) (prevLoc : ClipLocation)
    (ret : List Point) : List Point → Timed (List Point)
  | [] => pure ret
  | point :: rest => do
    tick
    let ret' ← lift (clipEmit m mask prev prevLoc ret point)
    clipLoopT m mask point (mask.test point) ret' rest

/-- `clip_edge` (src/clip/edge.rs:38-92). -/
def clipEdgeT (m : Build) (mask : ClipMask) (points : List Point) : Timed (List Point) :=
  match points with
  | p :: q :: rest =>
    let loc := mask.test p
    clipLoopT m mask p loc (if loc = .inside then [p] else []) (q :: rest)
  | _ => pure []

/-- The loop of `Builder::new` (src/clip/topology.rs:123-133). -/
def clipOldEdgesT (m : Build) (mask : ClipMask) (clipped : List (List Point))
    (finder : List (Option Nat)) : List TopoEdge → Timed (List (List Point) × List (Option Nat))
  | [] => pure (clipped, finder)
  | e :: rest => do
    tick
    let c ← clipEdgeT m mask e.points
    if c.length ≥ 2 then
      clipOldEdgesT m mask (clipped ++ [c]) (finder ++ [some clipped.length]) rest
    else
      clipOldEdgesT m mask clipped (finder ++ [none]) rest

/-- The straight line between two points: the area of two points, and an entry
in the hash map, whose key has two points. -/
def ClipRingState.plugT (m : Build) (s : ClipRingState) (p q : Point) : Timed ClipRingState := do
  ticks 2
  ticks 5
  lift (s.plug m p q)

/-- Plug the gap from one point to another (src/clip/topology.rs:190-196,
:214-220), if both are known and they differ. -/
def plugGapT (m : Build) (s : ClipRingState) : Option Point → Option Point → Timed ClipRingState
  | some p, some q => if p ≠ q then s.plugT m p q else pure s
  | _, _ => pure s

/-- What the loop in `clip_ring` does with an edge that is left
(src/clip/topology.rs:179-206). -/
def clipRingVisibleT (m : Build) (s : ClipRingState) (id : Nat) (d : Direction) (oldEdge : List Point) :
    Timed ClipRingState := do
  let first ← lift (firstPoint oldEdge d)
  let s1 : ClipRingState := if s.start = none then { s with start := some first } else s
  let s2 ← plugGapT m s1 s1.previous (some first)
  let last ← lift (lastPoint oldEdge d)
  let t ← signedArea2T m (orient d oldEdge)
  let a ← lift (m.i64 (s2.area2 + t))
  pure { s2 with ret := s2.ret ++ [⟨id, d⟩], previous := some last, area2 := a }

/-- One iteration of the loop in `clip_ring` (src/clip/topology.rs:177-211). -/
def clipRingStepT (m : Build) (b : ClipBuilder) (s : ClipRingState) (de : DirectedEdge) :
    Timed ClipRingState := do
  tick
  let o ← lift (b.findOldEdgeId de.edge)
  match o with
  | none => pure s
  | some id => match b.oldEdges[id]? with
    | none => lift (.error .index)
    | some oldEdge => clipRingVisibleT m s id de.direction oldEdge

/-- The loop in `clip_ring` (src/clip/topology.rs:177-211). -/
def clipRingLoopT (m : Build) (b : ClipBuilder) (s : ClipRingState) :
    List DirectedEdge → Timed ClipRingState
  | [] => pure s
  | de :: rest => do
    let s' ← clipRingStepT m b s de
    clipRingLoopT m b s' rest

/-- `clip_ring` (src/clip/topology.rs:170-228). -/
def clipRingT (m : Build) (b : ClipBuilder) (ring : TopoRing) : Timed (Option BuildRing × ClipBuilder) := do
  let s ← clipRingLoopT m b ⟨[], 0, none, none, b.newEdges⟩ ring.directedEdges
  let s' ← plugGapT m s s.previous s.start
  if s'.area2 = 0 then pure (none, { b with newEdges := s'.newEdges })
  else pure (some s'.ret, { b with newEdges := s'.newEdges })

/-- `clip_rings` (src/clip/topology.rs:162-165). -/
def clipRingsT (m : Build) (b : ClipBuilder) : List TopoRing → Timed (List BuildRing × ClipBuilder)
  | [] => pure ([], b)
  | r :: rest => do
    tick
    let o ← clipRingT m b r
    let rs ← clipRingsT m o.2 rest
    pure (o.1.toList ++ rs.1, rs.2)

/-- `Builder::add_region` (src/clip/topology.rs:146-157). -/
def clipRegionT {δ : Type} (m : Build) (b : ClipBuilder) (region : TopoRegion δ) :
    Timed (Option (BuildRegion δ) × ClipBuilder) := do
  let o ← clipRingsT m b region.outerRings
  if o.1.length > 0 then do
    let i ← clipRingsT m o.2 region.innerRings
    pure (some ⟨region.data, o.1, i.1⟩, i.2)
  else pure (none, o.2)

/-- The loop of `clip_topology` (src/clip/topology.rs:301-303). -/
def clipRegionsT {δ : Type} (m : Build) (b : ClipBuilder) :
    List (TopoRegion δ) → Timed (List (BuildRegion δ) × ClipBuilder)
  | [] => pure ([], b)
  | r :: rest => do
    tick
    let o ← clipRegionT m b r
    let rs ← clipRegionsT m o.2 rest
    pure (o.1.toList ++ rs.1, rs.2)

/-- `Builder::into_topology` (src/clip/topology.rs:237-295): the new edges take
a round each for the vector, for the hash map, and for the boxes. -/
def ClipBuilder.intoTopologyT {δ : Type} (b : ClipBuilder) (regions : List (BuildRegion δ)) :
    Timed (Topology δ) := do
  ticks b.newEdges.edges.length
  ticks b.newEdges.edges.length
  let fresh ← lift (placeNewEdges b.newEdges.firstEdgeId
    (List.replicate b.newEdges.edges.length (⟨0, 0⟩, ⟨0, 0⟩)) b.newEdges.edges)
  finishTopologyT (b.oldEdges ++ fresh.map (fun pq => [pq.1, pq.2])) regions

/-- `clip_topology` (src/clip/topology.rs:298-306). -/
def clipTopologyT {δ : Type} (m : Build) (t : Topology δ) (mask : ClipMask) : Timed (Topology δ) := do
  let cf ← clipOldEdgesT m mask [] [] t.edges
  let rb ← clipRegionsT m ⟨cf.1, cf.2, ⟨cf.1.length, []⟩⟩ t.regions
  rb.2.intoTopologyT rb.1

/-! ## src/normalize.rs -/

/-- `NormEdge::with_directed_edge` (src/normalize.rs:56-70): a copy of the
points, and perhaps its reversal. -/
def withDirectedEdgeT {δ : Type} (t : Topology δ) (de : DirectedEdge) : Timed NormEdge :=
  match t.edges[de.edge]? with
  | none => lift (.error .nullDeref)
  | some edge => do
    ticks edge.points.length
    if de.direction = .backward then do
      ticks edge.points.length
      lift (withDirectedEdge t de)
    else lift (withDirectedEdge t de)

/-- The loop over directed edges (src/normalize.rs:375-377). -/
def withDirectedEdgesT {δ : Type} (t : Topology δ) : List DirectedEdge → Timed (List NormEdge)
  | [] => pure []
  | de :: rest => do
    tick
    let e ← withDirectedEdgeT t de
    let es ← withDirectedEdgesT t rest
    pure (e :: es)

/-- The rounds of copying the edges of a ring. -/
def normRounds (edges : List NormEdge) : Nat := pathRounds (edges.map (·.points))

/-- The loop in `join_related_edges` (src/normalize.rs:164-177): the points of
the edge are copied. -/
def joinLoopT (ret : List NormEdge) : List NormEdge → Timed (List NormEdge)
  | [] => pure ret
  | e :: rest => do
    tick
    ticks e.points.length
    let ret' ← lift (joinStep ret e)
    joinLoopT ret' rest

/-- The wrap-around join (src/normalize.rs:179-186): the points of the last and
of the first edge are copied. -/
def joinWrapT (ret : List NormEdge) : Timed (List NormEdge) :=
  match ret with
  | first :: second :: rest =>
    let last := (second :: rest).getLast (by simp)
    if first.regions = last.regions then do
      ticks last.points.length
      ticks first.points.length
      lift (joinWrap ret)
    else pure ret
  | _ => pure ret

/-- `join_related_edges` (src/normalize.rs:161-189). -/
def joinRelatedEdgesT (edges : List NormEdge) : Timed (List NormEdge) := do
  let ret ← joinLoopT [] edges
  joinWrapT ret

/-- `calculate_winding_order_from_edges` (src/normalize.rs:191-207): a double
loop. -/
def calculateWindingOrderT (m : Build) (edges : List NormEdge) : Timed WindingOrder := do
  ticks (normRounds edges)
  lift (calculateWindingOrder m edges)

/-- `wind_edges` (src/normalize.rs:211-224): the edges are copied, and perhaps
reversed one by one and then together. -/
def windEdgesT (m : Build) (edges : List NormEdge) (order : WindingOrder) : Timed (List NormEdge) := do
  let w ← calculateWindingOrderT m edges
  ticks (normRounds edges)
  if order = w then pure edges
  else do
    ticks (normRounds edges)
    pure (edges.map (fun e => { e with points := e.points.reverse })).reverse

/-- `rotate_island_edge` (src/normalize.rs:93-111): the search for the smallest
point and the copy. -/
def rotateIslandEdgeT (edge : NormEdge) : Timed NormEdge := do
  ticks edge.points.length
  ticks edge.points.length
  lift (rotateIslandEdge edge)

/-- `rotate_edges` (src/normalize.rs:115-129): the search for the smallest first
point and the copy. -/
def rotateEdgesT (edges : List NormEdge) : Timed (List NormEdge) :=
  match edges with
  | [e] => do
    let e' ← rotateIslandEdgeT e
    pure [e']
  | _ => do
    ticks edges.length
    ticks (normRounds edges)
    lift (rotateEdges edges)

/-- The loop over useful edges (src/normalize.rs:290-299): an entry of the
`BTreeMap`, and a copy of the points. -/
def indexEdgesT (map : MergeMap) : List NormEdge → Timed MergeMap
  | [] => pure map
  | e :: rest => do
    tick
    match e.points.head? with
    | none => lift (.error .index)
    | some p => do
      ticks (mapRounds map.length)
      ticks e.points.length
      let map' ← lift (map.insert p e)
      indexEdgesT map' rest

/-- The loop over rings in `join_adjacent_rings` (src/normalize.rs:277-302): a
copy of the edges and their partition. -/
def splitRingsT (ret : List NormRing) (map : MergeMap) : List NormRing → Timed (List NormRing × MergeMap)
  | [] => pure (ret, map)
  | ring :: rest => do
    tick
    ticks (normRounds ring)
    ticks ring.length
    let redundant := ring.filter (fun e => e.isRedundant)
    let useful := ring.filter (fun e => !e.isRedundant)
    if redundant.length = 0 then splitRingsT (ret ++ [useful]) map rest
    else if useful.length = 0 then splitRingsT ret map rest
    else do
      let map' ← indexEdgesT map useful
      splitRingsT ret map' rest

/-- The inner `loop` (src/normalize.rs:316-331). -/
def followT (start : Point) (fuel : Nat) (current : Point) (map : MergeMap) (edges : List NormEdge) :
    Timed (List NormEdge × MergeMap) :=
  match fuel with
  | 0 => lift (.error .fuel)
  | fuel + 1 => do
    tick
    ticks (mapRounds map.length)
    match map.remove current with
    | none => lift (.error .explicit)
    | some (edge, map') =>
      match edge.points.getLast? with
      | none => lift (.error .explicit)
      | some e =>
        if e = start then pure (edges ++ [edge], map')
        else followT start fuel e map' (edges ++ [edge])

/-- The `while` loop (src/normalize.rs:310-337). -/
def mergeLoopT (fuel : Nat) (map : MergeMap) (ret : List NormRing) : Timed (List NormRing) :=
  match map with
  | [] => pure ret
  | (start, _) :: _ =>
    match fuel with
    | 0 => lift (.error .fuel)
    | fuel + 1 => do
      tick
      ticks (mapRounds map.length)
      let em ← followT start (map.length + 1) start map []
      let joined ← joinRelatedEdgesT em.1
      let rotated ← rotateEdgesT joined
      mergeLoopT fuel em.2 (ret ++ [rotated])

/-- `rings.sort()` (src/normalize.rs:339, :387). -/
def sortRingsT (rings : List NormRing) : Timed (List NormRing) := do
  ticks (sortRounds rings.length)
  lift (sortRings rings)

/-- `join_adjacent_rings` (src/normalize.rs:270-341). -/
def joinAdjacentRingsT (rings : List NormRing) : Timed (List NormRing) := do
  let rm ← splitRingsT [] [] rings
  if rm.2.length = 0 then pure rm.1
  else do
    let ret' ← mergeLoopT rm.2.length rm.2 rm.1
    sortRingsT ret'

/-- One ring in `normalize_region_rings` (src/normalize.rs:370-384). -/
def normalizeRingT {δ : Type} (m : Build) (t : Topology δ) (order : WindingOrder) (ring : TopoRing) :
    Timed NormRing := do
  let edges ← withDirectedEdgesT t ring.directedEdges
  let joined ← joinRelatedEdgesT edges
  let wound ← windEdgesT m joined order
  rotateEdgesT wound

/-- The loop in `normalize_region_rings` (src/normalize.rs:370-384). -/
def normalizeRingsT {δ : Type} (m : Build) (t : Topology δ) (order : WindingOrder) :
    List TopoRing → Timed (List NormRing)
  | [] => pure []
  | r :: rest => do
    tick
    let n ← normalizeRingT m t order r
    let ns ← normalizeRingsT m t order rest
    pure (n :: ns)

/-- `normalize_region_rings` (src/normalize.rs:367-391): `into_ring` takes a
round per edge, and one per ring. -/
def normalizeRegionRingsT {δ : Type} (m : Build) (t : Topology δ) (rings : List TopoRing)
    (order : WindingOrder) : Timed (List Ring) := do
  let ns ← normalizeRingsT m t order rings
  let joined ← joinAdjacentRingsT ns
  let sorted ← sortRingsT joined
  ticks (sorted.map fun r => r.length + 1).sum
  pure (sorted.map normRingToRing)

/-- One iteration of the loop in `normalize` (src/normalize.rs:412-420), up to
the call of `add_region`. -/
def normalizeRegionT {δ : Type} (m : Build) (t : Topology δ) (r : TopoRegion δ) : Timed (Region δ) := do
  tick
  let outer ← normalizeRegionRingsT m t r.outerRings .clockwise
  let inner ← normalizeRegionRingsT m t r.innerRings .counterClockwise
  pure ⟨r.data, outer, inner⟩

/-- The loop in `normalize` (src/normalize.rs:412-420). -/
def normalizeLoopT {δ : Type} (m : Build) (t : Topology δ) (b : TopologyBuilder δ) :
    List (TopoRegion δ) → Timed (TopologyBuilder δ)
  | [] => pure b
  | r :: rest => do
    let region ← normalizeRegionT m t r
    let b' ← b.addRegionT m region
    normalizeLoopT m t b' rest

/-- `normalize` (src/normalize.rs:409-423). -/
def normalizeT {δ : Type} (m : Build) (t : Topology δ) : Timed (Topology δ) := do
  let b ← normalizeLoopT m t TopologyBuilder.new t.regions
  b.intoTopologyT

end TopoGeo
