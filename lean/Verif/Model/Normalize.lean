import Verif.Model.Clip
/-!
# Model of `src/normalize.rs`
-/

namespace TopoGeo

/-- `NormEdge` (src/normalize.rs:42-47). -/
structure NormEdge where
  points : List Point
  regions : Option Nat × Option Nat
deriving DecidableEq, Repr

/-- `NormRing` (src/normalize.rs:9-13). -/
abbrev NormRing := List NormEdge

/-- The ring behind a `*const TopoRing`. -/
def Topology.ringAt {δ : Type} (t : Topology δ) (rp : RingPtr) : Option TopoRing :=
  match t.regions[rp.region]? with
  | none => none
  | some r => if rp.inner then r.innerRings[rp.index]? else r.outerRings[rp.index]?

/-- `(*ring_ptr).region` (src/normalize.rs:65-66). -/
def derefRegion {δ : Type} (t : Topology δ) (o : Option RingPtr) : R (Option Nat) :=
  match o with
  | none => .error .nullDeref
  | some rp => match t.ringAt rp with
    | none => .error .nullDeref
    | some ring => .ok ring.region

/-- `NormEdge::with_directed_edge` (src/normalize.rs:56-70). -/
def withDirectedEdge {δ : Type} (t : Topology δ) (de : DirectedEdge) : R NormEdge :=
  match t.edges[de.edge]? with
  | none => .error .nullDeref
  | some edge => do
    let points := if de.direction = .backward then edge.points.reverse else edge.points
    let r0 ← derefRegion t edge.ring0
    let r1 ← if edge.ring1 = none then .ok none else derefRegion t edge.ring1
    .ok ⟨points, (r0, r1)⟩

/-- `is_redundant` (src/normalize.rs:73-75). -/
def NormEdge.isRedundant (e : NormEdge) : Bool := e.regions.1 == e.regions.2

/-- The running minimum of `Iterator::min_by_key`, which returns the first of
equal minima (src/normalize.rs:94, :119). -/
def argMinLoop (best : Point) (bestIndex i : Nat) : List Point → Nat
  | [] => bestIndex
  | q :: qs => if q < best then argMinLoop q i (i + 1) qs else argMinLoop best bestIndex (i + 1) qs

/-- `iter().enumerate().min_by_key(..)`: index of the first smallest point. -/
def argMin : List Point → Option Nat
  | [] => none
  | p :: ps => some (argMinLoop p 0 1 ps)

/-- `rotate_island_edge` (src/normalize.rs:93-111). -/
def rotateIslandEdge (edge : NormEdge) : R NormEdge :=
  match argMin edge.points with
  | none | some 0 => .ok edge
  | some index =>
    if edge.points.head? = edge.points.getLast? then
      .ok { edge with
            points := (edge.points.take (edge.points.length - 1)).drop index
              ++ edge.points.take (index + 1) }
    else .error .assert

/-- `e.points[0]` for each edge (src/normalize.rs:119). -/
def firstPoints : List NormEdge → R (List Point)
  | [] => .ok []
  | e :: rest => match e.points.head? with
    | none => .error .index
    | some p => do
      let ps ← firstPoints rest
      .ok (p :: ps)

/-- `rotate_edges` (src/normalize.rs:115-129). -/
def rotateEdges (edges : List NormEdge) : R (List NormEdge) :=
  match edges with
  | [e] => do
    let e' ← rotateIslandEdge e
    .ok [e']
  | _ => do
    let ps ← firstPoints edges
    match argMin ps with
    | none | some 0 => .ok edges
    | some index => .ok (edges.drop index ++ edges.take index)

/-- `points[1..]`, which panics on an empty slice. -/
def sliceFrom1 (points : List Point) : R (List Point) :=
  match points with
  | [] => .error .index
  | _ :: t => .ok t

/-- One iteration of the loop in `join_related_edges` (src/normalize.rs:164-177). -/
def joinStep (ret : List NormEdge) (edge : NormEdge) : R (List NormEdge) :=
  match ret.getLast? with
  | some last =>
    if last.regions = edge.regions then do
      let t ← sliceFrom1 edge.points
      .ok (ret.dropLast ++ [{ last with points := last.points ++ t }])
    else .ok (ret ++ [edge])
  | none => .ok (ret ++ [edge])

/-- The loop in `join_related_edges` (src/normalize.rs:164-177). -/
def joinLoop (ret : List NormEdge) : List NormEdge → R (List NormEdge)
  | [] => .ok ret
  | e :: rest => do
    let ret' ← joinStep ret e
    joinLoop ret' rest

/-- The wrap-around join (src/normalize.rs:179-186). -/
def joinWrap (ret : List NormEdge) : R (List NormEdge) :=
  match ret with
  | first :: second :: rest =>
    let last := (second :: rest).getLast (by simp)
    if first.regions = last.regions then do
      let t ← sliceFrom1 first.points
      .ok ({ first with points := last.points ++ t } :: (second :: rest).dropLast)
    else .ok ret
  | _ => .ok ret

/-- `join_related_edges` (src/normalize.rs:161-189). -/
def joinRelatedEdges (edges : List NormEdge) : R (List NormEdge) := do
  let ret ← joinLoop [] edges
  joinWrap ret

/-- The double loop of `calculate_winding_order_from_edges`
(src/normalize.rs:195-199). -/
def normAreaLoop (m : Build) (a : Int) : List NormEdge → R Int
  | [] => .ok a
  | e :: rest => do
    let a' ← signedArea2Loop m a (tupleWindows e.points)
    normAreaLoop m a' rest

/-- `calculate_winding_order_from_edges` (src/normalize.rs:191-207). -/
def calculateWindingOrder (m : Build) (edges : List NormEdge) : R WindingOrder := do
  let a ← normAreaLoop m 0 edges
  if a = 0 then .error .assert
  else if a > 0 then .ok .clockwise
  else .ok .counterClockwise

/-- `wind_edges` (src/normalize.rs:211-224). -/
def windEdges (m : Build) (edges : List NormEdge) (order : WindingOrder) : R (List NormEdge) := do
  let w ← calculateWindingOrder m edges
  if order = w then .ok edges
  else .ok (edges.map (fun e => { e with points := e.points.reverse })).reverse

/-- `BTreeMap<Point, NormEdge>` (src/normalize.rs:275): entries in increasing
order of keys. -/
abbrev MergeMap := List (Point × NormEdge)

/-- `Entry` insertion (src/normalize.rs:291-298): panics if occupied. -/
def MergeMap.insert (k : Point) (e : NormEdge) : MergeMap → R MergeMap
  | [] => .ok [(k, e)]
  | (k', e') :: rest =>
    if k = k' then .error .explicit
    else if k < k' then .ok ((k, e) :: (k', e') :: rest)
    else do
      let rest' ← MergeMap.insert k e rest
      .ok ((k', e') :: rest')

/-- `BTreeMap::remove`. -/
def MergeMap.remove (k : Point) : MergeMap → Option (NormEdge × MergeMap)
  | [] => none
  | (k', e') :: rest =>
    if k = k' then some (e', rest)
    else match MergeMap.remove k rest with
      | none => none
      | some (e, rest') => some (e, (k', e') :: rest')

/-- The loop over useful edges (src/normalize.rs:290-299). -/
def indexEdges (map : MergeMap) : List NormEdge → R MergeMap
  | [] => .ok map
  | e :: rest => match e.points.head? with
    | none => .error .index
    | some p => do
      let map' ← map.insert p e
      indexEdges map' rest

/-- The loop over rings in `join_adjacent_rings` (src/normalize.rs:277-302). -/
def splitRings (ret : List NormRing) (map : MergeMap) : List NormRing → R (List NormRing × MergeMap)
  | [] => .ok (ret, map)
  | ring :: rest =>
    let redundant := ring.filter (fun e => e.isRedundant)
    let useful := ring.filter (fun e => !e.isRedundant)
    if redundant.length = 0 then splitRings (ret ++ [useful]) map rest
    else if useful.length = 0 then splitRings ret map rest
    else do
      let map' ← indexEdges map useful
      splitRings ret map' rest

/-- The inner `loop` (src/normalize.rs:316-331): follow edges from `current`
until `start` is reached. Fuel: each round removes an entry of the map. -/
def follow (start : Point) (fuel : Nat) (current : Point) (map : MergeMap) (edges : List NormEdge) :
    R (List NormEdge × MergeMap) :=
  match fuel with
  | 0 => .error .fuel
  | fuel + 1 =>
    match map.remove current with
    | none => .error .explicit
    | some (edge, map') =>
      match edge.points.getLast? with
      | none => .error .explicit
      | some e =>
        if e = start then .ok (edges ++ [edge], map')
        else follow start fuel e map' (edges ++ [edge])

/-- The `while` loop (src/normalize.rs:310-337). -/
def mergeLoop (fuel : Nat) (map : MergeMap) (ret : List NormRing) : R (List NormRing) :=
  match map with
  | [] => .ok ret
  | (start, _) :: _ =>
    match fuel with
    | 0 => .error .fuel
    | fuel + 1 => do
      let (edges, map') ← follow start (map.length + 1) start map []
      let joined ← joinRelatedEdges edges
      let rotated ← rotateEdges joined
      mergeLoop fuel map' (ret ++ [rotated])

/-- The sort key of `NormRing` (src/normalize.rs:15-25):
`self.edges[0].points[0]`. -/
def ringKey (ring : NormRing) : R Point :=
  match ring with
  | [] => .error .index
  | e :: _ => match e.points.head? with
    | none => .error .index
    | some p => .ok p

/-- Keys of all rings. Simplification: Rust evaluates a key only when it
compares; rings without a first point never get this far. -/
def keyRings : List NormRing → R (List (Point × NormRing))
  | [] => .ok []
  | r :: rest => do
    let k ← ringKey r
    let ks ← keyRings rest
    .ok ((k, r) :: ks)

/-- Stable insertion. -/
def insertByKey (x : Point × NormRing) : List (Point × NormRing) → List (Point × NormRing)
  | [] => [x]
  | y :: ys => if x.1 ≤ y.1 then x :: y :: ys else y :: insertByKey x ys

/-- Stable sort by key (`Vec::sort`). -/
def sortByKey : List (Point × NormRing) → List (Point × NormRing)
  | [] => []
  | x :: xs => insertByKey x (sortByKey xs)

/-- `rings.sort()` (src/normalize.rs:339, :387). -/
def sortRings (rings : List NormRing) : R (List NormRing) := do
  let ks ← keyRings rings
  .ok ((sortByKey ks).map (·.2))

/-- `join_adjacent_rings` (src/normalize.rs:270-341). -/
def joinAdjacentRings (rings : List NormRing) : R (List NormRing) := do
  let (ret, map) ← splitRings [] [] rings
  if map.length = 0 then .ok ret
  else do
    let ret' ← mergeLoop map.length map ret
    sortRings ret'

/-- The loop over directed edges (src/normalize.rs:375-377). -/
def withDirectedEdges {δ : Type} (t : Topology δ) : List DirectedEdge → R (List NormEdge)
  | [] => .ok []
  | de :: rest => do
    let e ← withDirectedEdge t de
    let es ← withDirectedEdges t rest
    .ok (e :: es)

/-- One ring in `normalize_region_rings` (src/normalize.rs:370-384). -/
def normalizeRing {δ : Type} (m : Build) (t : Topology δ) (order : WindingOrder) (ring : TopoRing) :
    R NormRing := do
  let edges ← withDirectedEdges t ring.directedEdges
  let joined ← joinRelatedEdges edges
  let wound ← windEdges m joined order
  rotateEdges wound

/-- The loop in `normalize_region_rings` (src/normalize.rs:370-384). -/
def normalizeRings {δ : Type} (m : Build) (t : Topology δ) (order : WindingOrder) :
    List TopoRing → R (List NormRing)
  | [] => .ok []
  | r :: rest => do
    let n ← normalizeRing m t order r
    let ns ← normalizeRings m t order rest
    .ok (n :: ns)

/-- `NormRing::into_ring` (src/normalize.rs:36-39). -/
def normRingToRing (ring : NormRing) : Ring := .edges (ring.map (·.points))

/-- `normalize_region_rings` before `into_ring` (src/normalize.rs:367-387). -/
def normalizeRegionNormRings {δ : Type} (m : Build) (t : Topology δ) (rings : List TopoRing)
    (order : WindingOrder) : R (List NormRing) := do
  let ns ← normalizeRings m t order rings
  let joined ← joinAdjacentRings ns
  sortRings joined

/-- `normalize_region_rings` (src/normalize.rs:367-391). -/
def normalizeRegionRings {δ : Type} (m : Build) (t : Topology δ) (rings : List TopoRing)
    (order : WindingOrder) : R (List Ring) := do
  let sorted ← normalizeRegionNormRings m t rings order
  .ok (sorted.map normRingToRing)

/-- One iteration of the loop in `normalize` (src/normalize.rs:412-420), up to
the call of `add_region`. -/
def normalizeRegion {δ : Type} (m : Build) (t : Topology δ) (r : TopoRegion δ) : R (Region δ) := do
  let outer ← normalizeRegionRings m t r.outerRings .clockwise
  let inner ← normalizeRegionRings m t r.innerRings .counterClockwise
  .ok ⟨r.data, outer, inner⟩

/-- The loop in `normalize` (src/normalize.rs:412-420). -/
def normalizeLoop {δ : Type} (m : Build) (t : Topology δ) (b : TopologyBuilder δ) :
    List (TopoRegion δ) → R (TopologyBuilder δ)
  | [] => .ok b
  | r :: rest => do
    let region ← normalizeRegion m t r
    let b' ← b.addRegion m region
    normalizeLoop m t b' rest

/-- `normalize` (src/normalize.rs:409-423). -/
def normalize {δ : Type} (m : Build) (t : Topology δ) : R (Topology δ) := do
  let b ← normalizeLoop m t TopologyBuilder.new t.regions
  b.intoTopology

end TopoGeo
