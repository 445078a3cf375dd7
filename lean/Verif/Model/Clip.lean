import Verif.Model.Topology
/-!
# Model of `src/clip/types.rs`, `src/clip/edge.rs`, `src/clip/topology.rs`
-/

namespace TopoGeo

/-- `ClipMask` (src/clip/types.rs:7-12). -/
inductive ClipMask where
  | minX (x : UInt32)
  | maxX (x : UInt32)
  | minY (y : UInt32)
  | maxY (y : UInt32)
deriving DecidableEq, Repr

/-- `ClipLocation` (src/clip/types.rs:14-19). -/
inductive ClipLocation where
  | inside
  | onEdge
  | outside
deriving DecidableEq, Repr

/-- The local function `t` (src/clip/types.rs:35-37). -/
def locOfBool (inside : Bool) : ClipLocation :=
  if inside then .inside else .outside

/-- `ClipMask::test` (src/clip/types.rs:24-45). -/
def ClipMask.test (mask : ClipMask) (p : Point) : ClipLocation :=
  let onEdge : Bool := match mask with
    | .minX x | .maxX x => p.x == x
    | .minY y | .maxY y => p.y == y
  if onEdge then .onEdge
  else match mask with
    | .minX x => locOfBool (p.x ≥ x)
    | .maxX x => locOfBool (p.x ≤ x)
    | .minY y => locOfBool (p.y ≥ y)
    | .maxY y => locOfBool (p.y ≤ y)

/-- `z as u32` for an `i64` value: the low 32 bits. -/
def asU32 (z : Int) : UInt32 := UInt32.ofNat (z.emod (2 ^ 32)).toNat

/-- The interpolation in `intersect` (src/clip/types.rs:56, :60): starting
value `b1`, with the line crossing `c` between `a1` and `a2`, i.e.
`b1 + (c - a1) * (b2 - b1) / (a2 - a1)` in `i64` arithmetic. The three
subtractions of `u32` values cannot overflow. -/
def interpolate (m : Build) (c a1 b1 a2 b2 : Int) : R Int := do
  let prod ← m.i64 ((c - a1) * (b2 - b1))
  let q ← i64Div prod (a2 - a1)
  m.i64 (b1 + q)

/-- `ClipMask::intersect` (src/clip/types.rs:51-64). -/
def ClipMask.intersect (m : Build) (mask : ClipMask) (p1 p2 : Point) : R Point :=
  match mask with
  | .minX x | .maxX x => do
    let y ← interpolate m (x.toNat : Int) p1.xi p1.yi p2.xi p2.yi
    .ok ⟨x, asU32 y⟩
  | .minY y | .maxY y => do
    let x ← interpolate m (y.toNat : Int) p1.yi p1.xi p2.yi p2.xi
    .ok ⟨asU32 x, y⟩

/-- One iteration of the loop in `clip_edge` (src/clip/edge.rs:52-89): what is
appended to `ret`. -/
def clipEmit (m : Build) (mask : ClipMask) (prev : Point) (prevLoc : ClipLocation)
    (ret : List Point) (point : Point) : R (List Point) :=
  match mask.test point with
  | .onEdge =>
    if prevLoc = .inside then .ok (ret ++ [point]) else .ok ret
  | .inside => do
    let ret1 ← if prevLoc = .outside then do
        let x ← mask.intersect m prev point
        .ok (ret ++ [x])
      else .ok ret
    let ret2 :=
      if prevLoc = .onEdge then
        if ret1.getLast? ≠ some prev then ret1 ++ [prev] else ret1
      else ret1
    .ok (ret2 ++ [point])
  | .outside =>
    if prevLoc = .inside then do
      let x ← mask.intersect m prev point
      .ok (ret ++ [x])
    else .ok ret

/-- The loop of `clip_edge` (src/clip/edge.rs:52-89). -/
def clipLoop (m : Build) (mask : ClipMask) (prev : Point) (prevLoc : ClipLocation)
    (ret : List Point) : List Point → R (List Point)
  | [] => .ok ret
  | point :: rest => do
    let ret' ← clipEmit m mask prev prevLoc ret point
    clipLoop m mask point (mask.test point) ret' rest

/-- `clip_edge` (src/clip/edge.rs:38-92). -/
def clipEdge (m : Build) (mask : ClipMask) (points : List Point) : R (List Point) :=
  match points with
  | p :: q :: rest =>
    let loc := mask.test p
    clipLoop m mask p loc (if loc = .inside then [p] else []) (q :: rest)
  | _ => .ok []

/-- `first_point` (src/clip/topology.rs:30-35). -/
def firstPoint (points : List Point) (d : Direction) : R Point :=
  match (match d with | .forward => points.head? | .backward => points.getLast?) with
  | some p => .ok p
  | none => .error .index

/-- `last_point` (src/clip/topology.rs:37-42). -/
def lastPoint (points : List Point) (d : Direction) : R Point :=
  match (match d with | .forward => points.getLast? | .backward => points.head?) with
  | some p => .ok p
  | none => .error .index

/-- `NewEdgeSet` (src/clip/topology.rs:47-51). -/
structure NewEdgeSet where
  firstEdgeId : Nat
  edges : List ((Point × Point) × Nat)
deriving Repr

/-- `NewEdgeSet::build_directed_edge` (src/clip/topology.rs:65-79). -/
def NewEdgeSet.buildDirectedEdge (s : NewEdgeSet) (p1 p2 : Point) : DirectedEdge × NewEdgeSet :=
  let k : Point × Point := if p1 < p2 then (p1, p2) else (p2, p1)
  let dir : Direction := if p1 < p2 then .forward else .backward
  let r := mapEntry (s.firstEdgeId + s.edges.length) k s.edges
  (⟨r.1, dir⟩, { s with edges := r.2 })

/-- `NewEdgeSet::into_iter` (src/clip/topology.rs:82-88) for one iteration
order of the hash map. -/
def placeNewEdges (first : Nat) (slots : List (Point × Point)) :
    List ((Point × Point) × Nat) → R (List (Point × Point))
  | [] => .ok slots
  | (k, id) :: rest => do
    let slots' ← vecSet slots (id - first) k
    placeNewEdges first slots' rest

/-- `clip::topology::Builder` (src/clip/topology.rs:105-112), without the
regions, which are returned by the functions below, and without
`old_edge_0_ptr`, since edge pointers are indices. -/
structure ClipBuilder where
  oldEdges : List (List Point)
  finder : List (Option Nat)
  newEdges : NewEdgeSet
deriving Repr

/-- The loop of `Builder::new` (src/clip/topology.rs:123-133). -/
def clipOldEdges (m : Build) (mask : ClipMask) (clipped : List (List Point))
    (finder : List (Option Nat)) : List TopoEdge → R (List (List Point) × List (Option Nat))
  | [] => .ok (clipped, finder)
  | e :: rest => do
    let c ← clipEdge m mask e.points
    if c.length ≥ 2 then
      clipOldEdges m mask (clipped ++ [c]) (finder ++ [some clipped.length]) rest
    else
      clipOldEdges m mask clipped (finder ++ [none]) rest

/-- `Builder::new` (src/clip/topology.rs:115-144). -/
def ClipBuilder.new (m : Build) (mask : ClipMask) (edges : List TopoEdge) : R ClipBuilder := do
  let (clipped, finder) ← clipOldEdges m mask [] [] edges
  .ok ⟨clipped, finder, ⟨clipped.length, []⟩⟩

/-- `find_old_edge_id` (src/clip/topology.rs:230-235): pointer arithmetic
recovers the index of the edge in the old topology. -/
def ClipBuilder.findOldEdgeId (b : ClipBuilder) (edge : Nat) : R (Option Nat) :=
  match b.finder[edge]? with
  | some o => .ok o
  | none => .error .index

/-- Points of an old edge in the direction of travel, as the two area calls
iterate over them (src/clip/topology.rs:202-205). -/
def orient (d : Direction) (points : List Point) : List Point :=
  match d with
  | .forward => points
  | .backward => points.reverse

/-- State of the loop in `clip_ring` (src/clip/topology.rs:171-175). -/
structure ClipRingState where
  ret : List DirectedEdge
  area2 : Int
  start : Option Point
  previous : Option Point
  newEdges : NewEdgeSet
deriving Repr

/-- Add a straight line between `p` and `q` (src/clip/topology.rs:193-194 and
:216-217). The Rust code evaluates the two lines in the opposite order at the
second place; they are independent. -/
def ClipRingState.plug (m : Build) (s : ClipRingState) (p q : Point) : R ClipRingState := do
  let t ← signedArea2 m [p, q]
  let a ← m.i64 (s.area2 + t)
  let (de, ne) := s.newEdges.buildDirectedEdge p q
  .ok { s with ret := s.ret ++ [de], area2 := a, newEdges := ne }

/-- One iteration of the loop in `clip_ring` (src/clip/topology.rs:177-211). -/
def clipRingStep (m : Build) (b : ClipBuilder) (s : ClipRingState) (de : DirectedEdge) :
    R ClipRingState := do
  match ← b.findOldEdgeId de.edge with
  | none => .ok s
  | some edgeId =>
    match b.oldEdges[edgeId]? with
    | none => .error .index
    | some oldEdge => do
      let first ← firstPoint oldEdge de.direction
      let s1 : ClipRingState := if s.start = none then { s with start := some first } else s
      let s2 ← match s1.previous with
        | some p => if p ≠ first then s1.plug m p first else .ok s1
        | none => .ok s1
      let last ← lastPoint oldEdge de.direction
      let t ← signedArea2 m (orient de.direction oldEdge)
      let a ← m.i64 (s2.area2 + t)
      .ok { s2 with
            ret := s2.ret ++ [⟨edgeId, de.direction⟩]
            previous := some last
            area2 := a }

/-- The loop in `clip_ring` (src/clip/topology.rs:177-211). -/
def clipRingLoop (m : Build) (b : ClipBuilder) (s : ClipRingState) :
    List DirectedEdge → R ClipRingState
  | [] => .ok s
  | de :: rest => do
    let s' ← clipRingStep m b s de
    clipRingLoop m b s' rest

/-- `clip_ring` (src/clip/topology.rs:170-228). -/
def clipRing (m : Build) (b : ClipBuilder) (ring : TopoRing) : R (Option BuildRing × ClipBuilder) := do
  let s ← clipRingLoop m b ⟨[], 0, none, none, b.newEdges⟩ ring.directedEdges
  let s' ← match s.start, s.previous with
    | some p0, some pn => if p0 ≠ pn then s.plug m pn p0 else .ok s
    | _, _ => .ok s
  let b' : ClipBuilder := { b with newEdges := s'.newEdges }
  if s'.area2 = 0 then .ok (none, b') else .ok (some s'.ret, b')

/-- `clip_rings` (src/clip/topology.rs:162-165). -/
def clipRings (m : Build) (b : ClipBuilder) : List TopoRing → R (List BuildRing × ClipBuilder)
  | [] => .ok ([], b)
  | r :: rest => do
    let (o, b1) ← clipRing m b r
    let (rs, b2) ← clipRings m b1 rest
    .ok (o.toList ++ rs, b2)

/-- `Builder::add_region` (src/clip/topology.rs:146-157). -/
def clipRegion {δ : Type} (m : Build) (b : ClipBuilder) (region : TopoRegion δ) :
    R (Option (BuildRegion δ) × ClipBuilder) := do
  let (outer, b1) ← clipRings m b region.outerRings
  if outer.length > 0 then do
    let (inner, b2) ← clipRings m b1 region.innerRings
    .ok (some ⟨region.data, outer, inner⟩, b2)
  else .ok (none, b1)

/-- The loop of `clip_topology` (src/clip/topology.rs:301-303). -/
def clipRegions {δ : Type} (m : Build) (b : ClipBuilder) :
    List (TopoRegion δ) → R (List (BuildRegion δ) × ClipBuilder)
  | [] => .ok ([], b)
  | r :: rest => do
    let (o, b1) ← clipRegion m b r
    let (rs, b2) ← clipRegions m b1 rest
    .ok (o.toList ++ rs, b2)

/-- `Builder::into_topology` (src/clip/topology.rs:237-295) when the hash map
of new edges is iterated in the given order. -/
def ClipBuilder.intoTopologyWith {δ : Type} (b : ClipBuilder) (regions : List (BuildRegion δ))
    (order : List ((Point × Point) × Nat)) : R (Topology δ) := do
  let fresh ← placeNewEdges b.newEdges.firstEdgeId
    (List.replicate b.newEdges.edges.length (⟨0, 0⟩, ⟨0, 0⟩)) order
  finishTopology (b.oldEdges ++ fresh.map (fun pq => [pq.1, pq.2])) regions

/-- `clip_topology` (src/clip/topology.rs:298-306). -/
def clipTopology {δ : Type} (m : Build) (t : Topology δ) (mask : ClipMask) : R (Topology δ) := do
  let b ← ClipBuilder.new m mask t.edges
  let (regions, b') ← clipRegions m b t.regions
  b'.intoTopologyWith regions b'.newEdges.edges

end TopoGeo
