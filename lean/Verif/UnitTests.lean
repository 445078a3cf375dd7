import Verif.Model.Normalize
import Verif.Model.Simplify
import Verif.Model.ReadGeo
/-!
# The crate's own unit tests, run on the model

These are tests, not proofs of any property: they check that the model computes
what the assertions in /repo's `#[cfg(test)]` modules say the code computes.
-/

namespace TopoGeo.UnitTests

abbrev pt (x y : UInt32) : Point := ⟨x, y⟩
abbrev ring (l : List (UInt32 × UInt32)) : Ring := .points (l.map fun (x, y) => ⟨x, y⟩)
abbrev pts (l : List (UInt32 × UInt32)) : List Point := l.map fun (x, y) => ⟨x, y⟩

def build {δ : Type} (rs : List (Region δ)) : R (Topology δ) := buildTopology .debug rs

def buildNormal {δ : Type} (rs : List (Region δ)) : R (Topology δ) := do
  let t ← buildTopology .debug rs
  normalize .debug t

def nEdges {δ : Type} (t : R (Topology δ)) : R Nat := t.map (fun t => t.edges.length)
def edgePoints {δ : Type} (t : R (Topology δ)) : R (List (List Point)) :=
  t.map (fun t => t.edges.map (·.points))

/-! src/topology/build.rs -/

-- build_region
example : nEdges (build [⟨42, [ring [(1,1),(2,1),(1,2),(1,1)], ring [(10,10),(20,10),(10,20),(10,10)]], []⟩]) = .ok 6 := by
  decide +kernel
-- share_edge
example : (build [⟨(), [ring [(1,1),(2,1),(1,2),(1,1)], ring [(2,1),(2,2),(1,2),(2,1)]], []⟩]).map
    (fun t => (t.regions.length, t.edges.length,
      t.regions.map (fun r => r.outerRings.map (fun o => o.directedEdges)))) =
    .ok (1, 5, [[[⟨0, .forward⟩, ⟨1, .backward⟩, ⟨2, .backward⟩],
                 [⟨3, .forward⟩, ⟨4, .backward⟩, ⟨1, .forward⟩]]]) := by
  decide +kernel
-- inner_hole
example : nEdges (build [⟨(), [ring [(0,0),(3,0),(0,3),(0,0)]], [ring [(1,1),(2,1),(1,2),(1,1)]]⟩]) = .ok 6 := by
  decide +kernel
-- filter_zero_edge
example : nEdges (build [⟨(), [ring [(0,0),(1,0),(1,0),(0,1),(0,0)]], []⟩]) = .ok 3 := by
  decide +kernel
-- filter_zero_ring
example : (build [⟨(), [ring [(0,0),(1,0),(0,1),(0,0)], ring [(1,1),(1,2),(1,3),(1,1)]], []⟩]).map
    (fun t => t.regions.map (fun r => r.outerRings.length)) = .ok [1] := by
  decide +kernel
-- filter_zero_region
example : (build [⟨(), [ring [(1,1),(1,2),(1,3),(1,1)]], []⟩]).map (fun t => t.regions.length) = .ok 0 := by
  decide +kernel

/-! src/clip/types.rs -/

example : (ClipMask.minX 100).test (pt 101 99) = .inside ∧ (ClipMask.minX 100).test (pt 100 101) = .onEdge ∧
    (ClipMask.minX 100).test (pt 99 101) = .outside := by decide +kernel
example : (ClipMask.maxX 100).test (pt 99 101) = .inside ∧ (ClipMask.maxX 100).test (pt 100 1) = .onEdge ∧
    (ClipMask.maxX 100).test (pt 101 1) = .outside := by decide +kernel
example : (ClipMask.minY 100).test (pt 99 101) = .inside ∧ (ClipMask.minY 100).test (pt 101 100) = .onEdge ∧
    (ClipMask.minY 100).test (pt 101 99) = .outside := by decide +kernel
example : (ClipMask.maxY 100).test (pt 101 99) = .inside ∧ (ClipMask.maxY 100).test (pt 1 100) = .onEdge ∧
    (ClipMask.maxY 100).test (pt 1 101) = .outside := by decide +kernel

/-! src/clip/edge.rs -/

example : clipEdge .debug (.maxX 2) [] = .ok [] := by decide +kernel
example : clipEdge .debug (.maxX 2) (pts [(1,1)]) = .ok [] := by decide +kernel
example : clipEdge .debug (.maxX 2) (pts [(1,1),(2,2),(1,2)]) = .ok (pts [(1,1),(2,2),(1,2)]) := by decide +kernel
example : clipEdge .debug (.maxX 2) (pts [(1,1),(2,2),(3,2)]) = .ok (pts [(1,1),(2,2)]) := by decide +kernel
example : clipEdge .debug (.maxX 2) (pts [(1,1),(3,3),(4,3)]) = .ok (pts [(1,1),(2,2)]) := by decide +kernel
example : clipEdge .debug (.minX 2) (pts [(0,1),(2,2),(3,3)]) = .ok (pts [(2,2),(3,3)]) := by decide +kernel
example : clipEdge .debug (.minX 2) (pts [(0,1),(1,1),(3,3)]) = .ok (pts [(2,2),(3,3)]) := by decide +kernel
example : clipEdge .debug (.minX 2) (pts [(1,1),(2,1),(2,2),(1,1)]) = .ok [] := by decide +kernel
example : clipEdge .debug (.maxX 2) (pts [(1,1),(2,1),(2,2),(1,1)]) = .ok (pts [(1,1),(2,1),(2,2),(1,1)]) := by
  decide +kernel

/-! src/clip/topology.rs (the tests use null pointers, as here) -/

def island (d : Nat) (l : List (UInt32 × UInt32)) (i : Nat) : TopoRegion Nat × TopoEdge :=
  (⟨d, [⟨[⟨i, .forward⟩], none⟩], []⟩, ⟨pts l, none, none⟩)

def clipTest (l : List (TopoRegion Nat × TopoEdge)) (mask : ClipMask) : R (Topology Nat) :=
  clipTopology .debug ⟨l.map (·.1), l.map (·.2)⟩ mask

-- clip_island
example : (clipTest [island 0 [(1,1),(10,10),(10,20),(1,1)] 0] (.maxX 5)).map
    (fun t => (t.edges[0]?, t.regions.map (fun r => r.outerRings.map (·.region)))) =
    .ok (some ⟨pts [(1,1),(5,5),(5,10),(1,1)], some ⟨0, false, 0⟩, none⟩, [[some 0]]) := by decide +kernel
-- remove_region
example : (clipTest [island 0 [(1,1),(10,10),(10,20),(1,1)] 0, island 1 [(100,100),(101,100),(100,101),(100,100)] 1] (.minX 30)).map
    (fun t => (t.edges.map (·.points), t.regions.map (·.data))) =
    .ok ([pts [(100,100),(101,100),(100,101),(100,100)]], [1]) := by decide +kernel
-- remove_empty_line
example : (clipTest [island 0 [(1,1),(10,10),(10,20),(1,1)] 0] (.minX 10)).map (fun t => t.regions.length) = .ok 0 := by
  decide +kernel

/-! src/normalize.rs -/

-- flatten_island
example : edgePoints (buildNormal [⟨(), [ring [(1,1),(2,1),(1,2),(1,1)]], []⟩]) = .ok [pts [(1,1),(2,1),(1,2),(1,1)]] := by
  decide +kernel
-- flatten_uncommon_edges
example : (buildNormal [⟨1, [ring [(1,1),(2,1),(1,2),(1,1)]], []⟩, ⟨2, [ring [(2,1),(2,2),(1,2),(2,1)]], []⟩]).map
    (fun t => (t.edges.length,
      t.edges.find? (fun e => e.ring0 = some ⟨0, false, 0⟩ ∧ e.ring1 = none) |>.map (·.points),
      t.edges.find? (fun e => e.ring0 = some ⟨1, false, 0⟩ ∧ e.ring1 = none) |>.map (·.points),
      t.edges.find? (fun e => e.ring1 ≠ none) |>.map (·.points))) =
    .ok (3, some (pts [(1,2),(1,1),(2,1)]), some (pts [(1,2),(2,2),(2,1)]), some (pts [(1,2),(2,1)])) := by
  decide +kernel
-- flatten_common_edges
example : (buildNormal [⟨1, [ring [(1,1),(3,1),(2,2),(1,1)]], []⟩, ⟨2, [ring [(1,1),(2,2),(3,1),(3,3),(1,3),(1,1)]], []⟩]).map
    (fun t => (t.edges.length,
      t.edges.find? (fun e => e.ring0 = some ⟨0, false, 0⟩ ∧ e.ring1 = none) |>.map (·.points),
      t.edges.find? (fun e => e.ring0 = some ⟨1, false, 0⟩ ∧ e.ring1 = none) |>.map (·.points),
      t.edges.find? (fun e => e.ring1 ≠ none) |>.map (·.points))) =
    .ok (3, some (pts [(1,1),(3,1)]), some (pts [(1,1),(1,3),(3,3),(3,1)]), some (pts [(1,1),(2,2),(3,1)])) := by
  decide +kernel
-- rotate_island
example : edgePoints (buildNormal [⟨(), [ring [(2,1),(1,2),(1,1),(2,1)]], []⟩]) = .ok [pts [(1,1),(2,1),(1,2),(1,1)]] := by
  decide +kernel
-- rotate_rings
example : (buildNormal [⟨1, [ring [(3,2),(2,1),(4,1),(3,2)]], []⟩, ⟨2, [ring [(3,2),(4,1),(4,3),(1,3),(2,1),(3,2)]], []⟩]).map
    (fun t => (t.edges.map (·.points),
      t.regions.map (fun r => r.outerRings.map (fun o => o.directedEdges.map (·.edge))))) =
    .ok ([pts [(2,1),(4,1)], pts [(2,1),(3,2),(4,1)], pts [(2,1),(1,3),(4,3),(4,1)]], [[[0, 1]], [[1, 2]]]) := by
  decide +kernel
-- nix_redundant_edges
example : edgePoints (buildNormal [⟨(), [ring [(1,1),(2,1),(1,2),(1,1)], ring [(2,1),(2,2),(1,2),(2,1)],
      ring [(3,1),(4,1),(3,2),(3,1)]], []⟩]) =
    .ok [pts [(1,1),(2,1),(2,2),(1,2),(1,1)], pts [(3,1),(4,1),(3,2),(3,1)]] := by decide +kernel
-- order_rings
example : edgePoints (buildNormal [⟨(), [ring [(3,1),(4,1),(3,2),(3,1)], ring [(1,1),(2,1),(1,2),(1,1)]], []⟩]) =
    .ok [pts [(1,1),(2,1),(1,2),(1,1)], pts [(3,1),(4,1),(3,2),(3,1)]] := by decide +kernel
-- clockwise_outer_ring
example : (buildNormal [⟨(), [ring [(1,1),(1,2),(2,1),(1,1)]], []⟩]).map
    (fun t => (t.edges.map (·.points), t.regions.map (fun r => r.outerRings.map (fun o => o.directedEdges)))) =
    .ok ([pts [(1,1),(2,1),(1,2),(1,1)]], [[[⟨0, .forward⟩]]]) := by decide +kernel
-- counter_clockwise_inner_ring
example : (buildNormal [⟨(), [ring [(1,1),(4,1),(1,4),(1,1)]], [ring [(2,2),(3,2),(2,3),(2,2)]]⟩]).map
    (fun t => (t.edges.map (·.points), t.regions.map (fun r => (r.outerRings.map (fun o => o.directedEdges),
      r.innerRings.map (fun o => o.directedEdges))))) =
    .ok ([pts [(1,1),(4,1),(1,4),(1,1)], pts [(2,2),(3,2),(2,3),(2,2)]], [([[⟨0, .forward⟩]], [[⟨1, .backward⟩]])]) := by
  decide +kernel
-- nix_donut
example : edgePoints (buildNormal [⟨(), [ring [(1,1),(4,1),(1,4),(1,1)], ring [(2,2),(2,3),(3,2),(2,2)]],
      [ring [(2,2),(3,2),(2,3),(2,2)]]⟩]) = .ok [pts [(1,1),(4,1),(1,4),(1,1)]] := by decide +kernel

/-! src/simplify/simplify_edge.rs -/

example : simplifyEdge .debug (pts [(1,1),(2,2)]) 1 = .ok (pts [(1,1),(2,2)]) := by decide +kernel
example : simplifyEdge .debug (pts [(1,1),(1,10),(2,2)]) 9 = .ok (pts [(1,1),(2,2)]) := by decide +kernel
example : simplifyEdge .debug (pts [(1,1),(1,10),(2,2)]) 8 = .ok (pts [(1,1),(1,10),(2,2)]) := by decide +kernel
example : simplifyEdge .debug (pts [(1,1),(1,10),(2,1),(2,2)]) 8 = .ok (pts [(1,1),(1,10),(2,2)]) := by decide +kernel
example : simplifyEdge .debug (pts [(1,1),(2,1),(1,2),(1,1)]) 10 = .ok (pts [(1,1),(2,1),(1,2),(1,1)]) := by decide +kernel
example : simplifyEdge .debug (pts [(1,1),(3,1),(3,3),(1,3),(1,1)]) 3 = .ok (pts [(1,1),(3,1),(3,3),(1,3),(1,1)]) := by
  decide +kernel

-- `std::u64::MAX`
example : u64Max = 18446744073709551615 := rfl

end TopoGeo.UnitTests
