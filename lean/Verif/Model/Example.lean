import Verif.Model.Clip
import Verif.Model.Display
import Verif.Model.Normalize
import Verif.Model.Open
/-!
# Model of the programs in `examples/`

Command line arguments are parsed already; what the programs print is returned.
`open_windows1252` is `shapefileOpen` with a decoder of the `encoding` crate,
which is a parameter.
-/

namespace TopoGeo

/-- What `print_topology_description` prints (examples/shp-to-geo-data.rs:12-41). -/
structure TopologyDescription where
  regions : Nat
  outerRings : Nat
  innerRings : Nat
  edges : Nat
  sharedEdges : Nat
  loneEdges : Nat
  points : Nat
deriving DecidableEq, Repr

/-- The loop over regions (examples/shp-to-geo-data.rs:16-19). -/
def countRings {δ : Type} : Nat → Nat → List (TopoRegion δ) → Nat × Nat
  | outer, inner, [] => (outer, inner)
  | outer, inner, r :: rest => countRings (outer + r.outerRings.length) (inner + r.innerRings.length) rest

/-- The loop over edges (examples/shp-to-geo-data.rs:25-32). -/
def countEdges : Nat → Nat → Nat → List TopoEdge → Nat × Nat × Nat
  | shared, lone, points, [] => (shared, lone, points)
  | shared, lone, points, e :: rest =>
    if e.ring1 = none then countEdges shared (lone + 1) (points + e.points.length) rest
    else countEdges (shared + 1) lone (points + e.points.length) rest

/-- `print_topology_description` (examples/shp-to-geo-data.rs:12-41). -/
def describe {δ : Type} (t : Topology δ) : TopologyDescription :=
  let (outer, inner) := countRings 0 0 t.regions
  let (shared, lone, points) := countEdges 0 0 0 t.edges
  ⟨t.regions.length, outer, inner, t.edges.length, shared, lone, points⟩

/-- The loop over regions in `main` (examples/shp-to-geo-data.rs:67-78). It stops
with exit code 1 at an error. The loop is cut off after `fuel` steps; C68 shows
how many are enough. -/
def readRegions {σ τ : Type} [Source σ] [Source τ] (m : Build) :
    Nat → ShapefileGeoIterator σ τ → TopologyBuilder DbfRecord → Nat →
      R (Except ShapefileError (TopologyBuilder DbfRecord × Nat))
  | 0, _, _, _ => .error .fuel
  | fuel + 1, it, b, n => do
    let (o, it') ← it.next m
    match o with
    | none => .ok (.ok (b, n))
    | some (.error e) => .ok (.error e)
    | some (.ok region) => do
      let b' ← b.addRegion m region
      readRegions m fuel it' b' (n + 1)

/-- `main` (examples/shp-to-geo-data.rs:45-94), after the arguments: the number of
regions read, and the descriptions of the initial, the normalized and the clipped
topology. -/
def shpToGeoData {σ : Type} [Source σ] (m : Build) (fuel : Nat) (fs : FileSystem σ) (path : Path) (enc : Encoding) :
    R (Except ShapefileError (Nat × TopologyDescription × TopologyDescription × TopologyDescription)) := do
  match ← shapefileOpen m fs path enc with
  | .error e => .ok (.error e)
  | .ok reader =>
    match ← readRegions m fuel (ShapefileGeoIterator.new reader) TopologyBuilder.new 0 with
    | .error e => .ok (.error e)
    | .ok (b, n) => do
      let t ← b.intoTopology
      let normalized ← normalize m t
      let clipped ← clipTopology m normalized (.minX 2147483648)
      .ok (.ok (n, describe t, describe normalized, describe clipped))

/-- The loop in `main` (examples/cat-shp.rs:29-40): the lines printed to the
standard output, and the error or the number of records. -/
def catRecords {σ τ : Type} [Source σ] [Source τ] (showF64 : UInt64 → Text) (debugError : DbfError → Text) :
    Nat → ShapefileReader σ τ → List Text → Nat → R (List Text × Except ShapefileError Nat)
  | 0, _, _, _ => .error .fuel
  | fuel + 1, r, lines, n => do
    let (o, r') ← r.next
    match o with
    | none => .ok (lines ++ ["Read ".toList ++ showNat n ++ " records".toList], .ok n)
    | some (.error e) => .ok (lines, .error e)
    | some (.ok record) => do
      let line ← record.show showF64 debugError
      catRecords showF64 debugError fuel r' (lines ++ [line]) (n + 1)

/-- `main` (examples/cat-shp.rs:10-45), after the arguments. -/
def catShp {σ : Type} [Source σ] (m : Build) (showF64 : UInt64 → Text) (debugError : DbfError → Text) (fuel : Nat)
    (fs : FileSystem σ) (path : Path) (enc : Encoding) : R (List Text × Except ShapefileError Nat) := do
  match ← shapefileOpen m fs path enc with
  | .error e => .ok ([], .error e)
  | .ok reader => catRecords showF64 debugError fuel reader [] 0

end TopoGeo
