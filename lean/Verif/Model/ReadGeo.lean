import Verif.Model.F64
import Verif.Model.Geo
import Verif.Model.Shapefile
/-!
# Model of `src/read/shapefile/geo.rs`
-/

namespace TopoGeo

/-- `ShapefileQuantizer` (src/read/shapefile/geo.rs:7-13). -/
structure ShapefileQuantizer where
  x : F64
  y : F64
  w : F64
  h : F64
deriving DecidableEq, Repr

/-- `ShapefileQuantizer::new` (src/read/shapefile/geo.rs:16-23). -/
def ShapefileQuantizer.new (bbox : ShpBoundingBox) : ShapefileQuantizer where
  x := F64.ofBits bbox.b0
  y := F64.ofBits bbox.b3
  w := (F64.ofBits bbox.b2).sub (F64.ofBits bbox.b0)
  h := (F64.ofBits bbox.b1).sub (F64.ofBits bbox.b3)

/-- One coordinate of `quantize` (src/read/shapefile/geo.rs:27-28). -/
def quantizeCoord (p origin extent : F64) : UInt32 :=
  (((p.sub origin).div extent).mul F64.u32Max).asU32

/-- `ShapefileQuantizer::quantize` (src/read/shapefile/geo.rs:25-30). -/
def ShapefileQuantizer.quantize (q : ShapefileQuantizer) (p : ShpPoint) : Point :=
  ⟨quantizeCoord (F64.ofBits p.x) q.x q.w, quantizeCoord (F64.ofBits p.y) q.y q.h⟩

/-- `ShapefileGeoIterator` (src/read/shapefile/geo.rs:33-37). -/
structure ShapefileGeoIterator (σ τ : Type) where
  reader : ShapefileReader σ τ
  quantizer : ShapefileQuantizer

/-- `ShapefileGeoIterator::new` (src/read/shapefile/geo.rs:40-46). -/
def ShapefileGeoIterator.new {σ τ : Type} (r : ShapefileReader σ τ) : ShapefileGeoIterator σ τ :=
  ⟨r, ShapefileQuantizer.new r.boundingBox⟩

/-- `shp_polygon_ring_to_ring` (src/read/shapefile/geo.rs:48-51). -/
def shpPolygonRingToRing (q : ShapefileQuantizer) (ring : ShpPolygonRing) : Ring :=
  .points (ring.map q.quantize)

/-- `partition` by winding order (src/read/shapefile/geo.rs:63-65). -/
def partitionRings (m : Build) (q : ShapefileQuantizer) (outer inner : List Ring) :
    List ShpPolygonRing → R (List Ring × List Ring)
  | [] => .ok (outer, inner)
  | r :: rest => do
    let ring := shpPolygonRingToRing q r
    let o ← ring.windingOrder m
    if o = .clockwise then partitionRings m q (outer ++ [ring]) inner rest
    else partitionRings m q outer (inner ++ [ring]) rest

/-- `<ShapefileGeoIterator as Iterator>::next` (src/read/shapefile/geo.rs:57-73). -/
def ShapefileGeoIterator.next {σ τ : Type} [Source σ] [Source τ] (m : Build)
    (it : ShapefileGeoIterator σ τ) :
    R (Option (Except ShapefileError (Region DbfRecord)) × ShapefileGeoIterator σ τ) := do
  let (res, reader') ← it.reader.next
  let it' : ShapefileGeoIterator σ τ := { it with reader := reader' }
  match res with
  | none => .ok (none, it')
  | some (.error e) => .ok (some (.error e), it')
  | some (.ok record) => do
    let (outer, inner) ← partitionRings m it.quantizer [] [] record.rings
    .ok (some (.ok ⟨record.data, outer, inner⟩), it')

end TopoGeo
