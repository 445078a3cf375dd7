import Verif.Model.Dbf
import Verif.Model.Shp
/-!
# Model of `src/read/shapefile/shapefile.rs`
-/

namespace TopoGeo

/-- `ShapefileError` (src/read/shapefile/shapefile.rs:75-80); the two texts of
`JoinError` are two constructors. -/
inductive ShapefileError where
  | shp (e : ShpError)
  | dbf (e : DbfError)
  | shpHasMore -- :168
  | dbfHasMore -- :169
deriving DecidableEq, Repr

/-- `ShapefileReader` (src/read/shapefile/shapefile.rs:69-73). -/
structure ShapefileReader (σ τ : Type) where
  shpReader : ShpReader σ
  dbfReader : DbfReader τ

/-- `ShapefileRecord` (src/read/shapefile/shapefile.rs:110-114). -/
structure ShapefileRecord where
  rings : List ShpPolygonRing
  data : DbfRecord

/-- `ShapefileReader::new` (src/read/shapefile/shapefile.rs:133-146). Both
readers are opened before either result is looked at. -/
def ShapefileReader.new {σ τ : Type} [Source σ] [Source τ] (m : Build) (r : σ) (s : τ)
    (enc : Encoding) : R (Except ShapefileError (ShapefileReader σ τ)) := do
  let a ← ShpReader.new m r
  let b ← DbfReader.new m s enc
  .ok (match a, b with
    | .error e, _ => .error (.shp e)
    | _, .error e => .error (.dbf e)
    | .ok shpReader, .ok dbfReader => .ok ⟨shpReader, dbfReader⟩)

/-- The match in `next` (src/read/shapefile/shapefile.rs:165-182). -/
def joinResults (a : Option (Except ShpError ShpPolygonRecord))
    (b : Option (Except DbfError DbfRecord)) : Option (Except ShapefileError ShapefileRecord) :=
  match a, b with
  | none, none => none
  | some _, none => some (.error .shpHasMore)
  | none, some _ => some (.error .dbfHasMore)
  | some (.error e), some _ => some (.error (.shp e))
  | some (.ok _), some (.error e) => some (.error (.dbf e))
  | some (.ok shape), some (.ok data) => some (.ok ⟨shape.rings, data⟩)

/-- `<ShapefileReader as Iterator>::next` (src/read/shapefile/shapefile.rs:164-183). -/
def ShapefileReader.next {σ τ : Type} [Source σ] [Source τ] (r : ShapefileReader σ τ) :
    R (Option (Except ShapefileError ShapefileRecord) × ShapefileReader σ τ) := do
  let (a, shp') ← r.shpReader.next
  let (b, dbf') := r.dbfReader.next
  .ok (joinResults a b, ⟨shp', dbf'⟩)

/-- `dbf_fields` (src/read/shapefile/shapefile.rs:148-150). -/
def ShapefileReader.dbfFields {σ τ : Type} (r : ShapefileReader σ τ) : List DbfField :=
  r.dbfReader.dbfMeta.fields

/-- `bounding_box` (src/read/shapefile/shapefile.rs:152-154). -/
def ShapefileReader.boundingBox {σ τ : Type} (r : ShapefileReader σ τ) : ShpBoundingBox :=
  r.shpReader.header.boundingBox

/-- `get_field` (src/read/shapefile/shapefile.rs:156-158). -/
def ShapefileReader.getField {σ τ : Type} (r : ShapefileReader σ τ) (name : Text) : Option DbfField :=
  r.dbfReader.getField name

end TopoGeo
