import Verif.Model.OperationsTime
import Verif.Model.Example
/-!
# Reading once more, counting rounds

The functions of Model/Shp.lean, Model/Dbf.lean, Model/Shapefile.lean,
Model/ReadGeo.lean and the program in Model/Example.lean line by line, with
rounds as in Model/OperationsTime.lean. In addition:

* `vec![ 0u8; n ]` takes a round per byte, and `read_exact` into it one more per
  byte; what the operating system does on top of that, and waiting for it, are
  not counted;
* decoding text takes a round per byte (the `encoding` crate goes through it
  once);
* numbers at fixed places of a header take no rounds;
* cloning a `DbfRecord` takes a round per byte.

Whatever is allocated is also filled, a round per element, so that the bytes of
memory that are allocated are at most the size of an element times the rounds.

That these functions compute what the others do is `C112_same`.
-/

namespace TopoGeo

open Timed

/-- `vec![ 0u8; n ]` and `file.read_exact(&mut buf)`. -/
def readExactT {σ : Type} [Source σ] (file : σ) (n : Nat) : Timed (Except IoError Bytes × σ) := do
  ticks (2 * n + 1)
  pure (Source.readExact file n)

/-! ## src/read/shapefile/shp.rs -/

/-- `read_shp_header` (src/read/shapefile/shp.rs:136-178). -/
def readShpHeaderT {σ : Type} [Source σ] (m : Build) (file : σ) : Timed (Except ShpError ShpHeader × σ) := do
  match ← readExactT file 100 with
  | (.error e, file') => pure (.error (.io e), file')
  | (.ok buf, file') => do
    let r ← lift (parseShpHeader m buf)
    pure (r, file')

/-- `ShpReader::new` (src/read/shapefile/shp.rs:305-313). -/
def ShpReader.newT {σ : Type} [Source σ] (m : Build) (file : σ) : Timed (Except ShpError (ShpReader σ)) := do
  match ← readShpHeaderT m file with
  | (.error e, _) => pure (.error e)
  | (.ok header, file') => pure (.ok ⟨file', 100, header⟩)

/-- The loop over pairs of part offsets (src/read/shapefile/shp.rs:218-230): `vec!`
and `copy_from_slice` take a round per point each. -/
def cutRingsT (recordNumber : Nat) (points : List ShpPoint) (rings : List ShpPolygonRing) :
    List (Nat × Nat) → Timed (Except ShpError (List ShpPolygonRing))
  | [] => pure (.ok rings)
  | (a, b) :: rest => do
    tick
    if a > points.length ∨ b > points.length then
      pure (.error (.parse (.partOutOfRange recordNumber a b points.length)))
    else if a + 3 > b then pure (.error (.parse (.partInvalidRange recordNumber a b)))
    else do
      ticks (2 * (b - a))
      let ring ← lift (slice points a b)
      cutRingsT recordNumber points (rings ++ [ring]) rest

/-- The end of `parse_polygon_record` (src/read/shapefile/shp.rs:232-244). -/
def lastRingT (recordNumber numPoints : Nat) (points : List ShpPoint) (parts : List Nat) (rings : List ShpPolygonRing) :
    Timed (Except ShpError ShpPolygonRecord) :=
  match parts.getLast? with
  | none => lift (.error .explicit)
  | some lastPart =>
    if lastPart + 3 ≥ points.length then pure (.error (.parse (.lastPart recordNumber lastPart numPoints)))
    else do
      ticks (2 * (numPoints - lastPart))
      let lastRing ← lift (slice points lastPart numPoints)
      pure (.ok ⟨recordNumber, rings ++ [lastRing]⟩)

/-- `parse_polygon_record` from the loop over points on
(src/read/shapefile/shp.rs:205-244). -/
def parseRingsT (buf : Bytes) (recordNumber numParts numPoints : Nat) : Timed (Except ShpError ShpPolygonRecord) := do
  let pointBytes ← lift (sliceFrom buf (44 + 4 * numParts))
  ticks (chunks 16 pointBytes).length
  let points ← lift (parsePoints (chunks 16 pointBytes))
  let partBytes ← lift (slice buf 44 (44 + 4 * numParts))
  ticks (chunks 4 partBytes).length
  let parts ← lift (parseParts (chunks 4 partBytes))
  match ← cutRingsT recordNumber points [] (tupleWindows parts) with
  | .error e => pure (.error e)
  | .ok rings => lastRingT recordNumber numPoints points parts rings

/-- `parse_polygon_record` (src/read/shapefile/shp.rs:187-244). -/
def parsePolygonRecordT (buf : Bytes) (recordNumber : Nat) : Timed (Except ShpError ShpPolygonRecord) := do
  let shapeType ← lift (u32leAt buf 0 4)
  if shapeType ≠ 5 then pure (.error (.parse (.recordShapeType recordNumber shapeType)))
  else do
    let numParts ← lift (u32leAt buf 36 40)
    if numParts = 0 then pure (.error (.parse (.noParts recordNumber)))
    else do
      let numPoints ← lift (u32leAt buf 40 44)
      if 44 + 4 * numParts + 16 * numPoints ≠ buf.length then
        pure (.error (.parse (.wrongLength recordNumber (44 + 4 * numParts + 16 * numPoints) numParts numPoints buf.length)))
      else parseRingsT buf recordNumber numParts numPoints

/-- `read_polygon_record` (src/read/shapefile/shp.rs:250-266). -/
def readPolygonRecordT {σ : Type} [Source σ] (file : σ) : Timed (Except ShpError (ShpPolygonRecord × Nat) × σ) := do
  match ← readExactT file 8 with
  | (.error e, file1) => pure (.error (.io e), file1)
  | (.ok headerBuf, file1) => do
    let recordNumber ← lift (u32beAt headerBuf 0 4)
    let contentLength ← lift (u32beAt headerBuf 4 8)
    match ← readExactT file1 (contentLength * 2) with
    | (.error e, file2) => pure (.error (.io e), file2)
    | (.ok buf, file2) => do
      match ← parsePolygonRecordT buf recordNumber with
      | .error e => pure (.error e, file2)
      | .ok record => pure (.ok (record, headerBuf.length + buf.length), file2)

/-- `<ShpReader as Iterator>::next` (src/read/shapefile/shp.rs:319-335). -/
def ShpReader.nextT {σ : Type} [Source σ] (r : ShpReader σ) :
    Timed (Option (Except ShpError ShpPolygonRecord) × ShpReader σ) :=
  if r.nBytesAlreadyRead ≥ r.header.fileNBytes then pure (none, r)
  else do
    match ← readPolygonRecordT r.file with
    | (.error e, file') => pure (some (.error e), { r with file := file' })
    | (.ok (record, nBytes), file') =>
      let r' : ShpReader σ :=
        { r with file := file', nBytesAlreadyRead := r.nBytesAlreadyRead + nBytes }
      if r'.nBytesAlreadyRead > r'.header.fileNBytes then
        pure (some (.error (.parse (.fileTooLong r.header.fileNBytes))), r')
      else pure (some (.ok record), r')

/-! ## src/read/shapefile/dbf.rs -/

/-- `read_dbf_header` (src/read/shapefile/dbf.rs:190-213). -/
def readDbfHeaderT {σ : Type} [Source σ] (file : σ) : Timed (Except DbfError DbfHeader × σ) := do
  ticks (2 * 32 + 1)
  lift (readDbfHeader file)

/-- The loop over chunks (src/read/shapefile/dbf.rs:245-257). In each round
`parse_dbf_field` looks for the end of the name and decodes it: 11 bytes. -/
def parseDbfFieldsT (enc : Encoding) (offset : Nat) (v : List DbfField) :
    List Bytes → Timed (Except DbfError (List DbfField))
  | [] => pure (.ok v)
  | chunk :: rest => do
    tick
    if chunk.length ≠ 32 then pure (.ok v)
    else do
      ticks (2 * 11)
      match ← lift (parseDbfField chunk enc offset) with
      | .error e => pure (.error e)
      | .ok next => parseDbfFieldsT enc (offset + next.len) (v ++ [next]) rest

/-- `read_dbf_fields` (src/read/shapefile/dbf.rs:236-262). -/
def readDbfFieldsT {σ : Type} [Source σ] (m : Build) (file : σ) (enc : Encoding) (h : DbfHeader) :
    Timed (Except DbfError (List DbfField) × σ) :=
  if h.nHeaderBytes < 32 then
    lift (.error (match m with | .debug => .overflow | .release => .capacity))
  else do
    match ← readExactT file (h.nHeaderBytes - 32) with
    | (.error e, file') => pure (.error (.io e), file')
    | (.ok buf, file') => do
      let r ← parseDbfFieldsT enc 1 [] (chunks 32 buf)
      pure (r, file')

/-- `read_dbf_meta` (src/read/shapefile/dbf.rs:269-279). -/
def readDbfMetaT {σ : Type} [Source σ] (m : Build) (file : σ) (enc : Encoding) :
    Timed (Except DbfError DbfMeta × σ) := do
  match ← readDbfHeaderT file with
  | (.error e, file1) => pure (.error e, file1)
  | (.ok h, file1) => do
    match ← readDbfFieldsT m file1 enc h with
    | (.error e, file2) => pure (.error e, file2)
    | (.ok fields, file2) => pure (.ok ⟨h.nRecords, h.nBytesPerRecord, fields⟩, file2)

/-- `DbfReader::new` (src/read/shapefile/dbf.rs:403-411). -/
def DbfReader.newT {σ : Type} [Source σ] (m : Build) (file : σ) (enc : Encoding) :
    Timed (Except DbfError (DbfReader σ)) := do
  match ← readDbfMetaT m file enc with
  | (.error e, _) => pure (.error e)
  | (.ok dbfMeta, file') => pure (.ok ⟨file', 0, dbfMeta⟩)

/-- `<DbfReader as Iterator>::next` (src/read/shapefile/dbf.rs:427-435), with
`read_dbf_record` (:288-300). -/
def DbfReader.nextT {σ : Type} [Source σ] (r : DbfReader σ) : Timed (Option (Except DbfError DbfRecord) × DbfReader σ) :=
  if r.nRecordsAlreadyIterated = r.dbfMeta.nRecords then pure (none, r)
  else do
    ticks (2 * r.dbfMeta.nBytesPerRecord + 1)
    let (ret, file') := readDbfRecord r.file r.dbfMeta
    pure (some ret, { r with file := file', nRecordsAlreadyIterated := r.nRecordsAlreadyIterated + 1 })

/-! ## src/read/shapefile/shapefile.rs and geo.rs -/

/-- `shapefile::open` (src/read/shapefile/shapefile.rs:211-230). -/
def shapefileOpenT {σ : Type} [Source σ] (m : Build) (fs : FileSystem σ) (shpPath : Path) (enc : Encoding) :
    Timed (Except ShapefileError (ShapefileReader σ σ)) :=
  match fs shpPath with
  | .error e => pure (.error (.shp (.io e)))
  | .ok f => do
    match ← ShpReader.newT m f with
    | .error err => pure (.error (.shp err))
    | .ok shpReader =>
      match fs (setExtension shpPath "dbf".toList) with
      | .error e => pure (.error (.dbf (.io e)))
      | .ok g => do
        match ← DbfReader.newT m g enc with
        | .error err => pure (.error (.dbf err))
        | .ok dbfReader => pure (.ok ⟨shpReader, dbfReader⟩)

/-- `<ShapefileReader as Iterator>::next` (src/read/shapefile/shapefile.rs:164-183). -/
def ShapefileReader.nextT {σ τ : Type} [Source σ] [Source τ] (r : ShapefileReader σ τ) :
    Timed (Option (Except ShapefileError ShapefileRecord) × ShapefileReader σ τ) := do
  let a ← r.shpReader.nextT
  let b ← r.dbfReader.nextT
  pure (joinResults a.1 b.1, ⟨a.2, b.2⟩)

/-- `partition` by winding order (src/read/shapefile/geo.rs:63-65): a round per
point to quantize it, and one for the area. -/
def partitionRingsT (m : Build) (q : ShapefileQuantizer) (outer inner : List Ring) :
    List ShpPolygonRing → Timed (List Ring × List Ring)
  | [] => pure (outer, inner)
  | r :: rest => do
    tick
    ticks (2 * r.length)
    let ring := shpPolygonRingToRing q r
    let o ← lift (ring.windingOrder m)
    if o = .clockwise then partitionRingsT m q (outer ++ [ring]) inner rest
    else partitionRingsT m q outer (inner ++ [ring]) rest

/-- `<ShapefileGeoIterator as Iterator>::next` (src/read/shapefile/geo.rs:57-73). -/
def ShapefileGeoIterator.nextT {σ τ : Type} [Source σ] [Source τ] (m : Build) (it : ShapefileGeoIterator σ τ) :
    Timed (Option (Except ShapefileError (Region DbfRecord)) × ShapefileGeoIterator σ τ) := do
  match ← it.reader.nextT with
  | (none, reader') => pure (none, { it with reader := reader' })
  | (some (.error e), reader') => pure (some (.error e), { it with reader := reader' })
  | (some (.ok record), reader') => do
    let rings ← partitionRingsT m it.quantizer [] [] record.rings
    pure (some (.ok ⟨record.data, rings.1, rings.2⟩), { it with reader := reader' })

/-! ## examples/shp-to-geo-data.rs -/

/-- The loop over regions in `main` (examples/shp-to-geo-data.rs:67-78). -/
def readRegionsT {σ τ : Type} [Source σ] [Source τ] (m : Build) :
    Nat → ShapefileGeoIterator σ τ → TopologyBuilder DbfRecord → Nat →
      Timed (Except ShapefileError (TopologyBuilder DbfRecord × Nat))
  | 0, _, _, _ => lift (.error .fuel)
  | fuel + 1, it, b, n => do
    tick
    match ← it.nextT m with
    | (none, _) => pure (.ok (b, n))
    | (some (.error e), _) => pure (.error e)
    | (some (.ok region), it') => do
      let b' ← b.addRegionT m region
      readRegionsT m fuel it' b' (n + 1)

/-- `print_topology_description` (examples/shp-to-geo-data.rs:12-41). -/
def describeT {δ : Type} (t : Topology δ) : Timed TopologyDescription := do
  ticks (t.regions.length + t.edges.length)
  pure (describe t)

/-- The bytes of attributes in a topology, which are cloned with it. -/
def attributeBytes (t : Topology DbfRecord) : Nat := (t.regions.map fun r => r.data.bytes.length).sum

/-- The end of `main` (examples/shp-to-geo-data.rs:80-94). -/
def treatTopologyT (m : Build) (b : TopologyBuilder DbfRecord) (n : Nat) :
    Timed (Nat × TopologyDescription × TopologyDescription × TopologyDescription) := do
  let t ← b.intoTopologyT
  let d1 ← describeT t
  ticks (attributeBytes t)
  let normalized ← normalizeT m t
  let d2 ← describeT normalized
  ticks (attributeBytes normalized)
  let clipped ← clipTopologyT m normalized (.minX 2147483648)
  let d3 ← describeT clipped
  pure (n, d1, d2, d3)

/-- `main` (examples/shp-to-geo-data.rs:45-94), after the arguments. -/
def shpToGeoDataT {σ : Type} [Source σ] (m : Build) (fuel : Nat) (fs : FileSystem σ) (path : Path) (enc : Encoding) :
    Timed (Except ShapefileError (Nat × TopologyDescription × TopologyDescription × TopologyDescription)) := do
  match ← shapefileOpenT m fs path enc with
  | .error e => pure (.error e)
  | .ok reader =>
    match ← readRegionsT m fuel (ShapefileGeoIterator.new reader) TopologyBuilder.new 0 with
    | .error e => pure (.error e)
    | .ok (b, n) => do
      let out ← treatTopologyT m b n
      pure (.ok out)

end TopoGeo
