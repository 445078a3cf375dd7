import Verif.Model.Io
/-!
# Model of `src/read/shapefile/shp.rs`

`usize` is 64 bits wide, so the sizes computed from `u32` fields do not
overflow. An `f64` is represented by its bits. Error texts are replaced by one
constructor per cause, carrying the numbers that the text mentions.
-/

namespace TopoGeo

/-- Causes of `ShpError::ParseError` in shp.rs, with the numbers the texts show. -/
inductive ShpParseError where
  | wrongMagic (found : Nat)                                        -- :154
  | wrongVersion (found : Nat)                                      -- :158
  | unsupportedType (found : Nat)                                   -- :170
  | nonexistentType (found : Nat)                                   -- :173
  | recordShapeType (record found : Nat)                            -- :190
  | noParts (record : Nat)                                          -- :195
  | wrongLength (record needed parts points length : Nat)           -- :202
  | partOutOfRange (record start finish points : Nat)               -- :220
  | partInvalidRange (record start finish : Nat)                    -- :224
  | lastPart (record start points : Nat)                            -- :234
  | fileTooLong (length : Nat)                                      -- :328
deriving DecidableEq, Repr

/-- `ShpError` (src/read/shapefile/shp.rs:17-21). -/
inductive ShpError where
  | io (e : IoError)
  | parse (e : ShpParseError)
deriving DecidableEq, Repr

/-- `ShpShapeType::with_u32(u).is_some()` (src/read/shapefile/shp.rs:66-86). -/
def isShapeType (u : Nat) : Bool :=
  [0, 1, 3, 5, 8, 11, 13, 15, 18, 21, 23, 25, 28, 31].contains u

/-- `ShpBoundingBox` (src/read/shapefile/shp.rs:88-89). -/
structure ShpBoundingBox where
  b0 : UInt64
  b1 : UInt64
  b2 : UInt64
  b3 : UInt64
deriving DecidableEq, Repr

/-- `ShpHeader` (src/read/shapefile/shp.rs:91-96); `shape_type` is always
`Polygon` and is left out. -/
structure ShpHeader where
  fileNBytes : Nat
  boundingBox : ShpBoundingBox
deriving DecidableEq, Repr

/-- `ShpPoint` (src/read/shapefile/shp.rs:120-121). -/
structure ShpPoint where
  x : UInt64
  y : UInt64
deriving DecidableEq, Repr

/-- `ShpPolygonRing` (src/read/shapefile/shp.rs:104-105). -/
abbrev ShpPolygonRing := List ShpPoint

/-- `ShpPolygonRecord` (src/read/shapefile/shp.rs:98-102). -/
structure ShpPolygonRecord where
  recordNumber : Nat
  rings : List ShpPolygonRing
deriving DecidableEq, Repr

/-- `LittleEndian::read_f64(&buf[a..b])`. -/
def f64At (buf : Bytes) (a b : Nat) : R UInt64 := do
  let s ← slice buf a b
  readF64 s

/-- `LittleEndian::read_u32(&buf[a..b])`. -/
def u32leAt (buf : Bytes) (a b : Nat) : R Nat := do
  let s ← slice buf a b
  readLE 4 s

/-- `BigEndian::read_u32(&buf[a..b])`. -/
def u32beAt (buf : Bytes) (a b : Nat) : R Nat := do
  let s ← slice buf a b
  readBE 4 s

/-- `read_shp_header` after the bytes were read (src/read/shapefile/shp.rs:142-175). -/
def parseShpHeader (m : Build) (buf : Bytes) : R (Except ShpError ShpHeader) := do
  let magic ← u32beAt buf 0 4
  let fileLen ← u32beAt buf 24 28
  let version ← u32leAt buf 28 32
  let shapeType ← u32leAt buf 32 36
  let b0 ← f64At buf 36 44
  let b1 ← f64At buf 44 52
  let b2 ← f64At buf 52 60
  let b3 ← f64At buf 60 68
  if magic ≠ 9994 then .ok (.error (.parse (.wrongMagic magic)))
  else if version ≠ 1000 then .ok (.error (.parse (.wrongVersion version)))
  else if isShapeType shapeType then
    if shapeType = 5 then do
      let n ← m.u32 (fileLen * 2)
      .ok (.ok ⟨n, ⟨b0, b1, b2, b3⟩⟩)
    else .ok (.error (.parse (.unsupportedType shapeType)))
  else .ok (.error (.parse (.nonexistentType shapeType)))

/-- `read_shp_header` (src/read/shapefile/shp.rs:136-178). -/
def readShpHeader {σ : Type} [Source σ] (m : Build) (file : σ) : R (Except ShpError ShpHeader × σ) :=
  match Source.readExact file 100 with
  | (.error e, file') => .ok (.error (.io e), file')
  | (.ok buf, file') => do
    let r ← parseShpHeader m buf
    .ok (r, file')

/-- `parse_point` (src/read/shapefile/shp.rs:180-185). -/
def parsePoint (buf : Bytes) : R ShpPoint := do
  let x ← f64At buf 0 8
  let y ← f64At buf 8 16
  .ok ⟨x, y⟩

/-- The loop over points (src/read/shapefile/shp.rs:206-211). -/
def parsePoints : List Bytes → R (List ShpPoint)
  | [] => .ok []
  | c :: rest => do
    let p ← parsePoint c
    let ps ← parsePoints rest
    .ok (p :: ps)

/-- The loop over part offsets (src/read/shapefile/shp.rs:213-215). -/
def parseParts : List Bytes → R (List Nat)
  | [] => .ok []
  | c :: rest => do
    let p ← readLE 4 c
    let ps ← parseParts rest
    .ok (p :: ps)

/-- The loop over pairs of part offsets (src/read/shapefile/shp.rs:218-230). -/
def cutRings (recordNumber : Nat) (points : List ShpPoint) (rings : List ShpPolygonRing) :
    List (Nat × Nat) → R (Except ShpError (List ShpPolygonRing))
  | [] => .ok (.ok rings)
  | (a, b) :: rest =>
    if a > points.length ∨ b > points.length then
      .ok (.error (.parse (.partOutOfRange recordNumber a b points.length)))
    else if a + 3 > b then .ok (.error (.parse (.partInvalidRange recordNumber a b)))
    else do
      let ring ← slice points a b
      cutRings recordNumber points (rings ++ [ring]) rest

/-- `parse_polygon_record` (src/read/shapefile/shp.rs:187-244). -/
def parsePolygonRecord (buf : Bytes) (recordNumber : Nat) : R (Except ShpError ShpPolygonRecord) := do
  let shapeType ← u32leAt buf 0 4
  if shapeType ≠ 5 then .ok (.error (.parse (.recordShapeType recordNumber shapeType)))
  else do
    let numParts ← u32leAt buf 36 40
    if numParts = 0 then .ok (.error (.parse (.noParts recordNumber)))
    else do
      let numPoints ← u32leAt buf 40 44
      if 44 + 4 * numParts + 16 * numPoints ≠ buf.length then
        .ok (.error (.parse (.wrongLength recordNumber (44 + 4 * numParts + 16 * numPoints) numParts numPoints buf.length)))
      else do
        let pointBytes ← sliceFrom buf (44 + 4 * numParts)
        let points ← parsePoints (chunks 16 pointBytes)
        let partBytes ← slice buf 44 (44 + 4 * numParts)
        let parts ← parseParts (chunks 4 partBytes)
        let r ← cutRings recordNumber points [] (tupleWindows parts)
        match r with
        | .error e => .ok (.error e)
        | .ok rings =>
          match parts.getLast? with
          | none => .error .explicit
          | some lastPart =>
            if lastPart + 3 ≥ points.length then
              .ok (.error (.parse (.lastPart recordNumber lastPart numPoints)))
            else do
              let lastRing ← slice points lastPart numPoints
              .ok (.ok ⟨recordNumber, rings ++ [lastRing]⟩)

/-- `read_polygon_record` (src/read/shapefile/shp.rs:250-266). -/
def readPolygonRecord {σ : Type} [Source σ] (file : σ) :
    R (Except ShpError (ShpPolygonRecord × Nat) × σ) :=
  match Source.readExact file 8 with
  | (.error e, file1) => .ok (.error (.io e), file1)
  | (.ok headerBuf, file1) => do
    let recordNumber ← u32beAt headerBuf 0 4
    let contentLength ← u32beAt headerBuf 4 8
    match Source.readExact file1 (contentLength * 2) with
    | (.error e, file2) => .ok (.error (.io e), file2)
    | (.ok buf, file2) => do
      let r ← parsePolygonRecord buf recordNumber
      match r with
      | .error e => .ok (.error e, file2)
      | .ok record => .ok (.ok (record, headerBuf.length + buf.length), file2)

/-- `ShpReader` (src/read/shapefile/shp.rs:268-273). -/
structure ShpReader (σ : Type) where
  file : σ
  nBytesAlreadyRead : Nat
  header : ShpHeader
deriving DecidableEq, Repr

/-- `ShpReader::new` (src/read/shapefile/shp.rs:305-313). -/
def ShpReader.new {σ : Type} [Source σ] (m : Build) (file : σ) :
    R (Except ShpError (ShpReader σ)) := do
  let (r, file') ← readShpHeader m file
  match r with
  | .error e => .ok (.error e)
  | .ok header => .ok (.ok ⟨file', 100, header⟩)

/-- `<ShpReader as Iterator>::next` (src/read/shapefile/shp.rs:319-335). -/
def ShpReader.next {σ : Type} [Source σ] (r : ShpReader σ) :
    R (Option (Except ShpError ShpPolygonRecord) × ShpReader σ) :=
  if r.nBytesAlreadyRead ≥ r.header.fileNBytes then .ok (none, r)
  else do
    let (res, file') ← readPolygonRecord r.file
    match res with
    | .error e => .ok (some (.error e), { r with file := file' })
    | .ok (record, nBytes) =>
      let r' : ShpReader σ :=
        { r with file := file', nBytesAlreadyRead := r.nBytesAlreadyRead + nBytes }
      if r'.nBytesAlreadyRead > r'.header.fileNBytes then
        .ok (some (.error (.parse (.fileTooLong r.header.fileNBytes))), r')
      else .ok (some (.ok record), r')

end TopoGeo
