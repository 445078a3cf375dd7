import Verif.Model.Shapefile
/-!
# The readers on a machine whose addresses have `w` bits

`Model/Shp.lean` and `Model/Dbf.lean` compute with `usize` as with natural
numbers. Here the same functions are transcribed a second time with every
operation on `usize` carried out in `w` bits and with the limit that the
standard library puts on the size of an allocation. `w` is 32 or 64, so that
`u32 as usize` and `u16 as usize` change nothing.
-/

namespace TopoGeo

/-- The `usize` result of an addition or a multiplication whose mathematical
value is `z`. -/
def Build.usize (m : Build) (w z : Nat) : R Nat :=
  if z < 2 ^ w then .ok z
  else match m with
    | .debug => .error .overflow
    | .release => .ok (z % 2 ^ w)

/-- The subtraction of `usize`s. -/
def Build.usizeSub (m : Build) (w a b : Nat) : R Nat :=
  if b ≤ a then .ok (a - b)
  else match m with
    | .debug => .error .overflow
    | .release => .ok (2 ^ w + a - b)

/-- Room for `n` values of `size` bytes, as `vec![x; n]`, `Vec::with_capacity(n)`
and `collect` ask for: more than `isize::MAX` bytes is a "capacity overflow".
(That the memory itself is exhausted is outside the model.) -/
def allocVec (w size n : Nat) : R Unit :=
  if size * n < 2 ^ (w - 1) then .ok () else .error .capacity

/-- The loop over pairs of part offsets (src/read/shapefile/shp.rs:218-230). -/
def wCutRings (m : Build) (w : Nat) (recordNumber : Nat) (points : List ShpPoint) (rings : List ShpPolygonRing) :
    List (Nat × Nat) → R (Except ShpError (List ShpPolygonRing))
  | [] => .ok (.ok rings)
  | (a, b) :: rest =>
    if a > points.length ∨ b > points.length then
      .ok (.error (.parse (.partOutOfRange recordNumber a b points.length)))
    else do
      let a3 ← m.usize w (a + 3)
      if a3 > b then .ok (.error (.parse (.partInvalidRange recordNumber a b)))
      else do
        let n ← m.usizeSub w b a
        let _ ← allocVec w 16 n
        let ring ← slice points a b
        wCutRings m w recordNumber points (rings ++ [ring]) rest

/-- `44 + 4 * num_parts` (src/read/shapefile/shp.rs:200, 207 and 214). -/
def wPartsEnd (m : Build) (w numParts : Nat) : R Nat := do
  let a ← m.usize w (4 * numParts)
  m.usize w (44 + a)

/-- `parse_polygon_record` (src/read/shapefile/shp.rs:187-244). A `ShpPoint` has
16 bytes, a `ShpPolygonRing` is a boxed slice: two words. -/
def wParsePolygonRecord (m : Build) (w : Nat) (buf : Bytes) (recordNumber : Nat) :
    R (Except ShpError ShpPolygonRecord) := do
  let shapeType ← u32leAt buf 0 4
  if shapeType ≠ 5 then .ok (.error (.parse (.recordShapeType recordNumber shapeType)))
  else do
    let numParts ← u32leAt buf 36 40
    if numParts = 0 then .ok (.error (.parse (.noParts recordNumber)))
    else do
      let numPoints ← u32leAt buf 40 44
      let start ← wPartsEnd m w numParts
      let size ← m.usize w (16 * numPoints)
      let needed ← m.usize w (start + size)
      if needed ≠ buf.length then
        .ok (.error (.parse (.wrongLength recordNumber needed numParts numPoints buf.length)))
      else do
        let _ ← allocVec w 16 numPoints
        let start2 ← wPartsEnd m w numParts
        let pointBytes ← sliceFrom buf start2
        let points ← parsePoints (chunks 16 pointBytes)
        let start3 ← wPartsEnd m w numParts
        let partBytes ← slice buf 44 start3
        let parts ← parseParts (chunks 4 partBytes)
        let _ ← allocVec w (w / 8) parts.length
        let _ ← allocVec w (2 * (w / 8)) numParts
        let r ← wCutRings m w recordNumber points [] (tupleWindows parts)
        match r with
        | .error e => .ok (.error e)
        | .ok rings =>
          match parts.getLast? with
          | none => .error .explicit
          | some lastPart => do
            let last3 ← m.usize w (lastPart + 3)
            if last3 ≥ points.length then
              .ok (.error (.parse (.lastPart recordNumber lastPart numPoints)))
            else do
              let n ← m.usizeSub w numPoints lastPart
              let _ ← allocVec w 16 n
              let lastRing ← slice points lastPart numPoints
              .ok (.ok ⟨recordNumber, rings ++ [lastRing]⟩)

/-- `read_polygon_record` (src/read/shapefile/shp.rs:250-266). -/
def wReadPolygonRecord {σ : Type} [Source σ] (m : Build) (w : Nat) (file : σ) :
    R (Except ShpError (ShpPolygonRecord × Nat) × σ) :=
  match Source.readExact file 8 with
  | (.error e, file1) => .ok (.error (.io e), file1)
  | (.ok headerBuf, file1) => do
    let recordNumber ← u32beAt headerBuf 0 4
    let contentLength ← u32beAt headerBuf 4 8
    let size ← m.usize w (contentLength * 2)
    let _ ← allocVec w 1 size
    match Source.readExact file1 size with
    | (.error e, file2) => .ok (.error (.io e), file2)
    | (.ok buf, file2) => do
      let r ← wParsePolygonRecord m w buf recordNumber
      match r with
      | .error e => .ok (.error e, file2)
      | .ok record => do
        let n ← m.usize w (headerBuf.length + buf.length)
        .ok (.ok (record, n), file2)

/-- `<ShpReader as Iterator>::next` (src/read/shapefile/shp.rs:319-335). -/
def ShpReader.wNext {σ : Type} [Source σ] (m : Build) (w : Nat) (r : ShpReader σ) :
    R (Option (Except ShpError ShpPolygonRecord) × ShpReader σ) :=
  if r.nBytesAlreadyRead ≥ r.header.fileNBytes then .ok (none, r)
  else do
    let (res, file') ← wReadPolygonRecord m w r.file
    match res with
    | .error e => .ok (some (.error e), { r with file := file' })
    | .ok (record, nBytes) => do
      let n ← m.usize w (r.nBytesAlreadyRead + nBytes)
      let r' : ShpReader σ := { r with file := file', nBytesAlreadyRead := n }
      if r'.nBytesAlreadyRead > r'.header.fileNBytes then
        .ok (some (.error (.parse (.fileTooLong r.header.fileNBytes))), r')
      else .ok (some (.ok record), r')

/-- The loop over chunks (src/read/shapefile/dbf.rs:245-257). -/
def wParseDbfFields (m : Build) (w : Nat) (enc : Encoding) (offset : Nat) (v : List DbfField) :
    List Bytes → R (Except DbfError (List DbfField))
  | [] => .ok (.ok v)
  | chunk :: rest =>
    if chunk.length ≠ 32 then .ok (.ok v)
    else do
      let r ← parseDbfField chunk enc offset
      match r with
      | .error e => .ok (.error e)
      | .ok next => do
        let offset' ← m.usize w (offset + next.len)
        wParseDbfFields m w enc offset' (v ++ [next]) rest

/-- `read_dbf_fields` (src/read/shapefile/dbf.rs:236-262). `fieldSize` is the
number of bytes of a `DbfField`. -/
def wReadDbfFields {σ : Type} [Source σ] (m : Build) (w fieldSize : Nat) (file : σ) (enc : Encoding) (h : DbfHeader) :
    R (Except DbfError (List DbfField) × σ) := do
  let size ← m.usizeSub w h.nHeaderBytes 32
  let _ ← allocVec w 1 size
  match Source.readExact file size with
  | (.error e, file') => .ok (.error (.io e), file')
  | (.ok buf, file') => do
    let _ ← allocVec w fieldSize (buf.length / 32)
    let r ← wParseDbfFields m w enc 1 [] (chunks 32 buf)
    .ok (r, file')

/-- `read_dbf_meta` (src/read/shapefile/dbf.rs:269-279). -/
def wReadDbfMeta {σ : Type} [Source σ] (m : Build) (w fieldSize : Nat) (file : σ) (enc : Encoding) :
    R (Except DbfError DbfMeta × σ) := do
  let (r, file1) ← readDbfHeader file
  match r with
  | .error e => .ok (.error e, file1)
  | .ok h => do
    let (r2, file2) ← wReadDbfFields m w fieldSize file1 enc h
    match r2 with
    | .error e => .ok (.error e, file2)
    | .ok fields => .ok (.ok ⟨h.nRecords, h.nBytesPerRecord, fields⟩, file2)

/-- `DbfReader::new` (src/read/shapefile/dbf.rs:403-411). -/
def DbfReader.wNew {σ : Type} [Source σ] (m : Build) (w fieldSize : Nat) (file : σ) (enc : Encoding) :
    R (Except DbfError (DbfReader σ)) := do
  let (r, file') ← wReadDbfMeta m w fieldSize file enc
  match r with
  | .error e => .ok (.error e)
  | .ok dbfMeta => .ok (.ok ⟨file', 0, dbfMeta⟩)

/-- `read_dbf_record` (src/read/shapefile/dbf.rs:288-300). -/
def wReadDbfRecord {σ : Type} [Source σ] (w : Nat) (file : σ) (dbfMeta : DbfMeta) : R (Except DbfError DbfRecord × σ) := do
  let _ ← allocVec w 1 dbfMeta.nBytesPerRecord
  match Source.readExact file dbfMeta.nBytesPerRecord with
  | (.error e, file') => .ok (.error (.io e), file')
  | (.ok buf, file') => .ok (.ok ⟨dbfMeta, buf⟩, file')

/-- `<DbfReader as Iterator>::next` (src/read/shapefile/dbf.rs:427-435). -/
def DbfReader.wNext {σ : Type} [Source σ] (m : Build) (w : Nat) (r : DbfReader σ) :
    R (Option (Except DbfError DbfRecord) × DbfReader σ) :=
  if r.nRecordsAlreadyIterated = r.dbfMeta.nRecords then .ok (none, r)
  else do
    let (ret, file') ← wReadDbfRecord w r.file r.dbfMeta
    let n ← m.usize w (r.nRecordsAlreadyIterated + 1)
    .ok (some ret, { r with file := file', nRecordsAlreadyIterated := n })

/-- `ShapefileReader::new` (src/read/shapefile/shapefile.rs:133-146). -/
def ShapefileReader.wNew {σ τ : Type} [Source σ] [Source τ] (m : Build) (w fieldSize : Nat) (r : σ) (s : τ)
    (enc : Encoding) : R (Except ShapefileError (ShapefileReader σ τ)) := do
  let a ← ShpReader.new m r
  let b ← DbfReader.wNew m w fieldSize s enc
  .ok (match a, b with
    | .error e, _ => .error (.shp e)
    | _, .error e => .error (.dbf e)
    | .ok shpReader, .ok dbfReader => .ok ⟨shpReader, dbfReader⟩)

/-- `<ShapefileReader as Iterator>::next` (src/read/shapefile/shapefile.rs:164-183). -/
def ShapefileReader.wNext {σ τ : Type} [Source σ] [Source τ] (m : Build) (w : Nat) (r : ShapefileReader σ τ) :
    R (Option (Except ShapefileError ShapefileRecord) × ShapefileReader σ τ) := do
  let (a, shp') ← r.shpReader.wNext m w
  let (b, dbf') ← r.dbfReader.wNext m w
  .ok (joinResults a b, ⟨shp', dbf'⟩)

end TopoGeo
