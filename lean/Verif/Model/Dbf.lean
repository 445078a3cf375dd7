import Verif.Model.Io
/-!
# Model of `src/read/shapefile/dbf.rs`

`usize` is 64 bits wide. Error texts are replaced by one constructor per cause.
-/

namespace TopoGeo

/-- `encoding::EncodingRef`, from the `encoding` crate: strict decoding is an
arbitrary function. -/
structure Encoding where
  name : Text
  decode : Bytes → Except Text Text

/-- `encoding::all::ASCII` under `DecoderTrap::Strict`. -/
def Encoding.ascii : Encoding where
  name := "ascii".toList
  decode bs :=
    if bs.all (fun b => b < 128) then .ok (bs.map (fun b => Char.ofNat b.toNat))
    else .error "invalid sequence".toList

/-- `DbfType` (src/read/shapefile/dbf.rs:14-25). -/
inductive DbfType where
  | character (enc : Encoding)
  | numeric | logical | date | floatingPoint | timestamp | double | long | unsupported

/-- `DbfType::with_code` (src/read/shapefile/dbf.rs:48-62). -/
def DbfType.withCode (u : UInt8) (enc : Encoding) : DbfType :=
  match u.toNat with
  | 67 => .character enc   -- 'C'
  | 78 => .numeric         -- 'N'
  | 76 => .logical         -- 'L'
  | 68 => .date            -- 'D'
  | 70 => .floatingPoint   -- 'F'
  | 64 => .timestamp       -- '@'
  | 79 => .double          -- 'O'
  | 43 => .long            -- '+'
  | 124 => .long           -- '|'
  | _ => .unsupported

/-- `DbfField` (src/read/shapefile/dbf.rs:64-70). -/
structure DbfField where
  name : Text
  dataType : DbfType
  offset : Nat
  len : Nat

/-- Causes of `DbfError::ParseError` in dbf.rs. -/
inductive DbfParseError where
  | notANumber          -- :82
  | decode (msg : Text) -- :97
  | badDate             -- :203
  | badFieldName        -- :218
deriving DecidableEq, Repr

/-- `DbfError` (src/read/shapefile/dbf.rs:156-160). -/
inductive DbfError where
  | io (e : IoError)
  | parse (e : DbfParseError)
deriving DecidableEq, Repr

/-- `trim_end_spaces` (src/read/shapefile/dbf.rs:72-75). -/
def trimEndSpaces (bytes : Bytes) : Bytes :=
  let nEndingSpaces := (bytes.reverse.findIdx? (fun b => b != 0x20)).getD bytes.length
  bytes.take (bytes.length - nEndingSpaces)

def isDigit (b : UInt8) : Bool := 0x30 ≤ b.toNat && b.toNat ≤ 0x39

/-- `(?:\.[0-9]+)?$` -/
def matchFraction (bs : Bytes) : Bool :=
  match bs with
  | [] => true
  | b :: rest => b == 0x2e && !rest.isEmpty && rest.all isDigit

/-- `[0-9]+(?:\.[0-9]+)?$` -/
def matchUnsigned (bs : Bytes) : Bool :=
  !(bs.takeWhile isDigit).isEmpty && matchFraction (bs.dropWhile isDigit)

/-- `-?[0-9]+(?:\.[0-9]+)?$` -/
def matchNumber (bs : Bytes) : Bool :=
  match bs with
  | [] => false
  | b :: rest => if b == 0x2d then matchUnsigned rest else matchUnsigned (b :: rest)

/-- `dbf_numeric_to_valid_string` (src/read/shapefile/dbf.rs:77-88). The regex
`^ *(-?[0-9]+(?:\.[0-9]+)?)$` is modelled by a deterministic matcher; capture 1
is everything after the leading spaces. -/
def dbfNumericToValidString (bytes : Bytes) : Except DbfError Text :=
  let rest := bytes.dropWhile (· == 0x20)
  if matchNumber rest then .ok (rest.map (fun b => Char.ofNat b.toNat))
  else .error (.parse .notANumber)

/-- `DbfHeader` (src/read/shapefile/dbf.rs:111-116). -/
structure DbfHeader where
  nRecords : Nat
  nHeaderBytes : Nat
  nBytesPerRecord : Nat
deriving DecidableEq, Repr

/-- `DbfMeta` (src/read/shapefile/dbf.rs:118-123). -/
structure DbfMeta where
  nRecords : Nat
  nBytesPerRecord : Nat
  fields : List DbfField

/-- `DbfRecord` (src/read/shapefile/dbf.rs:125-129). -/
structure DbfRecord where
  dbfMeta : DbfMeta
  bytes : Bytes

/-- `DbfField::read_string` (src/read/shapefile/dbf.rs:90-106). -/
def DbfField.readString (f : DbfField) (record : DbfRecord) : R (Except DbfError Text) := do
  let bytes ← slice record.bytes f.offset (f.offset + f.len)
  match f.dataType with
  | .character enc =>
    .ok (match enc.decode (trimEndSpaces bytes) with
      | .ok t => .ok t
      | .error msg => .error (.parse (.decode msg)))
  | .long => do
    let n ← readLE 4 bytes
    .ok (.ok (Nat.toDigits 10 n))
  | .numeric => .ok (dbfNumericToValidString bytes)
  | _ => .error .unimplemented

/-- `read_dbf_header` (src/read/shapefile/dbf.rs:190-213). -/
def readDbfHeader {σ : Type} [Source σ] (file : σ) : R (Except DbfError DbfHeader × σ) :=
  match Source.readExact file 32 with
  | (.error e, file') => .ok (.error (.io e), file')
  | (.ok buf, file') =>
    match buf[2]?, buf[3]? with
    | some month, some day =>
      if month > 12 ∨ day > 31 then .ok (.error (.parse .badDate), file')
      else do
        let n ← readLE 4 (buf.drop 4)
        let h ← readLE 2 (buf.drop 8)
        let r ← readLE 2 (buf.drop 10)
        .ok (.ok ⟨n, h, r⟩, file')
    | _, _ => .error .index

/-- `parse_dbf_field` (src/read/shapefile/dbf.rs:215-228). -/
def parseDbfField (bytes : Bytes) (enc : Encoding) (offset : Nat) : R (Except DbfError DbfField) := do
  let nameBytes ← slice bytes 0 11
  let lastIndex := (nameBytes.findIdx? (fun b => b == 0)).getD 11
  let nm ← slice bytes 0 lastIndex
  match enc.decode nm with
  | .error _ => .ok (.error (.parse .badFieldName))
  | .ok name =>
    match bytes[11]?, bytes[16]? with
    | some code, some len => .ok (.ok ⟨name, DbfType.withCode code enc, offset, len.toNat⟩)
    | _, _ => .error .index

/-- The loop over chunks (src/read/shapefile/dbf.rs:245-257). -/
def parseDbfFields (enc : Encoding) (offset : Nat) (v : List DbfField) :
    List Bytes → R (Except DbfError (List DbfField))
  | [] => .ok (.ok v)
  | chunk :: rest =>
    if chunk.length ≠ 32 then .ok (.ok v)
    else do
      let r ← parseDbfField chunk enc offset
      match r with
      | .error e => .ok (.error e)
      | .ok next => parseDbfFields enc (offset + next.len) (v ++ [next]) rest

/-- `read_dbf_fields` (src/read/shapefile/dbf.rs:236-262). When
`n_header_bytes < 32` the subtraction panics in debug builds; in release builds
it wraps to nearly 2^64 and `vec!` panics with a capacity overflow. -/
def readDbfFields {σ : Type} [Source σ] (m : Build) (file : σ) (enc : Encoding) (h : DbfHeader) :
    R (Except DbfError (List DbfField) × σ) :=
  if h.nHeaderBytes < 32 then
    .error (match m with | .debug => .overflow | .release => .capacity)
  else match Source.readExact file (h.nHeaderBytes - 32) with
    | (.error e, file') => .ok (.error (.io e), file')
    | (.ok buf, file') => do
      let r ← parseDbfFields enc 1 [] (chunks 32 buf)
      .ok (r, file')

/-- `read_dbf_meta` (src/read/shapefile/dbf.rs:269-279). -/
def readDbfMeta {σ : Type} [Source σ] (m : Build) (file : σ) (enc : Encoding) :
    R (Except DbfError DbfMeta × σ) := do
  let (r, file1) ← readDbfHeader file
  match r with
  | .error e => .ok (.error e, file1)
  | .ok h => do
    let (r2, file2) ← readDbfFields m file1 enc h
    match r2 with
    | .error e => .ok (.error e, file2)
    | .ok fields => .ok (.ok ⟨h.nRecords, h.nBytesPerRecord, fields⟩, file2)

/-- `DbfReader` (src/read/shapefile/dbf.rs:344-349). -/
structure DbfReader (σ : Type) where
  file : σ
  nRecordsAlreadyIterated : Nat
  dbfMeta : DbfMeta

/-- `DbfReader::new` (src/read/shapefile/dbf.rs:403-411). -/
def DbfReader.new {σ : Type} [Source σ] (m : Build) (file : σ) (enc : Encoding) :
    R (Except DbfError (DbfReader σ)) := do
  let (r, file') ← readDbfMeta m file enc
  match r with
  | .error e => .ok (.error e)
  | .ok dbfMeta => .ok (.ok ⟨file', 0, dbfMeta⟩)

/-- `DbfReader::get_field` (src/read/shapefile/dbf.rs:413-421). -/
def DbfReader.getField {σ : Type} (r : DbfReader σ) (name : Text) : Option DbfField :=
  r.dbfMeta.fields.find? (fun f => f.name == name)

/-- `read_dbf_record` (src/read/shapefile/dbf.rs:288-300). -/
def readDbfRecord {σ : Type} [Source σ] (file : σ) (dbfMeta : DbfMeta) :
    Except DbfError DbfRecord × σ :=
  match Source.readExact file dbfMeta.nBytesPerRecord with
  | (.error e, file') => (.error (.io e), file')
  | (.ok buf, file') => (.ok ⟨dbfMeta, buf⟩, file')

/-- `<DbfReader as Iterator>::next` (src/read/shapefile/dbf.rs:427-435). -/
def DbfReader.next {σ : Type} [Source σ] (r : DbfReader σ) :
    Option (Except DbfError DbfRecord) × DbfReader σ :=
  if r.nRecordsAlreadyIterated = r.dbfMeta.nRecords then (none, r)
  else
    let (ret, file') := readDbfRecord r.file r.dbfMeta
    (some ret, { r with file := file', nRecordsAlreadyIterated := r.nRecordsAlreadyIterated + 1 })

end TopoGeo
