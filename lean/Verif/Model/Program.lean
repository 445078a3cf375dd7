import Verif.Model.Example
/-!
# Model of error messages and of the command lines of the programs in `examples/`

Texts of `io::Error` come from the standard library: `showIo` is its `Display`
and `descriptionIo` its `description`.
-/

namespace TopoGeo

/-- `{:?}` of `ShpShapeType::with_u32(u).unwrap()` (src/read/shapefile/shp.rs:48-86). -/
def shapeTypeName (u : Nat) : Text :=
  match u with
  | 0 => "Null".toList
  | 1 => "Point".toList
  | 3 => "PolyLine".toList
  | 5 => "Polygon".toList
  | 8 => "MultiPoint".toList
  | 11 => "PointZ".toList
  | 13 => "PolyLineZ".toList
  | 15 => "PolygonZ".toList
  | 18 => "MultiPointZ".toList
  | 21 => "PointM".toList
  | 23 => "PolyLineM".toList
  | 25 => "PolygonM".toList
  | 28 => "MultiPointM".toList
  | 31 => "MultiPatch".toList
  | _ => []

/-- The texts of `ShpError::ParseError` (src/read/shapefile/shp.rs:154, :158, :170, :173,
:190, :195, :202, :220, :224, :234, :328). -/
def ShpParseError.text : ShpParseError → Text
  | .wrongMagic found =>
    "File has wrong magic number: found ".toList ++ showNat found ++ ", expected ".toList ++ showNat 9994
  | .wrongVersion found =>
    "File has wrong version: found ".toList ++ showNat found ++ ", expected ".toList ++ showNat 1000
  | .unsupportedType found =>
    "File has unsupported type: found ".toList ++ shapeTypeName found ++ ", expected ".toList ++ shapeTypeName 5
  | .nonexistentType found => "File has nonexistent data type ".toList ++ showNat found
  | .recordShapeType record found =>
    "Record number ".toList ++ showNat record ++ " has unsupported shape type: found ".toList ++ showNat found ++
      ", expected ".toList ++ showNat 5
  | .noParts record => "Record number ".toList ++ showNat record ++ " has no parts".toList
  | .wrongLength record needed parts points length =>
    "Record number ".toList ++ showNat record ++ " needs ".toList ++ showNat needed ++ " bytes (it has ".toList ++
      showNat parts ++ " parts and ".toList ++ showNat points ++ " points), but the record header says it has ".toList ++
      showNat length ++ " bytes".toList
  | .partOutOfRange record start finish points =>
    "Record number ".toList ++ showNat record ++ " has a ring with points ".toList ++ showNat start ++ "-".toList ++
      showNat finish ++ ", but there are only ".toList ++ showNat points ++ " points in the record".toList
  | .partInvalidRange record start finish =>
    "Record number ".toList ++ showNat record ++ " has a ring with points ".toList ++ showNat start ++ "-".toList ++
      showNat finish ++ ", but that's an invalid range".toList
  | .lastPart record start points =>
    "Record number ".toList ++ showNat record ++ " has a ring starting at point ".toList ++ showNat start ++
      ", but there are only ".toList ++ showNat points ++ " points in the record".toList
  | .fileTooLong length =>
    "The Shapefile header suggests the file is ".toList ++ showNat length ++ " bytes long, but it's longer than that.".toList

/-- The texts of `DbfError::ParseError` (src/read/shapefile/dbf.rs:82, :97, :203, :218);
`enc` is the encoding that the file is read in. -/
def DbfParseError.text (enc : Encoding) : DbfParseError → Text
  | .notANumber => "Bytes in numeric record do not represent a number".toList
  | .decode msg => msg
  | .badDate =>
    "The first four bytes of the file mention an invalid creation date. This is not a valid .dbf file.".toList
  | .badFieldName => "Field name is not valid ".toList ++ enc.name

/-- `Display for ShpError` (src/read/shapefile/shp.rs:39-46). -/
def ShpError.show (showIo : IoError → Text) : ShpError → Text
  | .io e => showIo e
  | .parse e => "Parse error: ".toList ++ e.text

/-- `ShpError::description` (src/read/shapefile/shp.rs:24-29). -/
def ShpError.description (descriptionIo : IoError → Text) : ShpError → Text
  | .io e => descriptionIo e
  | .parse e => e.text

/-- `ShpError::cause` (src/read/shapefile/shp.rs:31-36). -/
def ShpError.cause : ShpError → Option IoError
  | .io e => some e
  | .parse _ => none

/-- `Display for DbfError` (src/read/shapefile/dbf.rs:178-185). -/
def DbfError.show (showIo : IoError → Text) (enc : Encoding) : DbfError → Text
  | .io e => showIo e
  | .parse e => "Parse error: ".toList ++ e.text enc

/-- `DbfError::description` (src/read/shapefile/dbf.rs:163-168). -/
def DbfError.description (descriptionIo : IoError → Text) (enc : Encoding) : DbfError → Text
  | .io e => descriptionIo e
  | .parse e => e.text enc

/-- `DbfError::cause` (src/read/shapefile/dbf.rs:170-175). -/
def DbfError.cause : DbfError → Option IoError
  | .io e => some e
  | .parse _ => none

/-- The errors that a `ShapefileError` wraps. -/
inductive WrappedError where
  | shp (e : ShpError)
  | dbf (e : DbfError)
deriving DecidableEq, Repr

/-- `ShapefileError::cause` (src/read/shapefile/shapefile.rs:91-97). -/
def ShapefileError.cause : ShapefileError → Option WrappedError
  | .shp e => some (.shp e)
  | .dbf e => some (.dbf e)
  | .shpHasMore | .dbfHasMore => none

/-- `ShapefileError::description` (src/read/shapefile/shapefile.rs:83-89); the texts are
at :168 and :169. -/
def ShapefileError.description (descriptionIo : IoError → Text) (enc : Encoding) : ShapefileError → Text
  | .shp e => e.description descriptionIo
  | .dbf e => e.description descriptionIo enc
  | .shpHasMore => "'.shp' file has more records than '.dbf' record".toList
  | .dbfHasMore => "'.dbf' file has more records than '.shp' record".toList

/-- `Display for ShapefileError` (src/read/shapefile/shapefile.rs:100-108). -/
def ShapefileError.show (showIo : IoError → Text) (enc : Encoding) : ShapefileError → Text
  | .shp e => e.show showIo
  | .dbf e => e.show showIo enc
  | e => "Parse error: ".toList ++ e.description showIo enc

/-- How a program ends: `process::exit(code)` or the end of `main`, or a panic
(exit code 101). -/
inductive Exit where
  | code (n : Nat)
  | panicked (p : Panic)
deriving DecidableEq, Repr

/-- What a program has printed, line by line, and how it ended. The message of a
panic, and what was printed of a line before a panic, is left out. -/
structure ProgramRun where
  stdout : List Text
  stderr : List Text
  exit : Exit
deriving DecidableEq, Repr

/-- `println!`s, then the rest of the program. -/
def ProgramRun.after (lines : List Text) (o : ProgramRun) : ProgramRun := { o with stdout := lines ++ o.stdout }

/-- The rest of a program, after a part of it that may panic. -/
def ProgramRun.orPanic {α : Type} (x : R α) (rest : α → ProgramRun) : ProgramRun :=
  match x with
  | .error p => ⟨[], [], .panicked p⟩
  | .ok a => rest a

/-- `writeln!(&mut io::stderr(), ..); process::exit(1)`. -/
def ProgramRun.fail (message : Text) : ProgramRun := ⟨[], [message], .code 1⟩

/-- `args.next().unwrap()` of `env::args()`: an argument is `none` if it is not
Unicode, and then `next` panics. -/
def nextArg : List (Option Text) → R Text
  | some a :: _ => .ok a
  | _ => .error .explicit

/-- How both programs begin (examples/shp-to-geo-data.rs:46-54, examples/cat-shp.rs:11-19). -/
def withPath (args : List (Option Text)) (rest : Text → ProgramRun) : ProgramRun :=
  if args.length ≠ 2 then
    .orPanic (nextArg args) fun name => .fail ("Usage: ".toList ++ name ++ " <SHP_PATH>".toList)
  else
    .orPanic (nextArg args) fun _ => .orPanic (nextArg args.tail) rest

/-- What `print_topology_description` prints (examples/shp-to-geo-data.rs:34-40). -/
def TopologyDescription.lines (d : TopologyDescription) : List Text :=
  ["  Regions:      ".toList ++ showNat d.regions,
   "  Outer rings:  ".toList ++ showNat d.outerRings,
   "  Inner rings:  ".toList ++ showNat d.innerRings,
   "  Edges:        ".toList ++ showNat d.edges,
   "  Shared edges: ".toList ++ showNat d.sharedEdges,
   "  Lone edges:   ".toList ++ showNat d.loneEdges,
   "  Points:       ".toList ++ showNat d.points]

/-- `main` (examples/shp-to-geo-data.rs:83-93), once all regions are read. -/
def geoMainTopology (m : Build) (b : TopologyBuilder DbfRecord) : ProgramRun :=
  .orPanic b.intoTopology fun t => .after ("Formed initial topology:".toList :: (describe t).lines) <|
    .orPanic (normalize m t) fun normalized => .after ("Normalized topology:".toList :: (describe normalized).lines) <|
      .orPanic (clipTopology m normalized (.minX 2147483648)) fun clipped =>
        ⟨"Clipped topology:".toList :: (describe clipped).lines, [], .code 0⟩

/-- `main` (examples/shp-to-geo-data.rs:45-94); `toPath` is `PathBuf::from`. -/
def geoMain {σ : Type} [Source σ] (m : Build) (showIo : IoError → Text) (toPath : Text → Path) (fuel : Nat)
    (fs : FileSystem σ) (enc : Encoding) (args : List (Option Text)) : ProgramRun :=
  withPath args fun path =>
    .orPanic (shapefileOpen m fs (toPath path) enc) fun
      | .error err => .fail (err.show showIo enc)
      | .ok reader =>
        .orPanic (readRegions m fuel (ShapefileGeoIterator.new reader) TopologyBuilder.new 0) fun
          | .error err => .fail ("Error during read: ".toList ++ err.show showIo enc)
          | .ok (b, n) => .after ["Read ".toList ++ showNat n ++ " regions".toList] (geoMainTopology m b)

/-- The loop in `main` (examples/cat-shp.rs:29-42). -/
def catMainLoop {σ τ : Type} [Source σ] [Source τ] (showF64 : UInt64 → Text) (debugError : DbfError → Text)
    (showIo : IoError → Text) (enc : Encoding) : Nat → ShapefileReader σ τ → Nat → ProgramRun
  | 0, _, _ => ⟨[], [], .panicked .fuel⟩
  | fuel + 1, r, n =>
    .orPanic r.next fun
      | (none, _) => ⟨["Read ".toList ++ showNat n ++ " records".toList], [], .code 0⟩
      | (some (.error err), _) => .fail ("Error during read: ".toList ++ err.show showIo enc)
      | (some (.ok record), r') =>
        .orPanic (record.show showF64 debugError) fun line =>
          .after [line] (catMainLoop showF64 debugError showIo enc fuel r' (n + 1))

/-- `main` (examples/cat-shp.rs:10-45). -/
def catMain {σ : Type} [Source σ] (m : Build) (showF64 : UInt64 → Text) (debugError : DbfError → Text)
    (showIo : IoError → Text) (toPath : Text → Path) (fuel : Nat) (fs : FileSystem σ) (enc : Encoding)
    (args : List (Option Text)) : ProgramRun :=
  withPath args fun path =>
    .orPanic (shapefileOpen m fs (toPath path) enc) fun
      | .error err => .fail (err.show showIo enc)
      | .ok reader => catMainLoop showF64 debugError showIo enc fuel reader 0

end TopoGeo
