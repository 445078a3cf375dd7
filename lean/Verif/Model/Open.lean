import Verif.Model.ReadGeo
/-!
# Model of the functions that open files by name

`std::fs` and `std::path` are outside /repo. A file system is a function from
paths to files or errors; opening does not change it.
-/

namespace TopoGeo

/-- A path: the names of directories and of the file, from the root or from the
current directory. -/
abbrev Path := List Text

/-- The stem of a file name: what precedes the last dot, unless that is the first
character (`Path::file_stem`). -/
def fileStem (name : Text) : Text :=
  match name.reverse.findIdx? (· == '.') with
  | none => name
  | some i => if i + 1 = name.length then name else name.take (name.length - (i + 1))

/-- `PathBuf::set_extension`: nothing happens if there is no file name. -/
def setExtension (path : Path) (ext : Text) : Path :=
  match path.getLast? with
  | none => path
  | some name => if name = "..".toList then path else path.dropLast ++ [fileStem name ++ '.' :: ext]

/-- `fs::File::open`, then `io::BufReader::new`. -/
abbrev FileSystem (σ : Type) := Path → Except IoError σ

/-- `shp::open` (src/read/shapefile/shp.rs:362-370). -/
def shpOpen {σ : Type} [Source σ] (m : Build) (fs : FileSystem σ) (path : Path) : R (Except ShpError (ShpReader σ)) :=
  match fs path with
  | .error e => .ok (.error (.io e))
  | .ok f => ShpReader.new m f

/-- `dbf::open` (src/read/shapefile/dbf.rs:372-380). -/
def dbfOpen {σ : Type} [Source σ] (m : Build) (fs : FileSystem σ) (path : Path) (enc : Encoding) :
    R (Except DbfError (DbfReader σ)) :=
  match fs path with
  | .error e => .ok (.error (.io e))
  | .ok f => DbfReader.new m f enc

/-- `dbf::open_ascii` (src/read/shapefile/dbf.rs:397-400). `labels` is
`encoding::label::encoding_from_whatwg_label`; the result is unwrapped. -/
def dbfOpenAscii {σ : Type} [Source σ] (m : Build) (labels : Text → Option Encoding) (fs : FileSystem σ) (path : Path) :
    R (Except DbfError (DbfReader σ)) :=
  match labels "ascii".toList with
  | none => .error .explicit
  | some ascii => dbfOpen m fs path ascii

/-- `shapefile::open` (src/read/shapefile/shapefile.rs:211-230). -/
def shapefileOpen {σ : Type} [Source σ] (m : Build) (fs : FileSystem σ) (shpPath : Path) (enc : Encoding) :
    R (Except ShapefileError (ShapefileReader σ σ)) := do
  match ← shpOpen m fs shpPath with
  | .error err => .ok (.error (.shp err))
  | .ok shpReader =>
    match ← dbfOpen m fs (setExtension shpPath "dbf".toList) enc with
    | .error err => .ok (.error (.dbf err))
    | .ok dbfReader => .ok (.ok ⟨shpReader, dbfReader⟩)

/-- `shapefile::open_ascii` (src/read/shapefile/mod.rs:93-95). `open_utf8` and
`open_windows1252` (:97-103) are in Model/Encodings.lean. -/
def shapefileOpenAscii {σ : Type} [Source σ] (m : Build) (fs : FileSystem σ) (shpPath : Path) :
    R (Except ShapefileError (ShapefileReader σ σ)) := shapefileOpen m fs shpPath Encoding.ascii

end TopoGeo
