import Verif.Model.Program
import Verif.Spec.Shp
/-!
# Messages of errors and outcomes of programs
-/

namespace TopoGeo.Spec

/-- The error is an i/o error that was passed on. -/
def PassedOn (e : ShapefileError) (io : IoError) : Prop := e = .shp (.io io) ∨ e = .dbf (.io io)

/-- The errors that opening and iterating can come up with: everything in a `.shp`
file, dates and field names in a `.dbf` file, and files of different lengths. -/
inductive Reported : ShapefileError → Prop
  | unsupported (u : Nat) (h : u ∈ shapeTypes) : Reported (.shp (.parse (.unsupportedType u)))
  | shape (e : ShpParseError) (h : ∀ u, e ≠ .unsupportedType u) : Reported (.shp (.parse e))
  | date : Reported (.dbf (.parse .badDate))
  | name : Reported (.dbf (.parse .badFieldName))
  | shapes : Reported .shpHasMore
  | records : Reported .dbfHasMore

/-- The error that an error was caused by in the end, if it had a cause. -/
def rootCause (e : ShapefileError) : Option IoError :=
  match e.cause with
  | some (.shp e) => e.cause
  | some (.dbf e) => e.cause
  | none => none

/-- The names of the shape types of the format. -/
def shapeTypeNames : List (Nat × String) :=
  [(0, "Null"), (1, "Point"), (3, "PolyLine"), (5, "Polygon"), (8, "MultiPoint"), (11, "PointZ"), (13, "PolyLineZ"),
   (15, "PolygonZ"), (18, "MultiPointZ"), (21, "PointM"), (23, "PolyLineM"), (25, "PolygonM"), (28, "MultiPointM"),
   (31, "MultiPatch")]

/-- What is said about the header of a `.shp` file; `none` for polygons. -/
def headerMessage (bs : Bytes) : Option String :=
  if u32be bs 0 ≠ 9994 then some s!"File has wrong magic number: found {u32be bs 0}, expected 9994"
  else if u32le bs 28 ≠ 1000 then some s!"File has wrong version: found {u32le bs 28}, expected 1000"
  else if u32le bs 32 = 5 then none
  else match shapeTypeNames.lookup (u32le bs 32) with
    | some name => some s!"File has unsupported type: found {name}, expected Polygon"
    | none => some s!"File has nonexistent data type {u32le bs 32}"

/-- A program that ended well, that gave up with a message, or that panicked. -/
inductive Ended : ProgramRun → Prop
  | well (lines : List Text) : Ended ⟨lines, [], .code 0⟩
  | gaveUp (lines : List Text) (message : Text) : Ended ⟨lines, [message], .code 1⟩
  | panicked (lines : List Text) (p : Panic) : Ended ⟨lines, [], .panicked p⟩

/-- What is printed about a topology. -/
def topologyReport (title : String) (d : TopologyDescription) : List String :=
  [title, s!"  Regions:      {d.regions}", s!"  Outer rings:  {d.outerRings}", s!"  Inner rings:  {d.innerRings}",
   s!"  Edges:        {d.edges}", s!"  Shared edges: {d.sharedEdges}", s!"  Lone edges:   {d.loneEdges}",
   s!"  Points:       {d.points}"]

/-- What is printed about a file with `n` regions, and about its topology as it was
formed, normalized and clipped. -/
def fileReport (n : Nat) (formed normalized clipped : TopologyDescription) : List String :=
  s!"Read {n} regions" :: topologyReport "Formed initial topology:" formed ++
    topologyReport "Normalized topology:" normalized ++ topologyReport "Clipped topology:" clipped

/-- What goes before an error: nothing if it is about opening files. -/
def errorTitle (opened : Bool) : Text := if opened then "Error during read: ".toList else []

end TopoGeo.Spec
