import Verif.Model.ReadGeo
/-!
# Model of the `fmt::Display` implementations

What `format!("{}", value)` and `to_string()` return. Writing to a `String`
does not fail, so the `fmt::Result`s that the code threads through are left out.
-/

namespace TopoGeo

/-- `{}` of a `u32`. -/
def showNat (n : Nat) : Text := Nat.toDigits 10 n

/-- The loops `for (i, item) in items.iter().enumerate() { if i > 0 { write!(f, sep) } write!(f, "{}", item) }`
(src/geo/mod.rs:23-28, :55-60, :63-68, :222-227, src/read/shapefile/shp.rs:110-115,
src/read/shapefile/shapefile.rs:120-126). -/
def showItems {α : Type} (sep : Text) (item : α → Text) (i : Nat) : List α → Text
  | [] => []
  | a :: rest => (if i > 0 then sep else []) ++ item a ++ showItems sep item (i + 1) rest

/-- `Display for Point` (src/geo/mod.rs:10-14). -/
def Point.show (p : Point) : Text :=
  "(".toList ++ showNat p.x.toNat ++ ",".toList ++ showNat p.y.toNat ++ ")".toList

/-- `Display for Edge` (src/geo/mod.rs:20-31). -/
def showEdge (points : Edge) : Text :=
  "Edge(".toList ++ showItems ",".toList Point.show 0 points ++ ")".toList

/-- `Display for Ring` (src/geo/mod.rs:50-73). -/
def Ring.show : Ring → Text
  | .points ps => "[".toList ++ showItems ",".toList Point.show 0 ps ++ "]".toList
  | .edges es => "[".toList ++ showItems ",".toList showEdge 0 es ++ "]".toList

/-- `Display for DisplayRings` (src/geo/mod.rs:220-231). -/
def showRings (rings : List Ring) : Text :=
  "[".toList ++ showItems ", ".toList Ring.show 0 rings ++ "]".toList

/-- `Display for Region` (src/geo/mod.rs:233-239). -/
def Region.show {δ : Type} (r : Region δ) : Text :=
  "Region([data], outer:".toList ++ showRings r.outerRings ++ ", inner:".toList ++ showRings r.innerRings ++ ")".toList

/-- The loop of `Display for DbfRecord` (src/read/shapefile/dbf.rs:133-151): `s` is
what was pushed so far. `debugError` is `{:?}` of a `DbfError`, which is derived
code. -/
def showFields (debugError : DbfError → Text) (record : DbfRecord) (i : Nat) (s : Text) : List DbfField → R Text
  | [] => .ok ("{".toList ++ s ++ "}".toList)
  | field :: rest => do
    let s1 := if i ≠ 0 then s ++ "; ".toList else s
    match ← field.readString record with
    | .error err => .ok ("{Invalid DBF record: ".toList ++ debugError err ++ "}".toList)
    | .ok value => showFields debugError record (i + 1) (s1 ++ field.name ++ [':'] ++ value) rest

/-- `Display for DbfRecord` (src/read/shapefile/dbf.rs:131-155). -/
def DbfRecord.show (debugError : DbfError → Text) (record : DbfRecord) : R Text :=
  showFields debugError record 0 [] record.dbfMeta.fields

/-- `Display for ShpPoint` (src/read/shapefile/shp.rs:123-127); `{}` of an `f64` is a
parameter. -/
def ShpPoint.show (showF64 : UInt64 → Text) (p : ShpPoint) : Text :=
  "(".toList ++ showF64 p.x ++ ",".toList ++ showF64 p.y ++ ")".toList

/-- `Display for ShpPolygonRing` (src/read/shapefile/shp.rs:107-118). -/
def showShpRing (showF64 : UInt64 → Text) (ring : ShpPolygonRing) : Text :=
  "[".toList ++ showItems ",".toList (ShpPoint.show showF64) 0 ring ++ "]".toList

/-- `Display for ShapefileRecord` (src/read/shapefile/shapefile.rs:116-130). -/
def ShapefileRecord.show (showF64 : UInt64 → Text) (debugError : DbfError → Text) (r : ShapefileRecord) : R Text := do
  let data ← r.data.show debugError
  .ok ("ShapefileRecord(".toList ++ data ++ "; rings: ".toList ++
    showItems "; ".toList (showShpRing showF64) 0 r.rings ++ ")".toList)

end TopoGeo
