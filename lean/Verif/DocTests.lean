import Verif.Model.Example
import Verif.Model.Encodings
/-!
# The examples in the documentation of the readers, run on the model

These are tests of the model, not proofs of any property. The doc comments in
/repo assert what reading the files in /repo/test yields; the files are below,
byte by byte.
-/

namespace TopoGeo.DocTests

/-- /repo/test/read/shapefile/dbf/string-test.dbf -/
def stringTestDbf : Bytes :=
  [3, 95, 7, 26, 3, 0, 0, 0, 65, 0, 81, 0, 0, 0, 0, 0, 0, 0, 0, 0, 0, 0, 0, 0, 0, 0, 0, 0, 0, 87, 0, 0, 102,
   111, 111, 0, 0, 0, 0, 0, 0, 0, 0, 67, 0, 0, 0, 0, 80, 0, 0, 0, 0, 0, 0, 0, 0, 0, 0, 0, 0, 0, 0, 0, 13, 32,
   32, 32, 32, 32, 32, 32, 32, 32, 32, 32, 32, 32, 32, 32, 32, 32, 32, 32, 32, 32, 32, 32, 32, 32, 32, 32, 32,
   32, 32, 32, 32, 32, 32, 32, 32, 32, 32, 32, 32, 32, 32, 32, 32, 32, 32, 32, 32, 32, 32, 32, 32, 32, 32, 32,
   32, 32, 32, 32, 32, 32, 32, 32, 32, 32, 32, 32, 32, 32, 32, 32, 32, 32, 32, 32, 32, 32, 32, 32, 32, 32, 32,
   98, 97, 114, 32, 32, 32, 32, 32, 32, 32, 32, 32, 32, 32, 32, 32, 32, 32, 32, 32, 32, 32, 32, 32, 32, 32,
   32, 32, 32, 32, 32, 32, 32, 32, 32, 32, 32, 32, 32, 32, 32, 32, 32, 32, 32, 32, 32, 32, 32, 32, 32, 32, 32,
   32, 32, 32, 32, 32, 32, 32, 32, 32, 32, 32, 32, 32, 32, 32, 32, 32, 32, 32, 32, 32, 32, 32, 32, 32, 32, 32,
   32, 98, 97, 122, 32, 32, 32, 32, 32, 32, 32, 32, 32, 32, 32, 32, 32, 32, 32, 32, 32, 32, 32, 32, 32, 32,
   32, 32, 32, 32, 32, 32, 32, 32, 32, 32, 32, 32, 32, 32, 32, 32, 32, 32, 32, 32, 32, 32, 32, 32, 32, 32, 32,
   32, 32, 32, 32, 32, 32, 32, 32, 32, 32, 32, 32, 32, 32, 32, 32, 32, 32, 32, 32, 32, 32, 32, 32, 32, 32, 32,
   32]

/-- /repo/test/read/shapefile/simple.dbf -/
def simpleDbf : Bytes :=
  [3, 117, 4, 24, 2, 0, 0, 0, 97, 0, 31, 0, 0, 0, 0, 0, 0, 0, 0, 0, 0, 0, 0, 0, 0, 0, 0, 0, 0, 0, 0, 0, 105,
   100, 0, 0, 0, 0, 0, 0, 0, 0, 0, 78, 0, 0, 0, 0, 10, 0, 0, 0, 0, 0, 0, 0, 0, 0, 0, 0, 0, 0, 0, 0, 102, 111,
   111, 0, 0, 0, 0, 0, 0, 0, 0, 67, 0, 0, 0, 0, 20, 0, 0, 0, 0, 0, 0, 0, 0, 0, 0, 0, 0, 0, 0, 0, 13, 32, 32,
   32, 32, 32, 32, 32, 32, 32, 32, 49, 98, 97, 114, 32, 32, 32, 32, 32, 32, 32, 32, 32, 32, 32, 32, 32, 32,
   32, 32, 32, 32, 32, 32, 32, 32, 32, 32, 32, 32, 32, 50, 98, 97, 122, 32, 32, 32, 32, 32, 32, 32, 32, 32,
   32, 32, 32, 32, 32, 32, 32, 32]

/-- /repo/test/read/shapefile/simple.shp -/
def simpleShp : Bytes :=
  [0, 0, 39, 10, 0, 0, 0, 0, 0, 0, 0, 0, 0, 0, 0, 0, 0, 0, 0, 0, 0, 0, 0, 0, 0, 0, 0, 170, 232, 3, 0, 0, 5, 0,
   0, 0, 0, 0, 0, 0, 0, 112, 114, 64, 0, 0, 0, 0, 0, 0, 125, 192, 29, 3, 171, 189, 191, 16, 134, 64, 0, 0, 0,
   0, 0, 32, 111, 192, 0, 0, 0, 0, 0, 0, 0, 0, 0, 0, 0, 0, 0, 0, 0, 0, 0, 0, 0, 0, 0, 0, 0, 0, 0, 0, 0, 0, 0,
   0, 0, 0, 0, 0, 0, 1, 0, 0, 0, 56, 5, 0, 0, 0, 0, 0, 0, 0, 0, 112, 114, 64, 0, 0, 0, 0, 0, 0, 125, 192, 0,
   0, 0, 0, 0, 96, 130, 64, 0, 0, 0, 0, 0, 32, 111, 192, 1, 0, 0, 0, 4, 0, 0, 0, 0, 0, 0, 0, 0, 0, 0, 0, 0,
   112, 114, 64, 0, 0, 0, 0, 0, 32, 111, 192, 0, 0, 0, 0, 0, 96, 130, 64, 0, 0, 0, 0, 0, 112, 112, 192, 0, 0,
   0, 0, 0, 144, 125, 64, 0, 0, 0, 0, 0, 0, 125, 192, 0, 0, 0, 0, 0, 112, 114, 64, 0, 0, 0, 0, 0, 32, 111,
   192, 0, 0, 0, 2, 0, 0, 0, 56, 5, 0, 0, 0, 244, 83, 9, 1, 57, 90, 130, 64, 244, 83, 9, 1, 57, 214, 122, 192,
   29, 3, 171, 189, 191, 16, 134, 64, 157, 159, 74, 8, 200, 236, 115, 192, 1, 0, 0, 0, 4, 0, 0, 0, 0, 0, 0, 0,
   244, 83, 9, 1, 57, 90, 130, 64, 244, 83, 9, 1, 57, 214, 122, 192, 57, 6, 86, 123, 127, 192, 131, 64, 157,
   159, 74, 8, 200, 236, 115, 192, 29, 3, 171, 189, 191, 16, 134, 64, 193, 106, 239, 111, 12, 251, 119, 192,
   244, 83, 9, 1, 57, 90, 130, 64, 244, 83, 9, 1, 57, 214, 122, 192]

/-- /repo/test/read/shapefile/shp/simple.shp -/
def shpSimpleShp : Bytes :=
  [0, 0, 39, 10, 0, 0, 0, 0, 0, 0, 0, 0, 0, 0, 0, 0, 0, 0, 0, 0, 0, 0, 0, 0, 0, 0, 0, 110, 232, 3, 0, 0, 5, 0,
   0, 0, 46, 188, 179, 77, 83, 28, 93, 65, 184, 131, 16, 46, 163, 239, 50, 65, 15, 199, 41, 160, 206, 28, 93,
   65, 25, 254, 171, 102, 218, 241, 50, 65, 0, 0, 0, 0, 0, 0, 0, 0, 0, 0, 0, 0, 0, 0, 0, 0, 0, 0, 0, 0, 0, 0,
   0, 0, 0, 0, 0, 0, 0, 0, 0, 0, 0, 0, 0, 1, 0, 0, 0, 56, 5, 0, 0, 0, 46, 188, 179, 77, 83, 28, 93, 65, 184,
   131, 16, 46, 163, 239, 50, 65, 15, 199, 41, 160, 206, 28, 93, 65, 25, 254, 171, 102, 218, 241, 50, 65, 1,
   0, 0, 0, 4, 0, 0, 0, 0, 0, 0, 0, 46, 188, 179, 77, 83, 28, 93, 65, 251, 62, 76, 87, 212, 241, 50, 65, 15,
   199, 41, 160, 206, 28, 93, 65, 25, 254, 171, 102, 218, 241, 50, 65, 199, 30, 32, 123, 131, 28, 93, 65, 184,
   131, 16, 46, 163, 239, 50, 65, 46, 188, 179, 77, 83, 28, 93, 65, 251, 62, 76, 87, 212, 241, 50, 65]

/-- The texts of a field in the records that `n` calls of `next` yield. -/
def fieldTexts (name : String) (bs : Bytes) (n : Nat) : Option (List (Option Text)) :=
  match DbfReader.new .debug (⟨bs⟩ : MemFile) Encoding.utf8 with
  | .ok (.ok r) =>
    match r.getField name.toList with
    | none => none
    | some f =>
      let rec go (r : DbfReader MemFile) : Nat → List (Option Text)
        | 0 => []
        | n + 1 => match r.next with
          | (some (.ok record), r') => (match f.readString record with
            | .ok (.ok t) => some t
            | _ => none) :: go r' n
          | (_, r') => none :: go r' n
      some (go r n)
  | _ => none

-- DbfReader (src/read/shapefile/dbf.rs:305-342): the second record is "bar", the third "baz"
example : (fieldTexts "foo" stringTestDbf 3).map (·.drop 1) = some [some "bar".toList, some "baz".toList] := by
  decide +kernel

/-- The header's size and the first ring of the first record. -/
def firstRing (bs : Bytes) : Option (Nat × Nat × Nat × Option ShpPoint) :=
  match ShpReader.new .debug (⟨bs⟩ : MemFile) with
  | .ok (.ok r) => match r.next with
    | .ok (some (.ok record), _) =>
      record.rings.head?.map fun ring => (r.header.fileNBytes, record.rings.length, ring.length, ring.head?)
    | _ => none
  | _ => none

-- ShpReader (src/read/shapefile/shp.rs:294-302, :352-360)
example : firstRing shpSimpleShp = some (220, 1, 4, some ⟨0x415d1c534db3bc2e, 0x4132f1d4574c3efb⟩) := by
  decide +kernel

/-- Files in a directory. -/
def directory : FileSystem MemFile := fun p =>
  if p = ["simple.shp".toList] then .ok ⟨simpleShp⟩ else if p = ["simple.dbf".toList] then .ok ⟨simpleDbf⟩ else .error (.other 2)

-- ShapefileReader (src/read/shapefile/shapefile.rs:37-58)
example : (match shapefileOpenUtf8 .debug directory ["simple.shp".toList] with
    | .ok (.ok r) => match r.getField "foo".toList, r.next with
      | some foo, .ok (some (.ok record), r1) => match r1.next with
        | .ok (some (.ok _), r2) => match r2.next with
          | .ok (none, _) => some ((foo.readString record.data).map Except.toOption, record.rings.length,
              record.rings.map List.length, record.rings.map List.head?)
          | _ => none
        | _ => none
      | _, _ => none
    | _ => none) =
    some (.ok (some "bar".toList), 1, [4], [some ⟨0x4072700000000000, 0xc06f200000000000⟩]) := by
  decide +kernel

-- examples/shp-to-geo-data.rs on the file above, of which no assertion exists: the first triangle is wide and high
-- enough on the grid for its area to overflow, so that a checked build panics and a release build reads the triangle as
-- a hole and drops the region
example : shpToGeoData .debug 3 directory ["simple.shp".toList] Encoding.windows1252 = .error .overflow ∧
    (shpToGeoData .release 3 directory ["simple.shp".toList] Encoding.windows1252).map (·.map fun x => (x.1, x.2.1.regions)) =
      .ok (.ok (2, 1)) := by
  constructor <;> decide +kernel

end TopoGeo.DocTests
