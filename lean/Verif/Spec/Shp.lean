import Mathlib.Data.List.Chain
import Verif.Model.Shp
import Verif.Spec.Dbf
/-!
# Specification: .shp files

The layout of ESRI polygon shapefiles as a writer sees it.
-/

namespace TopoGeo.Spec

/-! ## Layout -/

/-- The bytes of a double. -/
def f64Bytes (u : UInt64) : Bytes := leBytes 8 u.toNat

/-- The bytes of a point. -/
def pointBytes (p : ShpPoint) : Bytes := f64Bytes p.x ++ f64Bytes p.y

/-- The bytes of a box. -/
def boxBytes (b : ShpBoundingBox) : Bytes := f64Bytes b.b0 ++ f64Bytes b.b1 ++ f64Bytes b.b2 ++ f64Bytes b.b3

/-- The content of a polygon record with the given part offsets and points. -/
def contentBytes (box : Bytes) (parts : List Nat) (points : List ShpPoint) : Bytes :=
  leBytes 4 5 ++ box ++ leBytes 4 parts.length ++ leBytes 4 points.length ++ parts.flatMap (leBytes 4) ++
    points.flatMap pointBytes

/-- A record to be written. -/
structure OutRecord where
  number : Nat
  box : ShpBoundingBox
  rings : List ShpPolygonRing
deriving DecidableEq, Repr

/-- Where each ring starts, if the first one starts at `start`. -/
def starts (start : Nat) : List ShpPolygonRing → List Nat
  | [] => []
  | ring :: rest => start :: starts (start + ring.length) rest

/-- The content of a record. -/
def OutRecord.content (r : OutRecord) : Bytes := contentBytes (boxBytes r.box) (starts 0 r.rings) r.rings.flatten

/-- The bytes of a record. -/
def OutRecord.bytes (r : OutRecord) : Bytes :=
  beBytes 4 r.number ++ beBytes 4 (r.content.length / 2) ++ r.content

/-- The length of a file of the given records. -/
def fileLength (records : List OutRecord) : Nat := 100 + (records.flatMap OutRecord.bytes).length

/-- The bytes of a file. -/
def writeShp (box : ShpBoundingBox) (records : List OutRecord) : Bytes :=
  beBytes 4 9994 ++ List.replicate 20 0 ++ beBytes 4 (fileLength records / 2) ++ leBytes 4 1000 ++ leBytes 4 5 ++
    boxBytes box ++ List.replicate 32 0 ++ records.flatMap OutRecord.bytes

/-- Records that the reader is to accept: at least one ring; at least four points
in the last ring and three in the others. -/
def OutRecord.Good (r : OutRecord) : Prop :=
  r.number < 2 ^ 32 ∧ (∀ ring ∈ r.rings.dropLast, 3 ≤ ring.length) ∧ ∃ last, r.rings.getLast? = some last ∧ 4 ≤ last.length

/-! ## Headers -/

/-- The little-endian 32-bit number at an offset. -/
def u32le (bs : Bytes) (i : Nat) : Nat := leNat ((bs.drop i).take 4)

/-- The big-endian 32-bit number at an offset. -/
def u32be (bs : Bytes) (i : Nat) : Nat := beNat ((bs.drop i).take 4)

/-- The double at an offset. -/
def f64le (bs : Bytes) (i : Nat) : UInt64 := UInt64.ofNat (leNat ((bs.drop i).take 8))

/-- The shape types of the format. -/
def shapeTypes : List Nat := [0, 1, 3, 5, 8, 11, 13, 15, 18, 21, 23, 25, 28, 31]

/-- What opening makes of a file that is long enough; `none` for success. -/
inductive Header (bs : Bytes) : Option ShpParseError → Prop where
  | wrongMagic : u32be bs 0 ≠ 9994 → Header bs (some (.wrongMagic (u32be bs 0)))
  | wrongVersion : u32be bs 0 = 9994 → u32le bs 28 ≠ 1000 → Header bs (some (.wrongVersion (u32le bs 28)))
  | unsupported : u32be bs 0 = 9994 → u32le bs 28 = 1000 → u32le bs 32 ∈ shapeTypes → u32le bs 32 ≠ 5 →
      Header bs (some (.unsupportedType (u32le bs 32)))
  | nonexistent : u32be bs 0 = 9994 → u32le bs 28 = 1000 → u32le bs 32 ∉ shapeTypes →
      Header bs (some (.nonexistentType (u32le bs 32)))
  | polygons : u32be bs 0 = 9994 → u32le bs 28 = 1000 → u32le bs 32 = 5 → Header bs none

/-! ## Records -/

/-- The rings cut from the points at the given offsets: each reaches to the next
offset, the last one to the end. -/
inductive Cuts (points : List ShpPoint) : List Nat → List ShpPolygonRing → Prop where
  | last (a) (ring rest : List ShpPoint) : points = rest ++ ring → rest.length = a → 4 ≤ ring.length → Cuts points [a] [ring]
  | more (a b parts rings) (before ring after : List ShpPoint) : points = before ++ ring ++ after → before.length = a →
      before.length + ring.length = b → 3 ≤ ring.length → Cuts points (b :: parts) rings →
      Cuts points (a :: b :: parts) (ring :: rings)

/-- The content of an acceptable record with the given rings. -/
def IsContent (content : Bytes) (rings : List ShpPolygonRing) : Prop :=
  ∃ box parts points, content = contentBytes box parts points ∧ box.length = 32 ∧ parts.length < 2 ^ 32 ∧
    points.length < 2 ^ 32 ∧ (∀ a ∈ parts, a < 2 ^ 32) ∧ Cuts points parts rings

/-- How reading a record's content can end. -/
inductive Outcome where
  | panics
  | error (e : ShpParseError)
  | accepts (rings : List ShpPolygonRing)

/-- The announced part offsets. -/
def partOffsets (bs : Bytes) : List Nat := (List.range (u32le bs 36)).map fun i => u32le bs (44 + 4 * i)

/-- The length of the content that its header announces. -/
def neededLength (bs : Bytes) : Nat := 44 + 4 * u32le bs 36 + 16 * u32le bs 40

/-- Offsets that can be followed by one another, for a number of points. -/
def Follows (n a b : Nat) : Prop := a + 3 ≤ b ∧ b ≤ n

/-- How reading a record's content ends, for each content. -/
inductive Reading (number : Nat) (bs : Bytes) : Outcome → Prop where
  | noType : bs.length < 4 → Reading number bs .panics
  | wrongType : 4 ≤ bs.length → u32le bs 0 ≠ 5 → Reading number bs (.error (.recordShapeType number (u32le bs 0)))
  | noPartCount : 4 ≤ bs.length → u32le bs 0 = 5 → bs.length < 40 → Reading number bs .panics
  | noParts : 40 ≤ bs.length → u32le bs 0 = 5 → u32le bs 36 = 0 → Reading number bs (.error (.noParts number))
  | noPointCount : 40 ≤ bs.length → u32le bs 0 = 5 → u32le bs 36 ≠ 0 → bs.length < 44 → Reading number bs .panics
  | wrongLength : 44 ≤ bs.length → u32le bs 0 = 5 → u32le bs 36 ≠ 0 → bs.length ≠ neededLength bs →
      Reading number bs (.error (.wrongLength number (neededLength bs) (u32le bs 36) (u32le bs 40) bs.length))
  | outOfRange (before a b after) : u32le bs 0 = 5 → u32le bs 36 ≠ 0 → bs.length = neededLength bs →
      partOffsets bs = before ++ a :: b :: after → List.IsChain (Follows (u32le bs 40)) (before ++ [a]) →
      (u32le bs 40 < a ∨ u32le bs 40 < b) → Reading number bs (.error (.partOutOfRange number a b (u32le bs 40)))
  | invalidRange (before a b after) : u32le bs 0 = 5 → u32le bs 36 ≠ 0 → bs.length = neededLength bs →
      partOffsets bs = before ++ a :: b :: after → List.IsChain (Follows (u32le bs 40)) (before ++ [a]) →
      a ≤ u32le bs 40 → b ≤ u32le bs 40 → b < a + 3 → Reading number bs (.error (.partInvalidRange number a b))
  | lastPart (last) : u32le bs 0 = 5 → u32le bs 36 ≠ 0 → bs.length = neededLength bs →
      List.IsChain (Follows (u32le bs 40)) (partOffsets bs) → (partOffsets bs).getLast? = some last →
      u32le bs 40 < last + 4 → Reading number bs (.error (.lastPart number last (u32le bs 40)))
  | accepts (rings) : IsContent bs rings → Reading number bs (.accepts rings)

/-- The result of reading is of the given kind. -/
def RecordEndsAs (x : R (Except ShpError ShpPolygonRecord)) (number : Nat) : Outcome → Prop
  | .panics => ∃ e, x = .error e
  | .error e => x = .ok (.error (.parse e))
  | .accepts rings => x = .ok (.ok ⟨number, rings⟩)

/-- The least number of bytes a record with the given rings takes up in a file. -/
def recordSize (rings : List ShpPolygonRing) : Nat := 8 + 44 + 4 * rings.length + 16 * rings.flatten.length

/-- The least number of bytes that the yielded records take up. -/
def yieldedSize : List (Option (Except ShpError ShpPolygonRecord)) → Nat
  | [] => 0
  | some (.ok record) :: rest => recordSize record.rings + yieldedSize rest
  | _ :: rest => yieldedSize rest

/-- Contents on which the reader panics: the type, the number of parts or the
number of points is missing. -/
def Incomplete (content : Bytes) : Prop :=
  content.length < 4 ∨ (u32le content 0 = 5 ∧ (content.length < 40 ∨ (content.length < 44 ∧ u32le content 36 ≠ 0)))

end TopoGeo.Spec
