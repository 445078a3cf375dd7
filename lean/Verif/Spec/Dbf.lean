import Verif.Model.Dbf
/-!
# Specification: .dbf files

The layout of dBase III files as a writer sees it, and what the fields of a
record mean.
-/

namespace TopoGeo.Spec

/-- The `k` lowest bytes of a number, lowest first. -/
def leBytes : Nat → Nat → Bytes
  | 0, _ => []
  | k + 1, n => UInt8.ofNat (n % 256) :: leBytes k (n / 256)

/-- The `k` lowest bytes of a number, highest first. -/
def beBytes (k n : Nat) : Bytes := (leBytes k n).reverse

/-- The results of `n` calls of an iterator's `next`, and the iterator after
that. -/
def calls {ι ο : Type} (next : ι → ο × ι) : Nat → ι → List ο × ι
  | 0, it => ([], it)
  | n + 1, it =>
    let (o, it1) := next it
    let (os, it2) := calls next n it1
    (o :: os, it2)

/-- Same, for a `next` that may panic. -/
def callsR {ι ο : Type} (next : ι → R (ο × ι)) : Nat → ι → R (List ο × ι)
  | 0, it => .ok ([], it)
  | n + 1, it => do
    let (o, it1) ← next it
    let (os, it2) ← callsR next n it1
    .ok (o :: os, it2)

/-! ## Fields -/

/-- Each field starts where the one before it ends, the first one at `start`. -/
def Tiled : Nat → List DbfField → Prop
  | _, [] => True
  | start, f :: rest => f.offset = start ∧ Tiled (start + f.len) rest

/-- The type that a code stands for. -/
def IsType (enc : Encoding) (code : UInt8) (t : DbfType) : Prop :=
  (code.toNat = 'C'.toNat ∧ t = .character enc) ∨ (code.toNat = 'N'.toNat ∧ t = .numeric) ∨
  (code.toNat = 'L'.toNat ∧ t = .logical) ∨ (code.toNat = 'D'.toNat ∧ t = .date) ∨
  (code.toNat = 'F'.toNat ∧ t = .floatingPoint) ∨ (code.toNat = '@'.toNat ∧ t = .timestamp) ∨
  (code.toNat = 'O'.toNat ∧ t = .double) ∨ ((code.toNat = '+'.toNat ∨ code.toNat = '|'.toNat) ∧ t = .long) ∨
  (code.toNat ∉ "CNLDF@O+|".toList.map Char.toNat ∧ t = .unsupported)

/-- What a 32-byte descriptor says: the name, up to the first zero byte; the type
code and the length. -/
structure Describes (enc : Encoding) (desc : Bytes) (f : DbfField) : Prop where
  name : ∃ raw rest, desc.take 11 = raw ++ rest ∧ 0 ∉ raw ∧ (rest = [] ∨ rest.head? = some 0) ∧ enc.decode raw = .ok f.name
  type : ∃ code, desc[11]? = some code ∧ IsType enc code f.dataType
  len : ∃ len, desc[16]? = some len ∧ f.len = len.toNat

/-! ## Values -/

/-- ASCII digits, at least one. -/
def Digits (s : Bytes) : Prop := s ≠ [] ∧ ∀ b ∈ s, 0x30 ≤ b.toNat ∧ b.toNat ≤ 0x39

/-- A decimal number: an optional minus sign, digits, and optionally a point and
more digits. -/
def IsNumber (s : Bytes) : Prop :=
  ∃ sign ds frac, s = sign ++ ds ++ frac ∧ (sign = [] ∨ sign = [0x2d]) ∧ Digits ds ∧
    (frac = [] ∨ ∃ fs, frac = 0x2e :: fs ∧ Digits fs)

/-- A number in decimal digits, without leading zeros. -/
def IsDecimal (t : Text) (n : Nat) : Prop :=
  t ≠ [] ∧ (∀ c ∈ t, '0'.toNat ≤ c.toNat ∧ c.toNat ≤ '9'.toNat) ∧ (t.head? = some '0' → t = ['0']) ∧
    t.foldl (fun v c => 10 * v + (c.toNat - '0'.toNat)) 0 = n

/-- Types that the reader does not implement. -/
def NotImplemented : DbfType → Prop
  | .logical | .date | .floatingPoint | .timestamp | .double | .unsupported => True
  | _ => False

/-- The bytes of a field in a record. -/
def FieldBytes (f : DbfField) (record bytes : Bytes) : Prop :=
  ∃ before after, record = before ++ bytes ++ after ∧ before.length = f.offset ∧ bytes.length = f.len

/-! ## Writing -/

/-- A column. -/
structure Column where
  name : Bytes
  code : UInt8
  len : Nat
deriving DecidableEq, Repr

/-- A table. -/
structure Table where
  version : UInt8
  year : UInt8
  month : UInt8
  day : UInt8
  columns : List Column
  recordLength : Nat
  records : List Bytes
deriving DecidableEq, Repr

/-- A 32-byte field descriptor. -/
def writeColumn (c : Column) : Bytes :=
  c.name ++ List.replicate (11 - c.name.length) 0 ++ [c.code, 0, 0, 0, 0, UInt8.ofNat c.len] ++ List.replicate 15 0

/-- The bytes of a table: header, descriptors, terminator, records. -/
def writeDbf (t : Table) : Bytes :=
  [t.version, t.year, t.month, t.day] ++ leBytes 4 t.records.length ++ leBytes 2 (33 + 32 * t.columns.length) ++
    leBytes 2 t.recordLength ++ List.replicate 20 0 ++ t.columns.flatMap writeColumn ++ [0x0d] ++ t.records.flatten

/-- Tables that the format can hold. -/
structure Fits (enc : Encoding) (t : Table) : Prop where
  month : t.month ≤ 12
  day : t.day ≤ 31
  records : t.records.length < 2 ^ 32
  header : 33 + 32 * t.columns.length < 2 ^ 16
  recordLength : t.recordLength < 2 ^ 16
  lengths : ∀ r ∈ t.records, r.length = t.recordLength
  columns : ∀ c ∈ t.columns, c.name.length ≤ 11 ∧ 0 ∉ c.name ∧ c.len < 256 ∧ ∃ name, enc.decode c.name = .ok name

/-- The field of a column. -/
def IsField (enc : Encoding) (c : Column) (f : DbfField) : Prop :=
  enc.decode c.name = .ok f.name ∧ IsType enc c.code f.dataType ∧ f.len = c.len

/-! ## Opening -/

/-- How opening a .dbf file can end. -/
inductive OpenDbf where
  | opens
  | ioError
  | badDate
  | badName
  | panics
deriving DecidableEq, Repr

/-- The announced length of the header. -/
def headerLength (bs : Bytes) : Nat := leNat ((bs.drop 8).take 2)

/-- The descriptors between the header and the records: as many whole ones as
fit. -/
def descriptors (bs : Bytes) : List Bytes :=
  (List.range ((headerLength bs - 32) / 32)).map fun i => (bs.drop (32 + 32 * i)).take 32

/-- The name in a descriptor: what precedes the first zero byte, of 11 bytes. -/
def rawName (desc : Bytes) : Bytes := (desc.take 11).takeWhile (· ≠ 0)

/-- Whether a decoder accepts some bytes. -/
def Encoding.accepts (enc : Encoding) (bs : Bytes) : Prop := ∃ t, enc.decode bs = .ok t

/-- How opening ends, for each file. -/
inductive Opening (enc : Encoding) (bs : Bytes) : OpenDbf → Prop where
  | short : bs.length < 32 → Opening enc bs .ioError
  | badDate (month day) : 32 ≤ bs.length → bs[2]? = some month → bs[3]? = some day → (12 < month ∨ 31 < day) →
      Opening enc bs .badDate
  | panics (month day) : 32 ≤ bs.length → bs[2]? = some month → bs[3]? = some day → month ≤ 12 → day ≤ 31 →
      headerLength bs < 32 → Opening enc bs .panics
  | truncated (month day) : 32 ≤ bs.length → bs[2]? = some month → bs[3]? = some day → month ≤ 12 → day ≤ 31 →
      32 ≤ headerLength bs → bs.length < headerLength bs → Opening enc bs .ioError
  | badName (month day) : bs[2]? = some month → bs[3]? = some day → month ≤ 12 → day ≤ 31 →
      32 ≤ headerLength bs → headerLength bs ≤ bs.length → (∃ d ∈ descriptors bs, ¬ Encoding.accepts enc (rawName d)) →
      Opening enc bs .badName
  | opens (month day) : bs[2]? = some month → bs[3]? = some day → month ≤ 12 → day ≤ 31 →
      32 ≤ headerLength bs → headerLength bs ≤ bs.length → (∀ d ∈ descriptors bs, Encoding.accepts enc (rawName d)) →
      Opening enc bs .opens

/-- The result of opening is of the given kind. -/
def EndsAs {ρ : Type} (x : R (Except DbfError ρ)) : OpenDbf → Prop
  | .opens => ∃ r, x = .ok (.ok r)
  | .ioError => ∃ e, x = .ok (.error (.io e))
  | .badDate => x = .ok (.error (.parse .badDate))
  | .badName => x = .ok (.error (.parse .badFieldName))
  | .panics => ∃ e, x = .error e

end TopoGeo.Spec
