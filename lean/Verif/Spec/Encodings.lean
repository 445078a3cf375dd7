import Verif.Model.Shapefile
/-!
# Specification: text in files

Encoders, as seen by whoever wrote the file, and readers of the same files under another
encoding.
-/

namespace TopoGeo.Spec

/-- The bytes of a character in UTF-8, by its code point (Unicode Standard, table 3-6). -/
def utf8Char (c : Char) : List Nat :=
  let n := c.toNat
  if n < 0x80 then [n]
  else if n < 0x800 then [0xc0 + n / 64, 0x80 + n % 64]
  else if n < 0x10000 then [0xe0 + n / 4096, 0x80 + n / 64 % 64, 0x80 + n % 64]
  else [0xf0 + n / 262144, 0x80 + n / 4096 % 64, 0x80 + n / 64 % 64, 0x80 + n % 64]

/-- The bytes of a text in UTF-8. -/
def utf8Bytes (t : Text) : Bytes := (t.flatMap utf8Char).map UInt8.ofNat

/-- The bytes of a text in ASCII, if it has any. -/
def IsAscii (t : Text) (bs : Bytes) : Prop := bs.map UInt8.toNat = t.map Char.toNat ∧ ∀ c ∈ t, c.toNat < 128

/-- The bytes that stand for different characters in windows-1252 and in ISO 8859-1. -/
def windows1252Table : List (Nat × Char) :=
  [(0x80, '€'), (0x82, '‚'), (0x83, 'ƒ'), (0x84, '„'), (0x85, '…'), (0x86, '†'), (0x87, '‡'), (0x88, 'ˆ'), (0x89, '‰'),
   (0x8a, 'Š'), (0x8b, '‹'), (0x8c, 'Œ'), (0x8e, 'Ž'), (0x91, '‘'), (0x92, '’'), (0x93, '“'), (0x94, '”'), (0x95, '•'),
   (0x96, '–'), (0x97, '—'), (0x98, '˜'), (0x99, '™'), (0x9a, 'š'), (0x9b, '›'), (0x9c, 'œ'), (0x9e, 'ž'), (0x9f, 'Ÿ')]

/-- A byte stands for a character in windows-1252. -/
def IsWindows1252 (b : UInt8) (c : Char) : Prop :=
  (b.toNat, c) ∈ windows1252Table ∨ (c.toNat = b.toNat ∧ b.toNat ∉ windows1252Table.map Prod.fst)

/-- What one encoding decodes, the other decodes in the same way. -/
def Extends (enc enc' : Encoding) : Prop := ∀ bs t, enc.decode bs = .ok t → enc'.decode bs = .ok t

/-- The same type, for another encoding. -/
def _root_.TopoGeo.DbfType.recode (enc : Encoding) : DbfType → DbfType
  | .character _ => .character enc
  | t => t

/-- The same field, for another encoding. -/
def _root_.TopoGeo.DbfField.recode (enc : Encoding) (f : DbfField) : DbfField := { f with dataType := f.dataType.recode enc }

/-- The same description of a table, for another encoding. -/
def _root_.TopoGeo.DbfMeta.recode (enc : Encoding) (d : DbfMeta) : DbfMeta := { d with fields := d.fields.map (·.recode enc) }

/-- The same record, for another encoding. -/
def _root_.TopoGeo.DbfRecord.recode (enc : Encoding) (r : DbfRecord) : DbfRecord := { r with dbfMeta := r.dbfMeta.recode enc }

/-- The same reader, for another encoding. -/
def _root_.TopoGeo.DbfReader.recode {σ : Type} (enc : Encoding) (r : DbfReader σ) : DbfReader σ :=
  { r with dbfMeta := r.dbfMeta.recode enc }

/-- The same record of a shapefile, for another encoding. -/
def _root_.TopoGeo.ShapefileRecord.recode (enc : Encoding) (r : ShapefileRecord) : ShapefileRecord :=
  { r with data := r.data.recode enc }

/-- The same reader of a shapefile, for another encoding. -/
def _root_.TopoGeo.ShapefileReader.recode {σ τ : Type} (enc : Encoding) (r : ShapefileReader σ τ) : ShapefileReader σ τ :=
  { r with dbfReader := r.dbfReader.recode enc }

end TopoGeo.Spec
