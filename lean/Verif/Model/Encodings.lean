import Verif.Model.Open
/-!
# The text encodings that the crate asks for

`encoding::all::UTF_8` and `encoding::all::WINDOWS_1252` of the `encoding` crate under
`DecoderTrap::Strict`, the WHATWG labels, and the functions of /repo that use them. The
`encoding` crate is outside /repo; its decoders are modelled after its documentation and
the WHATWG encoding standard. `Encoding.ascii` is in Model/Dbf.lean.
-/

namespace TopoGeo

/-- The state of the UTF-8 decoder between two bytes: `need n lo hi cp` waits for `n + 1`
more bytes of a character whose bits so far are `cp`; the next one must be from `lo`
to `hi`. -/
inductive Utf8State where
  | start
  | need (n lo hi cp : Nat)
deriving DecidableEq, Repr

/-- The first byte of a character: the character itself, or what must follow. -/
def utf8First (b : Nat) : Option (Char ⊕ Utf8State) :=
  if b < 0x80 then some (.inl (Char.ofNat b))
  else if b < 0xc2 then none
  else if b < 0xe0 then some (.inr (.need 0 0x80 0xbf (b - 0xc0)))
  else if b = 0xe0 then some (.inr (.need 1 0xa0 0xbf 0))
  else if b = 0xed then some (.inr (.need 1 0x80 0x9f 0xd))
  else if b < 0xf0 then some (.inr (.need 1 0x80 0xbf (b - 0xe0)))
  else if b = 0xf0 then some (.inr (.need 2 0x90 0xbf 0))
  else if b < 0xf4 then some (.inr (.need 2 0x80 0xbf (b - 0xf0)))
  else if b = 0xf4 then some (.inr (.need 2 0x80 0x8f 4))
  else none

/-- Decodes the rest of the input from some state. -/
def utf8Loop : Utf8State → Bytes → Except Text Text
  | .start, [] => .ok []
  | .need _ _ _ _, [] => .error "incomplete sequence".toList
  | .start, b :: rest =>
    match utf8First b.toNat with
    | none => .error "invalid sequence".toList
    | some (.inl c) => (utf8Loop .start rest).map (c :: ·)
    | some (.inr s) => utf8Loop s rest
  | .need n lo hi cp, b :: rest =>
    if lo ≤ b.toNat ∧ b.toNat ≤ hi then
      match n with
      | 0 => (utf8Loop .start rest).map (Char.ofNat (cp * 64 + (b.toNat - 0x80)) :: ·)
      | n + 1 => utf8Loop (.need n 0x80 0xbf (cp * 64 + (b.toNat - 0x80))) rest
    else .error "invalid sequence".toList

/-- `encoding::all::UTF_8` under `DecoderTrap::Strict`. -/
def Encoding.utf8 : Encoding where
  name := "utf-8".toList
  decode bs := utf8Loop .start bs

/-- The characters of windows-1252 for the bytes 0x80 to 0x9f. -/
def windows1252High : List Nat :=
  [0x20ac, 0x81, 0x201a, 0x192, 0x201e, 0x2026, 0x2020, 0x2021, 0x2c6, 0x2030, 0x160, 0x2039, 0x152, 0x8d, 0x17d, 0x8f,
   0x90, 0x2018, 0x2019, 0x201c, 0x201d, 0x2022, 0x2013, 0x2014, 0x2dc, 0x2122, 0x161, 0x203a, 0x153, 0x9d, 0x17e, 0x178]

/-- One byte of windows-1252. -/
def windows1252Char (b : UInt8) : Char :=
  if b.toNat < 0x80 then Char.ofNat b.toNat
  else match windows1252High[b.toNat - 0x80]? with
    | some c => Char.ofNat c
    | none => Char.ofNat b.toNat

/-- `encoding::all::WINDOWS_1252` under `DecoderTrap::Strict`: every byte is some
character. -/
def Encoding.windows1252 : Encoding where
  name := "windows-1252".toList
  decode bs := .ok (bs.map windows1252Char)

/-- `encoding::label::encoding_from_whatwg_label`, for the labels of the two encodings
above. In the WHATWG standard "ascii" is a label of windows-1252. -/
def whatwgLabel (label : Text) : Option Encoding :=
  if label ∈ ["ascii".toList, "us-ascii".toList, "iso-8859-1".toList, "latin1".toList, "windows-1252".toList,
      "cp1252".toList] then some Encoding.windows1252
  else if label ∈ ["utf-8".toList, "utf8".toList, "unicode-1-1-utf-8".toList] then some Encoding.utf8
  else none

/-- `shapefile::open_utf8` (src/read/shapefile/mod.rs:97-99). -/
def shapefileOpenUtf8 {σ : Type} [Source σ] (m : Build) (fs : FileSystem σ) (shpPath : Path) :
    R (Except ShapefileError (ShapefileReader σ σ)) := shapefileOpen m fs shpPath Encoding.utf8

/-- `shapefile::open_windows1252` (src/read/shapefile/mod.rs:101-103). -/
def shapefileOpenWindows1252 {σ : Type} [Source σ] (m : Build) (fs : FileSystem σ) (shpPath : Path) :
    R (Except ShapefileError (ShapefileReader σ σ)) := shapefileOpen m fs shpPath Encoding.windows1252

end TopoGeo
