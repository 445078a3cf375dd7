import Verif.Model.Basic
/-!
# Byte sources, slices and number decoding shared by the shapefile readers

`std::io::Read` and the `byteorder` crate are outside /repo; this is the
interface of them that src/read/shapefile/*.rs uses.
-/

namespace TopoGeo

/-- `std::io::Error`, opaque to the readers, which only pass it on. -/
inductive IoError where
  | unexpectedEof
  | other (code : Nat)
deriving DecidableEq, Repr

abbrev Bytes := List UInt8

/-- Text (`String`) as a list of characters. -/
abbrev Text := List Char

/-- An implementor of `io::Read`, seen through `read_exact`: an arbitrary
deterministic state machine. The only law is the one `read_exact` documents:
on success the whole buffer was filled. -/
class Source (σ : Type) where
  readExact : σ → Nat → Except IoError Bytes × σ
  length_of_ok : ∀ s n b s', readExact s n = (.ok b, s') → b.length = n

/-- A file in memory, holding the bytes not yet read. A failed `read_exact`
consumes the rest (`std` leaves this unspecified). -/
structure MemFile where
  data : Bytes
deriving DecidableEq, Repr

instance : Source MemFile where
  readExact s n :=
    if n ≤ s.data.length then (.ok (s.data.take n), ⟨s.data.drop n⟩)
    else (.error .unexpectedEof, ⟨[]⟩)
  length_of_ok := by
    intro s n b s' h
    by_cases hn : n ≤ s.data.length
    · simp [hn] at h
      rw [← h.1]; simp [hn]
    · simp [hn] at h

/-- `&buf[a..b]`, which panics when out of bounds. -/
def slice {α : Type} (buf : List α) (a b : Nat) : R (List α) :=
  if a ≤ b ∧ b ≤ buf.length then .ok ((buf.drop a).take (b - a)) else .error .index

/-- `&buf[a..]`. -/
def sliceFrom {α : Type} (buf : List α) (a : Nat) : R (List α) :=
  if a ≤ buf.length then .ok (buf.drop a) else .error .index

/-- `slice::chunks`; fuel is the length of the list. -/
def chunksFuel {α : Type} (n : Nat) : Nat → List α → List (List α)
  | 0, _ => []
  | fuel + 1, l => match l with
    | [] => []
    | _ :: _ => l.take n :: chunksFuel n fuel (l.drop n)

/-- `slice::chunks(n)` for `n > 0`. -/
def chunks {α : Type} (n : Nat) (l : List α) : List (List α) := chunksFuel n l.length l

/-- Little-endian value of bytes (`byteorder::LittleEndian`). -/
def leNat : Bytes → Nat
  | [] => 0
  | b :: rest => b.toNat + 256 * leNat rest

/-- Big-endian value of bytes (`byteorder::BigEndian`). -/
def beNat (bs : Bytes) : Nat := leNat bs.reverse

/-- `read_u16`/`read_u32`/`read_u64` of the first `k` bytes of a slice; panics
when the slice is shorter. -/
def readLE (k : Nat) (bs : Bytes) : R Nat :=
  if k ≤ bs.length then .ok (leNat (bs.take k)) else .error .index

/-- Same, big-endian. -/
def readBE (k : Nat) (bs : Bytes) : R Nat :=
  if k ≤ bs.length then .ok (beNat (bs.take k)) else .error .index

/-- `LittleEndian::read_f64`: the bits of the `f64`. -/
def readF64 (bs : Bytes) : R UInt64 := do
  let n ← readLE 8 bs
  .ok (UInt64.ofNat n)

/-- The `u32` result of an operation whose mathematical value is `z`. -/
def Build.u32 (m : Build) (z : Nat) : R Nat :=
  if z < 2 ^ 32 then .ok z
  else match m with
    | .debug => .error .overflow
    | .release => .ok (z % 2 ^ 32)

end TopoGeo
