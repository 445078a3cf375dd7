import Verif.Model.Io
/-!
# `read`, `BufReader` and `read_exact`

`std::io` is outside /repo. The readers use it through `read_exact` only
(src/read/shapefile/shp.rs:139, :253, :260, dbf.rs:193, :239, :291), on anything
that can `read`; `shp::open` and `dbf::open` on an `io::BufReader` around a file
(shp.rs:366, dbf.rs:376). `Source` stands for all of this; here is what it hides:
a `read` may return fewer bytes than asked for, may be interrupted and may fail.
-/

namespace TopoGeo

/-- What a call of `read` runs into. Calls get the bytes of a delivery, the rest of
it at the next call if there was no room. -/
inductive Delivery where
  | bytes (bs : Bytes)
  | interrupted
  | failed (e : IoError)
deriving DecidableEq, Repr

/-- The error of a `read`: of kind `Interrupted`, or another. -/
inductive ReadError where
  | interrupted
  | io (e : IoError)
deriving DecidableEq, Repr

/-- A file as the operating system delivers it: what the next calls of `read` run
into, then its end. -/
structure RawFile where
  ahead : List Delivery
deriving DecidableEq, Repr

/-- `Read::read` of a file, into a buffer of `n > 0` bytes. -/
def RawFile.read (f : RawFile) (n : Nat) : Except ReadError Bytes × RawFile :=
  match f.ahead with
  | [] => (.ok [], f)
  | .bytes bs :: rest =>
    if bs.length ≤ n then (.ok bs, ⟨rest⟩) else (.ok (bs.take n), ⟨.bytes (bs.drop n) :: rest⟩)
  | .interrupted :: rest => (.error .interrupted, ⟨rest⟩)
  | .failed e :: rest => (.error (.io e), ⟨rest⟩)

/-- `io::BufReader`: the bytes that are in its buffer and not read, and the size of
the buffer. -/
structure BufReader where
  buffer : Bytes
  capacity : Nat
  inner : RawFile
deriving DecidableEq, Repr

/-- `<io::BufReader as Read>::read`: a large read bypasses an empty buffer; any other
is served from the buffer, which is filled if it is empty. -/
def BufReader.read (f : BufReader) (n : Nat) : Except ReadError Bytes × BufReader :=
  if f.buffer = [] then
    if f.capacity ≤ n then
      match f.inner.read n with
      | (r, inner) => (r, { f with inner := inner })
    else
      match f.inner.read f.capacity with
      | (.error e, inner) => (.error e, { f with inner := inner })
      | (.ok bs, inner) => (.ok (bs.take n), { f with buffer := bs.drop n, inner := inner })
  else (.ok (f.buffer.take n), { f with buffer := f.buffer.drop n })

/-- `Read::read_exact`, as `std` implements it: reads until the buffer is full, again
if interrupted; the end of the file is an error. The loop is cut off after `fuel`
calls of `read`; C108 shows that the numbers below are enough. -/
def readExactLoop {ρ : Type} (read : ρ → Nat → Except ReadError Bytes × ρ) :
    Nat → ρ → Nat → Bytes → Except IoError Bytes × ρ
  | 0, f, _, _ => (.error (.other 0), f)
  | fuel + 1, f, n, acc =>
    if n = 0 then (.ok acc, f)
    else match read f n with
      | (.ok bs, f') =>
        if bs = [] then (.error .unexpectedEof, f') else readExactLoop read fuel f' (n - bs.length) (acc ++ bs)
      | (.error .interrupted, f') => readExactLoop read fuel f' n acc
      | (.error (.io e), f') => (.error e, f')

/-- `read_exact` fills the buffer or fails; more bytes than there is room for, which no
`read` returns, count as a failure. -/
def readExactOf {ρ : Type} (read : ρ → Nat → Except ReadError Bytes × ρ) (fuel : Nat) (f : ρ) (n : Nat) :
    Except IoError Bytes × ρ :=
  match readExactLoop read fuel f n [] with
  | (.ok bs, f') => if bs.length = n then (.ok bs, f') else (.error (.other 0), f')
  | (.error e, f') => (.error e, f')

theorem length_of_readExactOf {ρ : Type} {read : ρ → Nat → Except ReadError Bytes × ρ} {fuel : Nat} {f f' : ρ} {n : Nat}
    {bs : Bytes} (h : readExactOf read fuel f n = (.ok bs, f')) : bs.length = n := by
  unfold readExactOf at h
  split at h
  · split at h
    · next hn => cases h; exact hn
    · cases h
  · cases h

instance : Source RawFile where
  readExact f n := readExactOf RawFile.read (n + f.ahead.length + 1) f n
  length_of_ok _ _ _ _ h := length_of_readExactOf h

instance : Source BufReader where
  readExact f n := readExactOf BufReader.read (n + f.inner.ahead.length + 1) f n
  length_of_ok _ _ _ _ h := length_of_readExactOf h

end TopoGeo
