import Verif.Model.Reads
import Verif.Spec.Dbf
import Verif.Model.Open
import Verif.Spec.Program
/-!
# Files that arrive piece by piece, or only in part
-/

namespace TopoGeo.Spec

/-- The bytes that arrive before anything fails. -/
def arriving : List Delivery → Bytes
  | [] => []
  | .bytes bs :: rest => bs ++ arriving rest
  | .interrupted :: rest => arriving rest
  | .failed _ :: _ => []

/-- What fails after these bytes, if anything does. -/
def fault : List Delivery → Option IoError
  | [] => none
  | .failed e :: _ => some e
  | _ :: rest => fault rest

/-- No delivery is empty: a `read` of no bytes says that the file has ended. -/
def NonEmpty (l : List Delivery) : Prop := Delivery.bytes [] ∉ l

/-- A file of which `bs` arrives, in pieces of any size, with any number of
interruptions and through a buffer of any size, and then `broken`. -/
def Arrives (f : BufReader) (bs : Bytes) (broken : Option IoError) : Prop :=
  f.buffer = [] ∧ 0 < f.capacity ∧ NonEmpty f.inner.ahead ∧ arriving f.inner.ahead = bs ∧ fault f.inner.ahead = broken

/-- Same, without a buffer. -/
def ArrivesRaw (f : RawFile) (bs : Bytes) (broken : Option IoError) : Prop :=
  NonEmpty f.ahead ∧ arriving f.ahead = bs ∧ fault f.ahead = broken

/-- A file arrives, or some of it and then an error in `E`. -/
def PartArrives (E : IoError → Prop) (f : BufReader) (whole : Bytes) : Prop :=
  Arrives f whole none ∨ ∃ e bs rest, E e ∧ whole = bs ++ rest ∧ Arrives f bs (some e)

/-- A file arrives, or all but some of the last `left` bytes. -/
def EnoughArrives (f : BufReader) (whole : Bytes) (left : Nat) : Prop :=
  Arrives f whole none ∨ ∃ e bs rest, whole = bs ++ rest ∧ rest ≠ [] ∧ rest.length ≤ left ∧ Arrives f bs (some e)

/-- The files of a file system arrive, or parts of them. -/
def FilesArrive (E : IoError → Prop) (fs : FileSystem BufReader) (whole : FileSystem MemFile) : Prop :=
  ∀ path, (∃ e, fs path = .error e ∧ whole path = .error e) ∨
    ∃ f t, fs path = .ok f ∧ whole path = .ok t ∧ PartArrives E f t.data

/-- What a caller sees. -/
inductive Seen (α : Type) where
  | panicked (p : Panic)
  | error (e : ShapefileError)
  | opened (box : ShpBoundingBox) (fields : List DbfField)
  | item (a : α)
  | none

/-- What a call of `next` returned. -/
def seenItem {α : Type} : Option (Except ShapefileError α) → Seen α
  | .none => .none
  | some (.error e) => .error e
  | some (.ok a) => .item a

/-- What a caller of `next` sees, up to `k` times and up to a panic. -/
def watch {ι α : Type} (next : ι → R (Option (Except ShapefileError α) × ι)) : Nat → ι → List (Seen α)
  | 0, _ => []
  | k + 1, it => match next it with
    | .error p => [.panicked p]
    | .ok (o, it') => seenItem o :: watch next k it'

/-- What is seen by opening a shapefile, if that works, and then calling `next`. -/
def watchOpen {σ τ ι α : Type} (opened : R (Except ShapefileError (ShapefileReader σ τ))) (iter : ShapefileReader σ τ → ι)
    (next : ι → R (Option (Except ShapefileError α) × ι)) (k : Nat) : List (Seen α) :=
  match opened with
  | .error p => [.panicked p]
  | .ok (.error e) => [.error e]
  | .ok (.ok r) => .opened r.boundingBox r.dbfFields :: watch next k (iter r)

/-- The records of a shapefile. -/
def watchRecords {σ τ : Type} [Source σ] [Source τ] (m : Build) (enc : Encoding) (f : σ) (g : τ) (k : Nat) :
    List (Seen ShapefileRecord) :=
  watchOpen (ShapefileReader.new m f g enc) id ShapefileReader.next k

/-- The regions of a shapefile. -/
def watchRegions {σ τ : Type} [Source σ] [Source τ] (m : Build) (enc : Encoding) (f : σ) (g : τ) (k : Nat) :
    List (Seen (Region DbfRecord)) :=
  watchOpen (ShapefileReader.new m f g enc) ShapefileGeoIterator.new (ShapefileGeoIterator.next m) k

/-- The same is seen, or the same up to an error. The error is one of `E`, passed on;
or the other file was found wrong at the same point: then the same error is seen, or a
panic is avoided. -/
inductive BreaksOff {α : Type} (E : IoError → Prop) : List (Seen α) → List (Seen α) → Prop
  | same (l : List (Seen α)) : BreaksOff E l l
  | broken (pre rest more : List (Seen α)) (err : ShapefileError) (e : IoError) (he : E e) (h : PassedOn err e) :
      BreaksOff E (pre ++ rest) (pre ++ .error err :: more)
  | hidden (pre rest more : List (Seen α)) (err : ShapefileError) (o : Seen α) (e : IoError) (he : E e)
      (h : o = .error err ∨ ∃ p, o = .panicked p) : BreaksOff E (pre ++ o :: rest) (pre ++ .error err :: more)

/-- Nothing but a panic is seen. -/
def Panicked {α : Type} (l : List (Seen α)) : Prop := ∃ p, l = [.panicked p]

/-- A run of a program that is `run`; or that stops within it, after some of its lines,
because of an error in `E`; or at a point where `run` itself ends with an error or a
panic. -/
inductive StopsWithin (E : IoError → Prop) (showIo : IoError → Text) (enc : Encoding) (run : ProgramRun) : ProgramRun → Prop
  | same : StopsWithin E showIo enc run run
  | stops (lines more : List Text) (opened : Bool) (err : ShapefileError) (e : IoError) (he : E e) (h : PassedOn err e)
      (hl : run.stdout = lines ++ more) :
      StopsWithin E showIo enc run ⟨lines, [errorTitle opened ++ err.show showIo enc], .code 1⟩
  | hidden (message : Text) (p : Panic) (hp : run.exit = .panicked p) (e : IoError) (he : E e) :
      StopsWithin E showIo enc run ⟨run.stdout, [message], .code 1⟩

end TopoGeo.Spec
