import Verif.Proofs.ReadProgramRounds
import Verif.Props.Example
import Verif.Model.Reads
/-!
# Property C112: how long reading takes, and how much it allocates
-/

namespace TopoGeo

open Timed Spec

/-- C112: counting the rounds of the loops does not change what is computed. -/
theorem C112_same {σ τ : Type} [Source σ] [Source τ] (m : Build) (s : ShpReader σ) (d : DbfReader τ) (file : σ)
    (enc : Encoding) (it : ShapefileGeoIterator σ τ) (fuel : Nat) (fs : FileSystem σ) (path : Path) :
    (ShpReader.newT m file).result = ShpReader.new m file ∧ s.nextT.result = s.next ∧
    (DbfReader.newT m file enc).result = DbfReader.new m file enc ∧ d.nextT.result = .ok d.next ∧
    (it.nextT m).result = it.next m ∧
    (shpToGeoDataT m fuel fs path enc).result = shpToGeoData m fuel fs path enc :=
  ⟨shpNewT_result m file, shpNextT_result s, dbfNewT_result m file enc, dbfNextT_result d, geoNextT_result m it,
    shpToGeoDataT_result m fuel fs path enc⟩

/-- C112: reading a polygon takes a bounded time, whatever the source; unless the
source fails, it is linear in the bytes that this takes from the source. -/
theorem C112_shp_next {σ : Type} [Source σ] (r : ShpReader σ) :
    r.nextT.rounds ≤ 3 * longestRecord ∧
    (∀ record r', r.next = .ok (some (.ok record), r') →
      r.nextT.rounds ≤ 3 * (r'.nBytesAlreadyRead - r.nBytesAlreadyRead)) ∧
    ∀ size : σ → Nat, HoldsAtMost size → (∀ e r', r.next ≠ .ok (some (.error (.io e)), r')) →
      r.nextT.rounds ≤ 3 * size r.file ∧
      ∀ o r', r.next = .ok (o, r') → r.nextT.rounds + 3 * size r'.file ≤ 3 * size r.file := by
  obtain ⟨spent, h1, h2, h3, h4⟩ := shpNextT_spent r
  refine ⟨by omega, fun record r' h => ?_, fun size hs hio => ?_⟩
  · have := (h3 record r' h).1
    omega
  · obtain ⟨h5, h6⟩ := h4 size hs hio
    exact ⟨by omega, fun o r' h => by have := h6 o r' h; omega⟩

/-- C112: opening a .dbf file takes a bounded time, and unless the source fails, it
is linear in what this takes from the source. -/
theorem C112_dbf_open {σ : Type} [Source σ] (m : Build) (file : σ) (enc : Encoding) :
    (DbfReader.newT m file enc).rounds ≤ 3 * 65535 ∧
    ∀ size : σ → Nat, HoldsAtMost size → (∀ e, DbfReader.new m file enc ≠ .ok (.error (.io e))) →
      (DbfReader.newT m file enc).rounds ≤ 3 * size file ∧
      ∀ r, DbfReader.new m file enc = .ok (.ok r) →
        (DbfReader.newT m file enc).rounds + 3 * size r.file ≤ 3 * size file ∧ r.dbfMeta.nBytesPerRecord ≤ 65535 := by
  obtain ⟨spent, h1, h2, h3⟩ := dbfNewT_spent m file enc
  refine ⟨by omega, fun size hs hio => ?_⟩
  obtain ⟨h4, h5⟩ := h3 size hs hio
  exact ⟨by omega, fun r h => ⟨by have := (h5 r h).1; omega, (h5 r h).2⟩⟩

/-- C112: reading a record of a .dbf file takes time linear in the length of records
that the header announces, and that many bytes are taken from the source. -/
theorem C112_dbf_next {σ : Type} [Source σ] (r r' : DbfReader σ) (o : Option (Except DbfError DbfRecord))
    (h : r.next = (o, r')) :
    r.nextT.rounds ≤ 2 * r.dbfMeta.nBytesPerRecord + 1 ∧
    ∀ record, o = some (.ok record) → record.bytes.length = r.dbfMeta.nBytesPerRecord ∧
      ∀ size : σ → Nat, HoldsAtMost size → r.nextT.rounds + 2 * size r'.file ≤ 2 * size r.file + 1 := by
  have h1 := dbfNextT_rounds r
  refine ⟨h1, fun record ho => ?_⟩
  obtain ⟨h2, h3⟩ := (dbfNext_spent h).2 record ho
  exact ⟨h2, fun size hs => by have := h3 size hs; omega⟩

/-- C112: reading a region takes time linear in what it takes from the two sources,
which also bounds the size of the region and its attributes. -/
theorem C112_geo_next {σ τ : Type} [Source σ] [Source τ] (size : σ → Nat) (size' : τ → Nat) (hs : HoldsAtMost size)
    (hs' : HoldsAtMost size') (m : Build) (it it' : ShapefileGeoIterator σ τ) (region : Region DbfRecord)
    (h : it.next m = .ok (some (.ok region), it')) :
    (it.nextT m).rounds + 30 * size it'.reader.shpReader.file + 3 * size' it'.reader.dbfReader.file ≤
      30 * size it.reader.shpReader.file + 3 * size' it.reader.dbfReader.file ∧
    regionVolume region + size it'.reader.shpReader.file ≤ size it.reader.shpReader.file ∧
    region.data.bytes.length + size' it'.reader.dbfReader.file ≤ size' it.reader.dbfReader.file := by
  obtain ⟨h1, h2, h3, _⟩ := geoNextT_region hs hs' m h
  unfold ahead at h1
  exact ⟨by omega, h2, h3⟩

/-- C112: the example program takes `O(n log n)` time, `n` being the size of the files,
if it ends successfully or panics. In any case it takes at most as much and a
constant, which is that of reading a record that is announced and not there. -/
theorem C112_program {σ : Type} [Source σ] (size : σ → Nat) (hs : HoldsAtMost size) (m : Build) (fuel : Nat)
    (fs : FileSystem σ) (path : Path) (enc : Encoding) (shp dbf : Nat) (h1 : fileSize size fs path = shp)
    (h2 : fileSize size fs (setExtension path "dbf".toList) = dbf) :
    (shpToGeoDataT m fuel fs path enc).rounds ≤ programRounds shp dbf + (3 * longestRecord + 131072) ∧
    ((∀ e, shpToGeoData m fuel fs path enc ≠ .ok (.error e)) →
      (shpToGeoDataT m fuel fs path enc).rounds ≤ programRounds shp dbf) := by
  subst h1 h2
  exact shpToGeoDataT_rounds hs m fuel fs path enc

/-- What is left of a file in memory bounds what can be read from it. -/
theorem C112_file : HoldsAtMost fun f : MemFile => f.data.length := by
  intro s n b s' h
  by_cases hn : n ≤ s.data.length
  · simp only [Source.readExact, hn, if_true] at h
    cases h
    simp only [List.length_drop]
    omega
  · simp only [Source.readExact, hn, if_false] at h
    cases h

/-- A file that announces a record of 8 GiB and ends there, and a table. -/
def hollowFiles : FileSystem MemFile := fun p =>
  if p = ["a.shp".toList] then
    .ok ⟨(writeShp unitBox neighbourRecords).take 100 ++ [0, 0, 0, 1, 255, 255, 255, 255]⟩
  else if p = ["a.dbf".toList] then .ok ⟨writeDbf dbfTable⟩ else .error (.other 2)

/-- The constant is needed: for files of 108 and of fewer than 256 bytes the program
fills and reads 8 GiB before it fails. -/
theorem C112_announced_refuted :
    fileSize (fun f : MemFile => f.data.length) hollowFiles ["a.shp".toList] = 108 ∧
    fileSize (fun f : MemFile => f.data.length) hollowFiles (setExtension ["a.shp".toList] "dbf".toList) < 256 ∧
    shpToGeoData .release 3 hollowFiles ["a.shp".toList] Encoding.ascii = .ok (.error (.shp (.io .unexpectedEof))) ∧
    2 ^ 34 ≤ (shpToGeoDataT .release 3 hollowFiles ["a.shp".toList] Encoding.ascii).rounds ∧
    programRounds 108 256 < 2 ^ 20 := by
  refine ⟨by decide +kernel, by decide +kernel, by decide +kernel, by decide +kernel, by decide +kernel⟩

/-- What is left of a file that the operating system delivers in pieces: the bytes in
the buffer and those that may still arrive. -/
def leftOf (f : BufReader) : Nat :=
  f.buffer.length + (f.inner.ahead.map fun d => match d with | .bytes bs => bs.length | _ => 0).sum

theorem rawRead_left {f f' : RawFile} {n : Nat} {r : Except ReadError Bytes} (h : f.read n = (r, f')) :
    (f'.ahead.map fun d => match d with | .bytes bs => bs.length | _ => 0).sum +
      (match (generalizing := false) r with | .ok bs => bs.length | .error _ => 0) ≤
    (f.ahead.map fun d => match d with | .bytes bs => bs.length | _ => 0).sum := by
  unfold RawFile.read at h
  rcases hf : f.ahead with _ | ⟨_ | _ | _, rest⟩
  · rw [hf] at h; cases h; simp [hf]
  · rw [hf] at h
    simp only at h
    split at h
    · cases h; simp only [List.map_cons, List.sum_cons]; omega
    · cases h; simp only [List.map_cons, List.sum_cons, List.length_take, List.length_drop]; omega
  · rw [hf] at h; cases h; simp
  · rw [hf] at h; cases h; simp

theorem bufRead_left {f f' : BufReader} {n : Nat} {r : Except ReadError Bytes} (h : f.read n = (r, f')) :
    leftOf f' + (match (generalizing := false) r with | .ok bs => bs.length | .error _ => 0) ≤ leftOf f := by
  unfold BufReader.read at h
  split at h
  · split at h
    · generalize hi : f.inner.read n = x at h
      obtain ⟨r', inner⟩ := x
      have := rawRead_left hi
      cases h
      unfold leftOf
      dsimp only at *
      omega
    · generalize hi : f.inner.read f.capacity = x at h
      obtain ⟨e | bs, inner⟩ := x
      · have := rawRead_left hi
        cases h
        unfold leftOf
        dsimp only at *
        omega
      · have := rawRead_left hi
        cases h
        unfold leftOf
        simp only [List.length_take, List.length_drop] at *
        omega
  · cases h
    unfold leftOf
    simp only [List.length_take, List.length_drop]
    omega

theorem readExactLoop_left {fuel : Nat} {f f' : BufReader} {n : Nat} {acc out : Bytes}
    (h : readExactLoop BufReader.read fuel f n acc = (.ok out, f')) : leftOf f' + out.length ≤ leftOf f + acc.length := by
  induction fuel generalizing f n acc with
  | zero => cases h
  | succ fuel ih =>
    unfold readExactLoop at h
    split at h
    · cases h; exact Nat.le_refl _
    · generalize hr : f.read n = x at h
      obtain ⟨(_ | e) | bs, f1⟩ := x
      · have h1 := bufRead_left hr
        have h2 := ih h
        dsimp only at *
        omega
      · cases h
      · have h1 := bufRead_left hr
        dsimp only at *
        split at h
        · cases h
        · have h2 := ih h
          rw [List.length_append] at h2
          omega

/-- C112: the same of a file that arrives in pieces, behind a buffer. -/
theorem C112_pieces : HoldsAtMost leftOf := by
  intro f n b f' h
  have hl := Source.length_of_ok _ _ _ _ h
  simp only [Source.readExact, readExactOf] at h
  split at h
  · next bs f1 hloop =>
    have := readExactLoop_left hloop
    split at h
    · cases h
      simp only [List.length_nil] at this
      omega
    · cases h
  · cases h

-- non-vacuity: a run that succeeds
example : fileSize (fun f : MemFile => f.data.length) neighbourFiles ["a.shp".toList] = 372 ∧
    (∀ e, shpToGeoData .debug 3 neighbourFiles ["a.shp".toList] Encoding.ascii ≠ .ok (.error e)) ∧
    (shpToGeoDataT .debug 3 neighbourFiles ["a.shp".toList] Encoding.ascii).rounds = 1570 := by
  have h : shpToGeoData .debug 3 neighbourFiles ["a.shp".toList] Encoding.ascii =
    .ok (.ok (2, ⟨2, 2, 0, 7, 1, 6, 14⟩, ⟨2, 2, 0, 3, 1, 2, 10⟩, ⟨0, 0, 0, 0, 0, 0, 0⟩)) := by decide +kernel
  refine ⟨by decide +kernel, (fun e he => by rw [h] at he; cases he), by decide +kernel⟩

-- non-vacuity: the other sources
example : leftOf ⟨[1, 2], 8, ⟨[.interrupted, .bytes [3, 4, 5]]⟩⟩ = 5 := by decide

end TopoGeo
