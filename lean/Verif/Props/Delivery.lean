import Verif.Proofs.DeliveryPrograms
import Verif.Props.Program
/-!
# Property theorems: how files arrive (C108)
-/

namespace TopoGeo
open Spec

/-- What the proofs know of a buffered reader. -/
abbrev BufAllBut := AllBut (fun f : BufReader => f.buffer ++ arriving f.inner.ahead) (fun f => fault f.inner.ahead)
  (fun f => 0 < f.capacity ∧ NonEmpty f.inner.ahead)

theorem bufAllBut_follows (E : IoError → Prop) (Q : Nat) (B : Prop) :
    Follows E (fun t : MemFile => t.data.length < Q ∨ B) (BufAllBut E Q B) :=
  allBut_follows bufReader_law (fun _ _ => rfl) E Q B

theorem bufAllBut_whole {f : BufReader} {bs : Bytes} (h : Arrives f bs none) (E : IoError → Prop) (B : Prop) :
    BufAllBut E 0 B f ⟨bs⟩ := by
  obtain ⟨h1, h2, h3, h4, h5⟩ := h
  exact ⟨⟨h2, h3⟩, [], rfl, by simp [h1, h4], .inl ⟨h5, rfl⟩⟩

theorem bufAllBut_part {f : BufReader} {bs rest : Bytes} {e : IoError} (h : Arrives f bs (some e)) {E : IoError → Prop}
    (he : E e) {B : Prop} (hB : 0 < rest.length ∨ B) : BufAllBut E rest.length B f ⟨bs ++ rest⟩ := by
  obtain ⟨h1, h2, h3, h4, h5⟩ := h
  exact ⟨⟨h2, h3⟩, rest, rfl, by simp [h1, h4], .inr ⟨e, h5, he, hB⟩⟩

theorem Spec.PartArrives.allBut {E : IoError → Prop} {f : BufReader} {bs : Bytes} (h : PartArrives E f bs) :
    ∃ Q, BufAllBut E Q True f ⟨bs⟩ := by
  rcases h with h | ⟨e, bs, rest, he, rfl, h⟩
  · exact ⟨0, bufAllBut_whole h E True⟩
  · exact ⟨rest.length, bufAllBut_part h he (.inr trivial)⟩

/-- The number of bytes that are missing may be any. -/
theorem bufPart_follows (E : IoError → Prop) :
    Follows E (fun _ : MemFile => True) (fun f t => ∃ Q, BufAllBut E Q True f t) where
  step := by
    rintro f t n ⟨Q, h⟩
    rcases (bufAllBut_follows E Q True).step f t n h with ⟨r, s', t', h1, h2, h3⟩ | ⟨e, s', r, t', h1, h2, h3, -⟩
    · exact .inl ⟨r, s', t', h1, h2, Q, h3⟩
    · exact .inr ⟨e, s', r, t', h1, h2, h3, trivial⟩
  past := fun _ _ _ _ _ _ => trivial

theorem Spec.BreaksOff.eq {α : Type} {E : IoError → Prop} (hE : ∀ e, ¬ E e) {l l' : List (Seen α)} (h : BreaksOff E l l') :
    l' = l := by
  cases h with
  | same => rfl
  | broken pre rest more err e he h => exact absurd he (hE e)
  | hidden pre rest more err o e he h => exact absurd he (hE e)

theorem Spec.StopsWithin.eq {E : IoError → Prop} (hE : ∀ e, ¬ E e) {showIo : IoError → Text} {enc : Encoding}
    {run run' : ProgramRun} (h : StopsWithin E showIo enc run run') : run' = run := by
  cases h with
  | same => rfl
  | stops lines more opened err e he h hl => exact absurd he (hE e)
  | hidden message p hp e he => exact absurd he (hE e)

/-- Reading from a file that arrives in pieces, with interruptions and through a buffer,
is reading it from memory. -/
theorem C108_pieces (m : Build) (enc : Encoding) (f g : BufReader) (shp dbf : Bytes) (hf : Arrives f shp none)
    (hg : Arrives g dbf none) (k : Nat) :
    watchRecords m enc f g k = watchRecords m enc (⟨shp⟩ : MemFile) (⟨dbf⟩ : MemFile) k ∧
    watchRegions m enc f g k = watchRegions m enc (⟨shp⟩ : MemFile) (⟨dbf⟩ : MemFile) k := by
  have h := bufAllBut_follows (fun _ => False) 0 False
  have h1 := bufAllBut_whole hf (fun _ => False) False
  have h2 := bufAllBut_whole hg (fun _ => False) False
  constructor
  · rcases watchRecords_kept h h m enc h1 h2 k with h | ⟨⟨e, he⟩, -⟩
    · exact h.eq fun _ h => h
    · exact he.elim
  · rcases watchRegions_kept h h m enc h1 h2 k with h | ⟨⟨e, he⟩, -⟩
    · exact h.eq fun _ h => h
    · exact he.elim

/-- So it is without a buffer. -/
theorem C108_unbuffered (m : Build) (enc : Encoding) (f g : RawFile) (shp dbf : Bytes) (hf : ArrivesRaw f shp none)
    (hg : ArrivesRaw g dbf none) (k : Nat) :
    watchRecords m enc f g k = watchRecords m enc (⟨shp⟩ : MemFile) (⟨dbf⟩ : MemFile) k ∧
    watchRegions m enc f g k = watchRegions m enc (⟨shp⟩ : MemFile) (⟨dbf⟩ : MemFile) k := by
  have h := allBut_follows rawFile_law (fun _ _ => rfl) (fun _ => False) 0 False
  have raw : ∀ (f : RawFile) (bs : Bytes), ArrivesRaw f bs none → AllBut (fun f : RawFile => arriving f.ahead)
      (fun f => fault f.ahead) (fun f => NonEmpty f.ahead) (fun _ => False) 0 False f ⟨bs⟩ := by
    rintro f bs ⟨h1, h2, h3⟩
    exact ⟨h1, [], rfl, by simp [h2], .inl ⟨h3, rfl⟩⟩
  constructor
  · rcases watchRecords_kept h h m enc (raw _ _ hf) (raw _ _ hg) k with h | ⟨⟨e, he⟩, -⟩
    · exact h.eq fun _ h => h
    · exact he.elim
  · rcases watchRegions_kept h h m enc (raw _ _ hf) (raw _ _ hg) k with h | ⟨⟨e, he⟩, -⟩
    · exact h.eq fun _ h => h
    · exact he.elim

/-- If only parts of the files arrive, what is seen is what would be seen of the whole
files, up to the error. -/
theorem C108_broken (E : IoError → Prop) (m : Build) (enc : Encoding) (f g : BufReader) (shp dbf : Bytes)
    (hf : PartArrives E f shp) (hg : PartArrives E g dbf) (k : Nat) :
    (BreaksOff E (watchRecords m enc (⟨shp⟩ : MemFile) (⟨dbf⟩ : MemFile) k) (watchRecords m enc f g k) ∨
      Panicked (watchRecords m enc (⟨shp⟩ : MemFile) (⟨dbf⟩ : MemFile) k) ∧ Panicked (watchRecords m enc f g k)) ∧
    (BreaksOff E (watchRegions m enc (⟨shp⟩ : MemFile) (⟨dbf⟩ : MemFile) k) (watchRegions m enc f g k) ∨
      Panicked (watchRegions m enc (⟨shp⟩ : MemFile) (⟨dbf⟩ : MemFile) k) ∧ Panicked (watchRegions m enc f g k)) := by
  have h := bufPart_follows E
  exact ⟨(watchRecords_kept h h m enc hf.allBut hg.allBut k).imp id fun h => h.2,
    (watchRegions_kept h h m enc hf.allBut hg.allBut k).imp id fun h => h.2⟩

/-- So it is with files that were cut off: the error is the unexpected end. -/
theorem C108_truncated (m : Build) (enc : Encoding) (shp shpRest dbf dbfRest : Bytes) (k : Nat) :
    BreaksOff (fun e => e = .unexpectedEof)
      (watchRecords m enc (⟨shp ++ shpRest⟩ : MemFile) (⟨dbf ++ dbfRest⟩ : MemFile) k)
      (watchRecords m enc (⟨shp⟩ : MemFile) (⟨dbf⟩ : MemFile) k) ∨
    Panicked (watchRecords m enc (⟨shp ++ shpRest⟩ : MemFile) (⟨dbf ++ dbfRest⟩ : MemFile) k) ∧
      Panicked (watchRecords m enc (⟨shp⟩ : MemFile) (⟨dbf⟩ : MemFile) k) :=
  (watchRecords_kept (truncated_follows shpRest.length True (.inr trivial)) (truncated_follows dbfRest.length True (.inr trivial))
    m enc ⟨shpRest, rfl, rfl⟩ ⟨dbfRest, rfl, rfl⟩ k).imp id fun h => h.2

/-- Nothing is read ahead of need: if, reading the whole files, `k` calls leave bytes
unread, then they return the same if these bytes never arrive. -/
theorem C108_no_lookahead (m : Build) (enc : Encoding) (f g : BufReader) (shp dbf : Bytes) (k : Nat)
    (r r' : ShapefileReader MemFile MemFile) (os : List (Option (Except ShapefileError ShapefileRecord)))
    (ho : ShapefileReader.new m (⟨shp⟩ : MemFile) (⟨dbf⟩ : MemFile) enc = .ok (.ok r))
    (hc : callsR ShapefileReader.next k r = .ok (os, r')) (hf : EnoughArrives f shp r'.shpReader.file.data.length)
    (hg : EnoughArrives g dbf r'.dbfReader.file.data.length) :
    watchRecords m enc f g k = .opened r.boundingBox r.dbfFields :: os.map seenItem := by
  have key : ∀ (f : BufReader) (bs : Bytes) (left : Nat), EnoughArrives f bs left →
      ∃ Q, BufAllBut (fun _ => True) Q False f ⟨bs⟩ ∧ Q ≤ left := by
    rintro f bs left (h | ⟨e, bs, rest, rfl, h1, h2, h⟩)
    · exact ⟨0, bufAllBut_whole h _ False, Nat.zero_le _⟩
    · exact ⟨rest.length, bufAllBut_part h trivial (.inl (List.length_pos_iff.mpr h1)), h2⟩
  obtain ⟨Q1, h1, h2⟩ := key f shp _ hf
  obtain ⟨Q2, h3, h4⟩ := key g dbf _ hg
  refine watchRecords_complete (bufAllBut_follows _ Q1 False) (bufAllBut_follows _ Q2 False) m enc h1 h3 k ho hc ?_ ?_
  · simp only [or_false]; omega
  · simp only [or_false]; omega

theorem Spec.FilesArrive.rel {E : IoError → Prop} {fs : FileSystem BufReader} {whole : FileSystem MemFile}
    (h : FilesArrive E fs whole) : FilesRel (fun f t => ∃ Q, BufAllBut E Q True f t) fs whole := by
  intro path
  rcases h path with ⟨e, h⟩ | ⟨f, t, h1, h2, h3⟩
  · exact .inl ⟨e, h⟩
  · exact .inr ⟨f, t, h1, h2, h3.allBut⟩

/-- The programs do the same however the files arrive; if something breaks, they stop
within what they would do, with the error. -/
theorem C108_programs (E : IoError → Prop) (m : Build) (showF64 : UInt64 → Text) (dbg : DbfError → Text)
    (showIo : IoError → Text) (toPath : Text → Path) (fuel : Nat) (fs : FileSystem BufReader) (whole : FileSystem MemFile)
    (enc : Encoding) (args : List (Option Text)) (h : FilesArrive E fs whole) :
    StopsWithin E showIo enc (catMain m showF64 dbg showIo toPath fuel whole enc args)
      (catMain m showF64 dbg showIo toPath fuel fs enc args) ∧
    StopsWithin E showIo enc (geoMain m showIo toPath fuel whole enc args) (geoMain m showIo toPath fuel fs enc args) ∧
    ((∀ e, ¬ E e) → catMain m showF64 dbg showIo toPath fuel fs enc args =
        catMain m showF64 dbg showIo toPath fuel whole enc args ∧
      geoMain m showIo toPath fuel fs enc args = geoMain m showIo toPath fuel whole enc args) := by
  have h1 : StopsWithin E showIo enc (catMain m showF64 dbg showIo toPath fuel whole enc args)
      (catMain m showF64 dbg showIo toPath fuel fs enc args) :=
    catMain_kept (bufPart_follows E) m showF64 dbg toPath fuel h.rel args
  have h2 : StopsWithin E showIo enc (geoMain m showIo toPath fuel whole enc args)
      (geoMain m showIo toPath fuel fs enc args) :=
    geoMain_kept (bufPart_follows E) m toPath fuel h.rel args
  exact ⟨h1, h2, fun hE => ⟨h1.eq hE, h2.eq hE⟩⟩

/-- A file in pieces of `n` bytes, each after an interruption. -/
def inPieces (n : Nat) (bs : Bytes) : List Delivery := (chunks n bs).flatMap fun c => [.interrupted, .bytes c]

/-- The files of two neighbours, in pieces and through a small buffer, and then `tail`. -/
def neighbourPieces (left : Nat) (tail : List Delivery) : FileSystem BufReader := fun path =>
  match neighbourFiles path with
  | .error e => .error e
  | .ok t => .ok ⟨[], 16, ⟨inPieces 7 (t.data.take (t.data.length - left)) ++ tail⟩⟩

instance (f : BufReader) (bs : Bytes) (broken : Option IoError) : Decidable (Arrives f bs broken) := by
  unfold Arrives NonEmpty
  infer_instance

/-- Non-vacuity: the files arrive, whole or but for the last bytes. -/
example : FilesArrive (fun _ => False) (neighbourPieces 0 []) neighbourFiles ∧
    FilesArrive (fun e => e = .other 5) (neighbourPieces 3 [.failed (.other 5), .bytes [1]]) neighbourFiles := by
  have cases3 : ∀ path, neighbourFiles path = .ok ⟨writeShp unitBox neighbourRecords⟩ ∨
      neighbourFiles path = .ok ⟨writeDbf dbfTable⟩ ∨ neighbourFiles path = .error (.other 2) := by
    intro path
    unfold neighbourFiles
    split
    · exact .inl rfl
    · split
      · exact .inr (.inl rfl)
      · exact .inr (.inr rfl)
  constructor
  · intro path
    unfold neighbourPieces
    rcases cases3 path with h | h | h
    · rw [h]
      exact .inr ⟨_, _, rfl, rfl, .inl (by decide +kernel)⟩
    · rw [h]
      exact .inr ⟨_, _, rfl, rfl, .inl (by decide +kernel)⟩
    · rw [h]
      exact .inl ⟨_, rfl, rfl⟩
  · intro path
    unfold neighbourPieces
    rcases cases3 path with h | h | h
    · rw [h]
      exact .inr ⟨_, _, rfl, rfl, .inr ⟨.other 5, (writeShp unitBox neighbourRecords).take 369,
        (writeShp unitBox neighbourRecords).drop 369, rfl, by decide +kernel, by decide +kernel⟩⟩
    · rw [h]
      exact .inr ⟨_, _, rfl, rfl, .inr ⟨.other 5, (writeDbf dbfTable).take 110,
        (writeDbf dbfTable).drop 110, rfl, by decide +kernel, by decide +kernel⟩⟩
    · rw [h]
      exact .inl ⟨_, rfl, rfl⟩

/-- The report of the program is the same in pieces; if something is missing, records
are printed until the error. -/
example :
    geoMain .debug (fun _ => "disk".toList) (fun t => [t]) 3 (neighbourPieces 0 []) Encoding.ascii
        [some "geo".toList, some "a.shp".toList] =
      geoMain .debug (fun _ => "disk".toList) (fun t => [t]) 3 neighbourFiles Encoding.ascii
        [some "geo".toList, some "a.shp".toList] ∧
    (catMain .debug (fun _ => []) (fun _ => []) (fun _ => "disk".toList) (fun t => [t]) 3
        (neighbourPieces 3 [.failed (.other 5)]) Encoding.ascii [some "cat".toList, some "a.shp".toList]).stdout.length = 1 ∧
    (catMain .debug (fun _ => []) (fun _ => []) (fun _ => "disk".toList) (fun t => [t]) 3
        (neighbourPieces 3 [.failed (.other 5)]) Encoding.ascii [some "cat".toList, some "a.shp".toList]).stderr =
      ["Error during read: disk".toList] := by
  decide +kernel

/-- Something about the reader of the files of two neighbours, after `k` calls. -/
def neighboursLeft (k : Nat) : Option (Nat × Nat) :=
  match ShapefileReader.new .debug (⟨writeShp unitBox neighbourRecords⟩ : MemFile) (⟨writeDbf dbfTable⟩ : MemFile) Encoding.ascii with
  | .ok (.ok r) => match callsR ShapefileReader.next k r with
    | .ok (_, r') => some (r'.shpReader.file.data.length, r'.dbfReader.file.data.length)
    | .error _ => none
  | _ => none

/-- Non-vacuity: one call leaves 136 and 8 bytes unread, which need not arrive. -/
example : neighboursLeft 1 = some (136, 8) ∧
    EnoughArrives ⟨[], 16, ⟨inPieces 7 ((writeShp unitBox neighbourRecords).take 236) ++ [.failed (.other 5)]⟩⟩
      (writeShp unitBox neighbourRecords) 136 ∧
    EnoughArrives ⟨[], 16, ⟨inPieces 9 ((writeDbf dbfTable).take 105) ++ [.failed (.other 5)]⟩⟩ (writeDbf dbfTable) 8 := by
  refine ⟨by decide +kernel, .inr ⟨.other 5, (writeShp unitBox neighbourRecords).take 236,
    (writeShp unitBox neighbourRecords).drop 236, (List.take_append_drop _ _).symm, by decide +kernel, by decide +kernel,
    by decide +kernel⟩, .inr ⟨.other 5, (writeDbf dbfTable).take 105, (writeDbf dbfTable).drop 105,
    (List.take_append_drop _ _).symm, by decide +kernel, by decide +kernel, by decide +kernel⟩⟩

end TopoGeo
