import Verif.Proofs.Word
import Verif.Props.Shapefile
/-!
# Property C117: what depends on the width of addresses

`wNew`, `wNext` and `wParsePolygonRecord` compute with `usize`s of 32 or 64 bits.
-/

namespace TopoGeo

open Spec

/-! ## 64 bits -/

/-- With 64-bit addresses no computation of a `usize` overflows and no allocation
is refused: the readers do what they do with unbounded numbers. -/
theorem C117_sixty_four {σ τ : Type} [Source σ] [Source τ] (m : Build) (fieldSize : Nat) (hs : fieldSize < 2 ^ 16) (f : σ) (g : τ)
    (enc : Encoding) :
    ShapefileReader.wNew m 64 fieldSize f g enc = ShapefileReader.new m f g enc ∧
    (∀ r, ShapefileReader.new m f g enc = .ok (.ok r) → ∀ n, callsR (ShapefileReader.wNext m 64) n r = callsR ShapefileReader.next n r) ∧
    (∀ r, ShpReader.new m f = .ok (.ok r) → ∀ n, callsR (ShpReader.wNext m 64) n r = callsR ShpReader.next n r) := by
  refine ⟨?_, fun r hr n => ?_, fun r hr n => wShpCalls64 m n (shpNew_small hr)⟩
  · unfold ShapefileReader.wNew ShapefileReader.new
    rw [wDbfNew_eq m (by omega) hs]
    rfl
  · obtain ⟨h1, h2⟩ := ((C57_new m f g enc).1 r).mp hr
    rw [wShapefileCalls m (by omega) n r (dbfNew_within h2), shapefileCalls, wShpCalls64 m n (shpNew_small h1)]

/-- Non-vacuity: the example files open. -/
example : (match ShapefileReader.new .release (⟨writeShp ⟨0, 0, 1, 1⟩ shpRecords⟩ : MemFile) (⟨writeDbf dbfTable⟩ : MemFile)
      Encoding.ascii with
    | .ok (.ok r) => match callsR (ShapefileReader.wNext .release 64) 3 r with
      | .ok (os, _) => os.map fun o => match o with | some (.ok x) => x.rings.length | _ => 0
      | .error _ => []
    | _ => []) = [1, 2, 0] := by
  decide +kernel

/-! ## 32 bits: .dbf files -/

/-- .dbf files are read in the same way with 32-bit addresses. -/
theorem C117_dbf {τ : Type} [Source τ] (m : Build) (fieldSize : Nat) (hs : fieldSize < 2 ^ 16) (g : τ) (enc : Encoding) :
    DbfReader.wNew m 32 fieldSize g enc = DbfReader.new m g enc ∧
    ∀ r, DbfReader.new m g enc = .ok (.ok r) → ∀ n, callsR (DbfReader.wNext m 32) n r = .ok (calls DbfReader.next n r) :=
  ⟨wDbfNew_eq m (by omega) hs g enc, fun _ hr n => wDbfCalls m (by omega) n (dbfNew_within hr)⟩

/-- Non-vacuity: a file that opens, and one with a header length below 32. -/
example : (match DbfReader.wNew .debug 32 72 (⟨writeDbf dbfTable⟩ : MemFile) Encoding.ascii with
    | .ok (.ok r) => match callsR (DbfReader.wNext .debug 32) 3 r with
      | .ok (os, _) => os.map Option.isSome
      | .error _ => []
    | _ => []) = [true, true, false] ∧
    (match DbfReader.wNew .debug 32 72 (⟨List.replicate 32 0⟩ : MemFile) Encoding.ascii with
    | .error e => some e | _ => none) = some .overflow ∧
    (match DbfReader.wNew .release 32 72 (⟨List.replicate 32 0⟩ : MemFile) Encoding.ascii with
    | .error e => some e | _ => none) = some .capacity := by
  decide +kernel

/-! ## 32 bits: one record -/

/-- How reading the content of a record ends with 32-bit addresses, for each
content that fits into memory. -/
theorem C117_parse (m : Build) (number : Nat) (bs : Bytes) (hlen : bs.length < 2 ^ 31) :
    (∃ v, Reading32 m number bs v) ∧
    ∀ v, RecordEndsAs (wParsePolygonRecord m 32 bs number) number v ↔ Reading32 m number bs v :=
  ⟨reading32_total m number bs, reading32_iff m number hlen⟩

/-- The same contents are accepted, with the same result, by both builds. -/
theorem C117_accepts (m : Build) (number : Nat) (bs : Bytes) (hlen : bs.length < 2 ^ 31) (record : ShpPolygonRecord) :
    wParsePolygonRecord m 32 bs number = .ok (.ok record) ↔ record.recordNumber = number ∧ IsContent bs record.rings := by
  rw [wParse32_accepts m hlen, parsePolygonRecord_ok]

/-- A content announcing so many points that its length exceeds 32 bits. -/
def manyPoints : Bytes := leBytes 4 5 ++ List.replicate 32 0 ++ leBytes 4 1 ++ leBytes 4 (2 ^ 28 + 4) ++ List.replicate 68 0

/-- A content whose only part starts at the largest offset. -/
def farOffset : Bytes :=
  leBytes 4 5 ++ List.replicate 32 0 ++ leBytes 4 1 ++ leBytes 4 4 ++ leBytes 4 (2 ^ 32 - 1) ++ List.replicate 64 0

/-- Non-vacuity: what both machines make of such contents. -/
example :
    (parsePolygonRecord manyPoints 7 = .ok (.error (.parse (.wrongLength 7 4294967408 1 268435460 112)))) ∧
    wParsePolygonRecord .debug 32 manyPoints 7 = .error .overflow ∧
    wParsePolygonRecord .release 32 manyPoints 7 = .error .capacity ∧
    wParsePolygonRecord .release 32 (manyPoints ++ [0]) 7 = .ok (.error (.parse (.wrongLength 7 112 1 268435460 113))) ∧
    (parsePolygonRecord farOffset 7 = .ok (.error (.parse (.lastPart 7 4294967295 4)))) ∧
    wParsePolygonRecord .debug 32 farOffset 7 = .error .overflow ∧
    wParsePolygonRecord .release 32 farOffset 7 = .error .index := by
  decide +kernel

/-- Non-vacuity of acceptance. -/
example : ∀ r ∈ shpRecords, wParsePolygonRecord .debug 32 r.content r.number = .ok (.ok ⟨r.number, r.rings⟩) := by
  decide +kernel

/-! ## 32 bits: reading on -/

/-- In debug builds, 32-bit addresses make no other difference than panics: calls
that return, return what they return with 64-bit addresses. -/
theorem C117_debug {σ τ : Type} [Source σ] [Source τ] (f : σ) (g : τ) (enc : Encoding) (r : ShapefileReader σ τ)
    (hr : ShapefileReader.new .debug f g enc = .ok (.ok r)) (n : Nat)
    (x : List (Option (Except ShapefileError ShapefileRecord)) × ShapefileReader σ τ)
    (h : callsR (ShapefileReader.wNext .debug 32) n r = .ok x) : callsR ShapefileReader.next n r = .ok x := by
  obtain ⟨_, h2⟩ := ((C57_new .debug f g enc).1 r).mp hr
  rw [wShapefileCalls .debug (by omega) n r (dbfNew_within h2)] at h
  rw [shapefileCalls]
  rcases hx : callsR (ShpReader.wNext .debug 32) n r.shpReader with e | y
  · rw [hx] at h; cases h
  · rw [wShpCalls32_debug n hx, ← hx]
    exact h

/-- Non-vacuity: two records and the end of the file. -/
example : (match ShapefileReader.new .debug (⟨writeShp ⟨0, 0, 1, 1⟩ shpRecords⟩ : MemFile) (⟨writeDbf dbfTable⟩ : MemFile)
      Encoding.ascii with
    | .ok (.ok r) => match callsR (ShapefileReader.wNext .debug 32) 3 r with
      | .ok (os, _) => os.map fun o => match o with | some (.ok x) => x.rings.length | _ => 0
      | .error _ => []
    | _ => []) = [1, 2, 0] := by
  decide +kernel

/-- A record that is yielded with 64-bit addresses is yielded with 32-bit
addresses, iff its content has less than 2^31 bytes; otherwise the reader panics. -/
theorem C117_record {σ : Type} [Source σ] (m : Build) (r r' : ShpReader σ) (record : ShpPolygonRecord)
    (hf : r.header.fileNBytes < 2 ^ 32) (h : r.next = .ok (some (.ok record), r')) :
    r.wNext m 32 = if r'.nBytesAlreadyRead < r.nBytesAlreadyRead + 8 + 2 ^ 31 then .ok (some (.ok record), r') else .error .capacity :=
  wNext32_record m hf h

/-- Non-vacuity. -/
example : (match ShpReader.new .release (⟨writeShp ⟨0, 0, 1, 1⟩ shpRecords⟩ : MemFile) with
    | .ok (.ok r) => match r.next with
      | .ok (some (.ok record), r') => decide (r.header.fileNBytes = 424 ∧ record.rings.length = 1 ∧ r'.nBytesAlreadyRead = 220)
      | _ => false
    | _ => false) = true := by
  decide +kernel

/-- What a record header that announces 2^30 words or more leads to. -/
theorem C117_announced {σ : Type} [Source σ] (r : ShpReader σ) (h : r.nBytesAlreadyRead < r.header.fileNBytes) (hb : Bytes) (f1 : σ)
    (hx : Source.readExact r.file 8 = (.ok hb, f1)) :
    (2 ^ 30 ≤ u32be hb 4 → u32be hb 4 < 2 ^ 31 → ∀ m, r.wNext m 32 = .error .capacity) ∧
    (2 ^ 31 ≤ u32be hb 4 → r.wNext .debug 32 = .error .overflow) ∧
    (2 ^ 31 + 2 ^ 30 ≤ u32be hb 4 → r.wNext .release 32 = .error .capacity) := by
  refine ⟨fun h1 h2 m => ?_, fun h1 => ?_, fun h1 => ?_⟩
  · rw [wNext_more m 32 h, wReadPolygonRecord_eq, hx]
    simp only
    rw [usize_small m (by omega)]
    simp only [Except.bind]
    rw [allocVec_large (by omega)]
  · rw [wNext_more .debug 32 h, wReadPolygonRecord_eq, hx]
    simp only
    rw [usize_debug (by omega)]
    rfl
  · have hlt := u32be_lt hb 4
    rw [wNext_more .release 32 h, wReadPolygonRecord_eq, hx]
    simp only
    rw [usize_release]
    simp only [Except.bind]
    rw [allocVec_large (by omega)]

/-- Non-vacuity: the header of such a record. -/
example : Source.readExact (⟨beBytes 4 1 ++ beBytes 4 (2 ^ 30)⟩ : MemFile) 8 = (.ok (beBytes 4 1 ++ beBytes 4 (2 ^ 30)), ⟨[]⟩) ∧
    u32be (beBytes 4 1 ++ beBytes 4 (2 ^ 30)) 4 = 2 ^ 30 := by
  decide +kernel

theorem short_words {words c t : Nat} (hw : words = c / 2 + 2 ^ 31) (he : 2 * (c / 2) = c) (ht : t < 2 ^ 31) : c + t < words * 2 := by
  omega

theorem shpNext_short {r : ShpReader MemFile} {hb rest : Bytes} {words : Nat} (h : r.nBytesAlreadyRead < r.header.fileNBytes)
    (hread : Source.readExact r.file 8 = (.ok hb, ⟨rest⟩)) (e : u32be hb 4 = words) (hs : rest.length < words * 2) :
    r.next = .ok (some (.error (.io .unexpectedEof)), ⟨⟨[]⟩, r.nBytesAlreadyRead, r.header⟩) := by
  rw [shpNext_more h, readPolygonRecord_eq, hread]
  simp only
  rw [e, memFile_error hs]
  rfl

/-- A record whose header announces 2^31 words too many. -/
def skewed (r : OutRecord) : Bytes := beBytes 4 r.number ++ beBytes 4 (r.content.length / 2 + 2 ^ 31) ++ r.content

/-- Release builds notice no such overflow: a record that announces 2^31 words more
than it has, and that is reported as cut short with 64-bit addresses, is yielded
with 32-bit addresses as if its length were right. Debug builds panic. -/
theorem C117_release (rec : OutRecord) (hg : rec.Good) (hl : rec.content.length < 2 ^ 31) (tail : Bytes) (ht : tail.length < 2 ^ 31)
    (k : Nat) (header : ShpHeader) (hk : k + 8 + rec.content.length ≤ header.fileNBytes) (hf : header.fileNBytes < 2 ^ 32) :
    ShpReader.next (⟨⟨skewed rec ++ tail⟩, k, header⟩ : ShpReader MemFile) =
      .ok (some (.error (.io .unexpectedEof)), ⟨⟨[]⟩, k, header⟩) ∧
    ShpReader.wNext .debug 32 (⟨⟨skewed rec ++ tail⟩, k, header⟩ : ShpReader MemFile) = .error .overflow ∧
    ShpReader.wNext .release 32 (⟨⟨skewed rec ++ tail⟩, k, header⟩ : ShpReader MemFile) =
      .ok (some (.ok ⟨rec.number, rec.rings⟩), ⟨⟨tail⟩, k + 8 + rec.content.length, header⟩) := by
  obtain ⟨hc, heven⟩ := outRecord_content hg (by omega)
  obtain ⟨words, hw⟩ : ∃ words, words = rec.content.length / 2 + 2 ^ 31 := ⟨_, rfl⟩
  have e1 : (beBytes 4 rec.number ++ beBytes 4 words).length = 8 := by simp [beBytes_length]
  have hb : skewed rec ++ tail = (beBytes 4 rec.number ++ beBytes 4 words) ++ (rec.content ++ tail) := by
    unfold skewed
    rw [← hw]
    simp only [List.append_assoc]
  have e2 : u32be (beBytes 4 rec.number ++ beBytes 4 words) 4 = words := by
    unfold u32be
    rw [List.drop_left' (beBytes_length _ _), List.take_of_length_le (by rw [beBytes_length]),
      beNat_beBytes (k := 4) (by omega)]
  have e3 : u32be (beBytes 4 rec.number ++ beBytes 4 words) 0 = rec.number := by
    unfold u32be
    rw [List.drop_zero, List.take_left' (beBytes_length _ _), beNat_beBytes (k := 4) hg.1]
  have hread : Source.readExact (⟨skewed rec ++ tail⟩ : MemFile) 8 =
      (.ok (beBytes 4 rec.number ++ beBytes 4 words), ⟨rec.content ++ tail⟩) := by
    rw [hb, memFile_ok (by rw [List.length_append]; omega), List.take_left' e1, List.drop_left' e1]
  generalize beBytes 4 rec.number ++ beBytes 4 words = hbytes at *
  refine ⟨?_, ?_, ?_⟩
  · exact shpNext_short (by simp only; omega) hread e2 (by rw [List.length_append]; exact short_words hw heven ht)
  · exact (C117_announced _ (by simp only; omega) hbytes _ hread).2.1 (by omega)
  · rw [wNext_more .release 32 (by simp only; omega), wReadPolygonRecord_eq]
    simp only
    rw [hread]
    simp only
    rw [e2, e3, usize_release, show words * 2 % 2 ^ 32 = rec.content.length by omega]
    simp only [Except.bind]
    rw [allocVec_small (by omega)]
    simp only
    rw [memFile_ok (by rw [List.length_append]; omega), List.take_left' rfl, List.drop_left' rfl]
    simp only
    rw [(C117_accepts .release rec.number rec.content hl ⟨rec.number, rec.rings⟩).mpr ⟨rfl, hc⟩]
    simp only
    rw [usize_small _ (by omega)]
    simp only
    rw [usize_small _ (by omega)]
    simp only
    rw [if_neg (by omega), Nat.add_assoc]

/-- Non-vacuity: the records of the example. -/
example : ∀ r ∈ shpRecords, r.content.length < 2 ^ 31 ∧ 100 + 8 + r.content.length ≤ 424 := by decide +kernel

/-! ## 32 bits: files of ordinary size -/

/-- A file that announces at most 2^31 bytes and is read without an error with 64-bit
addresses is read in the same way with 32-bit addresses, by both builds. -/
theorem C117_small_files {σ τ : Type} [Source σ] [Source τ] (m : Build) (fieldSize : Nat) (hs : fieldSize < 2 ^ 16) (f : σ) (g : τ)
    (enc : Encoding) :
    ShapefileReader.wNew m 32 fieldSize f g enc = ShapefileReader.new m f g enc ∧
    ∀ r, ShapefileReader.new m f g enc = .ok (.ok r) → r.shpReader.header.fileNBytes ≤ 2 ^ 31 → ∀ n os r',
      callsR ShpReader.next n r.shpReader = .ok (os, r') → (∀ e, some (.error e) ∉ os) →
      callsR (ShapefileReader.wNext m 32) n r = callsR ShapefileReader.next n r := by
  constructor
  · unfold ShapefileReader.wNew ShapefileReader.new
    rw [wDbfNew_eq m (by omega) hs]
    rfl
  · intro r hr hf n os r' h hg
    obtain ⟨h1, h2⟩ := ((C57_new m f g enc).1 r).mp hr
    rw [wShapefileCalls m (by omega) n r (dbfNew_within h2), shapefileCalls, h,
      wShpCalls32_good m n (by omega) (by rw [shpNew_position h1]) h hg]

/-- Non-vacuity: a reader of a file of 424 bytes without errors. -/
example : (match ShpReader.new .release (⟨writeShp ⟨0, 0, 1, 1⟩ shpRecords⟩ : MemFile) with
    | .ok (.ok r) => decide (r.header.fileNBytes ≤ 2 ^ 31) && (match callsR ShpReader.next 3 r with
      | .ok (os, _) => os.all (fun o => match o with | some (.error _) => false | _ => true)
      | _ => false)
    | _ => false) = true := by
  decide +kernel

/-- Writing shapes and as many table rows, and reading them back with 32-bit
addresses. -/
theorem C117_round_trip (m : Build) (fieldSize : Nat) (hfs : fieldSize < 2 ^ 16) (enc : Encoding) (box : ShpBoundingBox)
    (records : List OutRecord) (hg : ∀ r ∈ records, r.Good) (hs : fileLength records ≤ 2 ^ 31) (t : Table) (ht : Fits enc t)
    (hn : t.records.length = records.length) (tail tail' : Bytes) :
    ∃ r, ShapefileReader.wNew m 32 fieldSize (⟨writeShp box records ++ tail⟩ : MemFile) (⟨writeDbf t ++ tail'⟩ : MemFile) enc =
        .ok (.ok r) ∧ r.boundingBox = box ∧ List.Forall₂ (IsField enc) t.columns r.dbfFields ∧
      ∀ n, ∃ r' os, callsR (ShapefileReader.wNext m 32) (records.length + n) r = .ok (os ++ List.replicate n none, r') ∧
        os.length = records.length ∧
        ∀ (i : Nat) (h1 : i < records.length) (h2 : i < t.records.length) (h3 : i < os.length), ∃ data,
          os[i] = some (.ok ⟨records[i].rings, data⟩) ∧ data.bytes = t.records[i] := by
  obtain ⟨r, h1, h2, h3, h4⟩ := C57_round_trip m enc box records hg (by omega) t ht hn tail tail'
  obtain ⟨s1, s2⟩ := C117_small_files m fieldSize hfs (⟨writeShp box records ++ tail⟩ : MemFile) (⟨writeDbf t ++ tail'⟩ : MemFile) enc
  refine ⟨r, s1.trans h1, h2, h3, fun n => ?_⟩
  obtain ⟨r', os, h5, h6⟩ := h4 n
  obtain ⟨s, a1, a2, a3⟩ := C52_round_trip m box records hg (by omega) tail
  obtain ⟨a4, a3⟩ := a3 n
  have hrs : r.shpReader = s := by
    have := (((C57_new m _ _ enc).1 r).mp h1).1
    rw [a1] at this
    exact (Except.ok.inj (Except.ok.inj this)).symm
  rw [s2 r h1 (by rw [hrs, a2]; exact hs) (records.length + n) _ _ (by rw [hrs]; exact a3) (by
    intro e he
    rcases List.mem_append.mp he with he | he
    · obtain ⟨x, _, hx⟩ := List.mem_map.mp he
      cases hx
    · have := (List.mem_replicate.mp he).2
      cases this)]
  exact ⟨r', os, h5, h6⟩

/-- Non-vacuity: the example files. -/
example : (∀ r ∈ shpRecords, r.Good) ∧ fileLength shpRecords ≤ 2 ^ 31 ∧ Fits Encoding.ascii dbfTable ∧
    dbfTable.records.length = shpRecords.length :=
  ⟨shpRecords_good, by decide +kernel, dbfTable_fits, rfl⟩

end TopoGeo
