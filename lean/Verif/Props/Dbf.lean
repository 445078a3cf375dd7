import Verif.Proofs.Dbf
/-!
# Properties C46-C51, C60, C61: the .dbf reader

A non-vacuity example stands after each theorem. They share one table.
-/

namespace TopoGeo

open Spec

/-- A table of two columns and two records. -/
def dbfTable : Table where
  version := 3
  year := 116
  month := 8
  day := 31
  columns := [⟨"ID".toList.map fun c => UInt8.ofNat c.toNat, 0x4e, 3⟩, ⟨"NAME".toList.map fun c => UInt8.ofNat c.toNat, 0x43, 4⟩]
  recordLength := 8
  records := [" 12abc  ", "  -3d   "].map fun s => s.toList.map fun c => UInt8.ofNat c.toNat

theorem dbfTable_fits : Fits Encoding.ascii dbfTable where
  month := by decide
  day := by decide
  records := by decide
  header := by decide
  recordLength := by decide
  lengths := by decide
  columns := by
    intro c hc
    have : c = ⟨[73, 68], 0x4e, 3⟩ ∨ c = ⟨[78, 65, 77, 69], 0x43, 4⟩ := by
      simpa [dbfTable] using hc
    rcases this with rfl | rfl
    · exact ⟨by decide, by decide, by decide, _, rfl⟩
    · exact ⟨by decide, by decide, by decide, _, rfl⟩

/-- Something about the reader of a file, if it opens. -/
def dbfOpened {α : Type} (bs : Bytes) (g : DbfReader MemFile → α) : Option α :=
  match DbfReader.new .release (⟨bs⟩ : MemFile) Encoding.ascii with
  | .ok (.ok r) => some (g r)
  | _ => none

/-! ## C46 -/

/-- After a reader was opened, exactly the first `n_records` calls of `next`
return an item, for any behaviour of the underlying `io::Read`; `n_records` is
the number in the header. Items that are not errors have the announced size. -/
theorem C46_count {σ : Type} [Source σ] (m : Build) (file : σ) (enc : Encoding) (r : DbfReader σ)
    (h : DbfReader.new m file enc = .ok (.ok r)) :
    ∃ header file1, Source.readExact file 32 = (.ok header, file1) ∧
      ∀ (n i : Nat) (o : Option (Except DbfError DbfRecord)), (calls DbfReader.next n r).1[i]? = some o →
        (o.isSome = true ↔ i < leNat ((header.drop 4).take 4)) ∧
        ∀ record, o = some (.ok record) → record.bytes.length = leNat ((header.drop 10).take 2) := by
  obtain ⟨buf, f, buf2, f2, h1, _, _, _, h5, h6, h7, _⟩ := dbfNew_ok h
  refine ⟨buf, f, h1, fun n i o hi => ?_⟩
  have hc := dbfCalls r n (by omega) i o hi
  rw [h5, Nat.sub_zero, h6] at hc
  refine ⟨hc, ?_⟩
  rintro record rfl
  rw [← h7]
  clear h h5 h6 h7 hc
  have : ∀ (n : Nat) (r : DbfReader σ) (i : Nat), (calls DbfReader.next n r).1[i]? = some (some (.ok record)) →
      record.bytes.length = r.dbfMeta.nBytesPerRecord := by
    intro n
    induction n with
    | zero => intro r i hi; simp [calls] at hi
    | succ n ih =>
      intro r i hi
      rw [calls_succ] at hi
      by_cases heq : r.nRecordsAlreadyIterated = r.dbfMeta.nRecords
      · rw [dbfNext_end heq] at hi
        cases i with
        | zero => simp at hi
        | succ i => exact ih r i hi
      · rw [dbfNext_more heq] at hi
        cases i with
        | zero =>
          simp only [List.getElem?_cons_zero, Option.some.injEq] at hi
          unfold readDbfRecord at hi
          rcases hx : Source.readExact r.file r.dbfMeta.nBytesPerRecord with ⟨e | b, f⟩
          · rw [hx] at hi; simp at hi
          · rw [hx] at hi
            simp only [Except.ok.injEq] at hi
            subst hi
            exact Source.length_of_ok _ _ _ _ hx
        | succ i =>
          rw [List.getElem?_cons_succ] at hi
          have := ih _ i hi
          exact this
  exact this n r i hi

/-- Non-vacuity: a file that announces two records and holds only one. -/
example : dbfOpened ((writeDbf dbfTable).take 106) (fun r => (calls DbfReader.next 4 r).1.map Option.isSome) =
    some [true, true, false, false] := by
  decide +kernel

/-! ## C47 -/

/-- The fields of an opened reader: as many as whole descriptors fit, each what
its descriptor says, laid out one after the other from byte 1. -/
theorem C47_fields {σ : Type} [Source σ] (m : Build) (file : σ) (enc : Encoding) (r : DbfReader σ)
    (h : DbfReader.new m file enc = .ok (.ok r)) :
    ∃ header file1 rest file2, Source.readExact file 32 = (.ok header, file1) ∧
      Source.readExact file1 (headerLength header - 32) = (.ok rest, file2) ∧ r.file = file2 ∧
      r.dbfMeta.fields.length = (headerLength header - 32) / 32 ∧ Tiled 1 r.dbfMeta.fields ∧
      ∀ (i : Nat) (f : DbfField), r.dbfMeta.fields[i]? = some f → Describes enc ((rest.drop (32 * i)).take 32) f := by
  obtain ⟨buf, f, buf2, f2, h1, h2, h3, h4, _, _, _, h8, h9⟩ := dbfNew_ok h
  have hl := Source.length_of_ok _ _ _ _ h3
  rw [wholes_eq_range (by omega), hl] at h8
  refine ⟨buf, f, buf2, f2, h1, h3, h4, ?_, h9, ?_⟩
  · have := h8.length_eq
    simpa using this.symm
  · intro i g hi
    have hlt : i < (headerLength buf - 32) / 32 := by
      have := h8.length_eq
      simp only [List.length_map, List.length_range] at this
      rw [this]
      exact (List.getElem?_eq_some_iff.mp hi).1
    have := (List.forall₂_iff_get.mp h8).2 i (by simpa using hlt) (List.getElem?_eq_some_iff.mp hi).1
    obtain ⟨hi1, hi2⟩ := List.getElem?_eq_some_iff.mp hi
    simp only [List.get_eq_getElem, List.getElem_map, List.getElem_range, hi2] at this
    exact this

/-- Non-vacuity: the fields of the table, and where they are. -/
example : dbfOpened (writeDbf dbfTable) (fun r => r.dbfMeta.fields.map fun f => (f.name, f.offset, f.len)) =
    some [("ID".toList, 1, 3), ("NAME".toList, 4, 4)] := by
  decide +kernel

/-! ## C48 -/

/-- Writing a table and reading it back. -/
theorem C48_round_trip (m : Build) (enc : Encoding) (t : Table) (h : Fits enc t) (tail : Bytes) :
    ∃ r, DbfReader.new m (⟨writeDbf t ++ tail⟩ : MemFile) enc = .ok (.ok r) ∧ r.dbfMeta.nRecords = t.records.length ∧
      r.dbfMeta.nBytesPerRecord = t.recordLength ∧ List.Forall₂ (IsField enc) t.columns r.dbfMeta.fields ∧
      Tiled 1 r.dbfMeta.fields ∧
      ∀ n, (calls DbfReader.next (t.records.length + n) r).1 =
        t.records.map (fun b => some (.ok ⟨r.dbfMeta, b⟩)) ++ List.replicate n none := by
  obtain ⟨fields, h1, h2, h3⟩ := writeDbf_open m enc t h tail
  refine ⟨_, h1, rfl, rfl, h2, h3, fun n => ?_⟩
  exact dbfCalls_records ⟨t.records.length, t.recordLength, fields⟩ t.records tail 0 n h.lengths (by simp)

/-- Non-vacuity. -/
example : Fits Encoding.ascii dbfTable ∧ dbfTable.records.length = 2 ∧ dbfTable.columns.length = 2 :=
  ⟨dbfTable_fits, rfl, rfl⟩

/-! ## C49 -/

/-- Numeric fields: the text is returned iff the bytes are spaces and a number. -/
theorem C49_numeric (f : DbfField) (record : DbfRecord) (bytes : Bytes) (hf : f.dataType = .numeric)
    (hb : FieldBytes f record.bytes bytes) :
    (∀ s, f.readString record = .ok (.ok s) ↔
      ∃ k num, bytes = List.replicate k 0x20 ++ num ∧ IsNumber num ∧ s = num.map fun b => Char.ofNat b.toNat) ∧
    ((¬ ∃ k num, bytes = List.replicate k 0x20 ++ num ∧ IsNumber num) →
      f.readString record = .ok (.error (.parse .notANumber))) := by
  have h : f.readString record = .ok (dbfNumericToValidString bytes) := by
    unfold DbfField.readString
    rw [slice_fieldBytes hb, ok_bind, hf]
  obtain ⟨h1, h2⟩ := numeric_spec bytes
  constructor
  · intro s
    rw [h, ← h1 s]
    simp
  · intro hn
    rw [h, h2 hn]

/-- A numeric field of four bytes after the deletion flag, and a record. -/
def numericCase (s : String) : R (Except DbfError Text) :=
  DbfField.readString ⟨[], .numeric, 1, 4⟩ ⟨⟨1, 5, []⟩, s.toList.map fun c => UInt8.ofNat c.toNat⟩

/-- Non-vacuity: a number, and bytes that are not one. -/
example : FieldBytes ⟨[], .numeric, 1, 4⟩ [0x20, 0x20, 0x2d, 0x31, 0x32] [0x20, 0x2d, 0x31, 0x32] ∧
    IsNumber [0x2d, 0x31, 0x32] ∧ numericCase "  -12" = .ok (.ok "-12".toList) ∧
    numericCase " 12  " = .ok (.error (.parse .notANumber)) := by
  refine ⟨⟨[0x20], [], rfl, rfl, rfl⟩, ⟨[0x2d], [0x31, 0x32], [], rfl, Or.inr rfl, ⟨by simp, by decide⟩, Or.inl rfl⟩, ?_, ?_⟩ <;>
    decide +kernel

/-! ## C50 -/

/-- Character fields: exactly the trailing spaces are removed before decoding. -/
theorem C50_character (f : DbfField) (enc : Encoding) (record : DbfRecord) (bytes : Bytes)
    (hf : f.dataType = .character enc) (hb : FieldBytes f record.bytes bytes) :
    ∃ text k, bytes = text ++ List.replicate k 0x20 ∧ text.getLast? ≠ some 0x20 ∧
      (∀ s, enc.decode text = .ok s → f.readString record = .ok (.ok s)) ∧
      ∀ e, enc.decode text = .error e → f.readString record = .ok (.error (.parse (.decode e))) := by
  obtain ⟨⟨k, h1⟩, h2⟩ := trimEndSpaces_spec bytes
  refine ⟨trimEndSpaces bytes, k, h1, h2, ?_, ?_⟩ <;>
  · intro s hs
    unfold DbfField.readString
    rw [slice_fieldBytes hb, ok_bind, hf]
    simp only
    rw [hs]

/-- The text without trailing spaces is unique, so C50 says which one it is. -/
theorem C50_unique (text text' : Bytes) (k k' : Nat) (h : text ++ List.replicate k 0x20 = text' ++ List.replicate k' 0x20)
    (h1 : text.getLast? ≠ some 0x20) (h2 : text'.getLast? ≠ some 0x20) : text = text' := by
  have : ∀ (t : Bytes) (k : Nat), t.getLast? ≠ some 0x20 →
      (t ++ List.replicate k 0x20).reverse.dropWhile (· == 0x20) = t.reverse := by
    intro t k ht
    rw [List.reverse_append, List.reverse_replicate, List.dropWhile_append_of_pos (by
      intro a ha; simp [List.eq_of_mem_replicate ha])]
    rw [← List.head?_reverse] at ht
    cases hr : t.reverse with
    | nil => rfl
    | cons a l =>
      rw [hr] at ht
      rw [List.dropWhile_cons_of_neg]
      simpa using ht
  have h3 := this text k h1
  rw [h, this text' k' h2] at h3
  exact (List.reverse_inj.mp h3).symm

/-- Non-vacuity: inner spaces stay. -/
example : ∃ record bytes, FieldBytes ⟨[], .character Encoding.ascii, 1, 4⟩ record.bytes bytes ∧
    DbfField.readString ⟨[], .character Encoding.ascii, 1, 4⟩ record = .ok (.ok "a b".toList) := by
  refine ⟨⟨⟨1, 5, []⟩, [0x20, 0x61, 0x20, 0x62, 0x20]⟩, [0x61, 0x20, 0x62, 0x20], ⟨[0x20], [], rfl, rfl, rfl⟩, ?_⟩
  decide +kernel

/-! ## C51 -/

/-- How opening a file ends, for every file. -/
theorem C51_opening (m : Build) (enc : Encoding) (bs : Bytes) (v : OpenDbf) :
    EndsAs (DbfReader.new m (⟨bs⟩ : MemFile) enc) v ↔ Opening enc bs v := by
  constructor
  · intro h
    obtain ⟨w, hw⟩ := opening_total enc bs
    rw [endsAs_unique h (opening_endsAs m hw)]
    exact hw
  · exact opening_endsAs m

/-- Every file has exactly one outcome. -/
theorem C51_total (m : Build) (enc : Encoding) (bs : Bytes) :
    ∃ v, Opening enc bs v ∧ ∀ w, Opening enc bs w → w = v := by
  obtain ⟨v, hv⟩ := opening_total enc bs
  exact ⟨v, hv, fun w hw => endsAs_unique (opening_endsAs m hw) (opening_endsAs m hv)⟩

/-- Non-vacuity: an empty file, a file of zeros, an impossible date, a truncated
file, a name outside ASCII, and a good file. -/
example : Opening Encoding.ascii [] .ioError ∧ Opening Encoding.ascii (List.replicate 32 0) .panics ∧
    Opening Encoding.ascii (List.replicate 32 13) .badDate ∧
    Opening Encoding.ascii ((writeDbf dbfTable).take 90) .ioError ∧
    Opening Encoding.ascii ((writeDbf dbfTable).set 33 200) .badName ∧
    Opening Encoding.ascii (writeDbf dbfTable) .opens := by
  refine ⟨.short (by decide), .panics 0 0 (by decide) rfl rfl (by decide) (by decide) (by decide +kernel),
    .badDate 13 13 (by decide) rfl rfl (by decide),
    .truncated 8 31 (by decide +kernel) rfl rfl (by decide) (by decide) (by decide +kernel) (by decide +kernel), ?_, ?_⟩
  · refine .badName 8 31 rfl rfl (by decide) (by decide) (by decide +kernel) (by decide +kernel)
      ⟨(((writeDbf dbfTable).set 33 200).drop 32).take 32, ?_, ?_⟩
    · exact List.mem_map.mpr ⟨0, by decide +kernel, rfl⟩
    · rintro ⟨t, ht⟩
      have : Encoding.ascii.decode (rawName ((((writeDbf dbfTable).set 33 200).drop 32).take 32)) =
        .error "invalid sequence".toList := by decide +kernel
      rw [this] at ht
      cases ht
  · have := (C51_opening .release Encoding.ascii (writeDbf dbfTable) .opens).mp
    obtain ⟨r, hr, _⟩ := C48_round_trip .release Encoding.ascii dbfTable dbfTable_fits []
    rw [List.append_nil] at hr
    exact this ⟨r, hr⟩

/-! ## C60 -/

/-- `read_string` panics iff the field lies outside the record, is of a type that
is not implemented, or is a long of less than four bytes. -/
theorem C60_panics (f : DbfField) (record : DbfRecord) :
    (∃ e, f.readString record = .error e) ↔
      (¬ ∃ bytes, FieldBytes f record.bytes bytes) ∨ NotImplemented f.dataType ∨ (f.dataType = .long ∧ f.len < 4) := by
  by_cases hb : ∃ bytes, FieldBytes f record.bytes bytes
  · obtain ⟨bytes, hb⟩ := hb
    have hl : bytes.length = f.len := by obtain ⟨_, _, _, _, h⟩ := hb; exact h
    unfold DbfField.readString
    rw [slice_fieldBytes hb, ok_bind]
    constructor
    · rintro ⟨e, he⟩
      refine Or.inr ?_
      cases hd : f.dataType <;> rw [hd] at he <;> simp only [NotImplemented, true_or, false_or] at he ⊢
      · cases he
      · cases he
      · refine ⟨trivial, ?_⟩
        by_contra h4
        unfold readLE at he
        rw [if_pos (by omega)] at he
        cases he
    · rintro (h | h | ⟨h, h4⟩)
      · exact absurd ⟨bytes, hb⟩ h
      · cases hd : f.dataType <;> rw [hd] at h <;> simp only [NotImplemented] at h <;> exact ⟨_, rfl⟩
      · rw [h]
        unfold readLE
        simp only
        rw [if_neg (by omega)]
        exact ⟨_, rfl⟩
  · unfold DbfField.readString
    rw [slice_outside hb]
    exact ⟨fun _ => Or.inl hb, fun _ => ⟨_, rfl⟩⟩

/-- Long fields: the decimal digits of the first four bytes, lowest first. -/
theorem C60_long (f : DbfField) (record : DbfRecord) (n : Nat) (rest : Bytes) (hf : f.dataType = .long) (hn : n < 2 ^ 32)
    (hb : FieldBytes f record.bytes (leBytes 4 n ++ rest)) :
    ∃ text, f.readString record = .ok (.ok text) ∧ IsDecimal text n := by
  refine ⟨Nat.toDigits 10 n, ?_, isDecimal_toDigits n⟩
  unfold DbfField.readString
  rw [slice_fieldBytes hb, ok_bind, hf]
  simp only
  unfold readLE
  rw [if_pos (by simp [leBytes_length]), ok_bind, List.take_left' (leBytes_length 4 n), leNat_leBytes (k := 4) hn]

/-- Non-vacuity: a long, and a date. -/
example : DbfField.readString ⟨[], .long, 1, 4⟩ ⟨⟨1, 5, []⟩, [0x20, 0x10, 0x27, 0, 0]⟩ = .ok (.ok "10000".toList) ∧
    FieldBytes ⟨[], .long, 1, 4⟩ [0x20, 0x10, 0x27, 0, 0] (leBytes 4 10000 ++ []) ∧
    DbfField.readString ⟨[], .date, 1, 4⟩ ⟨⟨1, 5, []⟩, [0x20, 0x10, 0x27, 0, 0]⟩ = .error .unimplemented :=
  ⟨by decide +kernel, ⟨[0x20], [], rfl, rfl, rfl⟩, rfl⟩

/-! ## C61 -/

/-- `get_field` finds the first field of a name, if there is one. -/
theorem C61_get_field {σ : Type} (r : DbfReader σ) (name : Text) :
    (∀ f, r.getField name = some f ↔ ∃ before after, r.dbfMeta.fields = before ++ f :: after ∧ f.name = name ∧
      ∀ g ∈ before, g.name ≠ name) ∧
    (r.getField name = none ↔ ∀ f ∈ r.dbfMeta.fields, f.name ≠ name) := by
  unfold DbfReader.getField
  constructor
  · intro f
    rw [List.find?_eq_some_iff_append]
    constructor
    · rintro ⟨h1, as, bs, h2, h3⟩
      exact ⟨as, bs, h2, by simpa using h1, fun g hg => by simpa using h3 g hg⟩
    · rintro ⟨as, bs, h2, h1, h3⟩
      exact ⟨by simpa using h1, as, bs, h2, fun g hg => by simpa using h3 g hg⟩
  · rw [List.find?_eq_none]
    simp

/-- Non-vacuity: two fields of one name. -/
example : (DbfReader.getField (⟨(), 0, ⟨0, 0, [⟨['a'], .numeric, 1, 2⟩, ⟨['b'], .numeric, 3, 4⟩, ⟨['b'], .date, 7, 8⟩]⟩⟩ :
    DbfReader Unit) ['b']).map DbfField.offset = some 3 := by
  decide +kernel

end TopoGeo
