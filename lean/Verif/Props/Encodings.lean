import Verif.Props.Open
import Verif.Proofs.Encodings
/-!
# C115: text in files

What `open_ascii`, `open_utf8` and `open_windows1252` make of the bytes of names and of
character fields.
-/

namespace TopoGeo

open Spec

/-- C115: with UTF-8, a character field is read as a text exactly if its bytes are that
text in UTF-8, which does not end with a space, padded with spaces; every other field is
an error that says what is wrong. -/
theorem C115_utf8 (f : DbfField) (record : DbfRecord) (bytes : Bytes) (hf : f.dataType = .character Encoding.utf8)
    (hb : FieldBytes f record.bytes bytes) :
    (∀ t, f.readString record = .ok (.ok t) ↔
      t.getLast? ≠ some ' ' ∧ ∃ k, bytes = utf8Bytes t ++ List.replicate k 0x20) ∧
    ((¬ ∃ t k, bytes = utf8Bytes t ++ List.replicate k 0x20) →
      f.readString record = .ok (.error (.parse (.decode "invalid sequence".toList))) ∨
      f.readString record = .ok (.error (.parse (.decode "incomplete sequence".toList)))) := by
  obtain ⟨text, k, h1, h2, h3, h4⟩ := C50_character f _ record bytes hf hb
  have key : ∀ t, f.readString record = .ok (.ok t) ↔ utf8Bytes t = text := by
    intro t
    constructor
    · intro h
      cases hd : Encoding.utf8.decode text with
      | error e => rw [h4 e hd] at h; cases h
      | ok s => rw [h3 s hd] at h; cases h; exact utf8_encode_decode _ _ hd
    · rintro rfl
      exact h3 t (utf8_decode_encode t)
  refine ⟨fun t => ?_, fun hn => ?_⟩
  · rw [key]
    constructor
    · rintro rfl
      exact ⟨fun h => h2 ((utf8Bytes_last t).mpr h), k, h1⟩
    · rintro ⟨h5, k', h6⟩
      exact C50_unique _ _ k' k (by rw [← h6, h1]) (fun h => h5 ((utf8Bytes_last t).mp h)) h2
  · cases hd : Encoding.utf8.decode text with
    | ok s => exact absurd ⟨s, k, by rw [utf8_encode_decode _ _ hd, h1]⟩ hn
    | error e =>
      rcases utf8Loop_error _ _ _ hd with rfl | rfl
      · exact .inl (h4 _ hd)
      · exact .inr (h4 _ hd)

/-- C115: with windows-1252, every character field is text: without the spaces at its
end, one character for each byte, by the table. -/
theorem C115_windows1252 (f : DbfField) (record : DbfRecord) (bytes : Bytes) (hf : f.dataType = .character Encoding.windows1252)
    (hb : FieldBytes f record.bytes bytes) :
    ∃ text k t, bytes = text ++ List.replicate k 0x20 ∧ text.getLast? ≠ some 0x20 ∧
      List.Forall₂ IsWindows1252 text t ∧ f.readString record = .ok (.ok t) := by
  obtain ⟨text, k, h1, h2, h3, -⟩ := C50_character f _ record bytes hf hb
  refine ⟨text, k, _, h1, h2, ?_, h3 (text.map windows1252Char) rfl⟩
  clear h1 h2 h3
  induction text with
  | nil => exact .nil
  | cons b bs ih => exact .cons ((windows1252Char_iff _ _).mpr rfl) ih

/-- C115: the table of windows-1252 is a function: every byte stands for exactly one
character. Different bytes stand for different characters. -/
theorem C115_windows1252_table :
    (∀ b, ∃ c, IsWindows1252 b c ∧ ∀ c', IsWindows1252 b c' → c' = c) ∧
    ∀ b b' c, IsWindows1252 b c → IsWindows1252 b' c → b = b' := by
  refine ⟨fun b => ⟨_, (windows1252Char_iff b _).mpr rfl, fun c' h => ((windows1252Char_iff b c').mp h).symm⟩, ?_⟩
  intro b b' c h h'
  rw [windows1252Char_iff] at h h'
  exact windows1252Char_inj _ _ (h.trans h'.symm)

/-- C115: with ASCII, a character field is read as a text exactly if its bytes are the
code points of the text, all below 128, padded with spaces; other fields are errors. -/
theorem C115_ascii (f : DbfField) (record : DbfRecord) (bytes : Bytes) (hf : f.dataType = .character Encoding.ascii)
    (hb : FieldBytes f record.bytes bytes) :
    (∀ t, f.readString record = .ok (.ok t) ↔
      ∃ text k, bytes = text ++ List.replicate k 0x20 ∧ text.getLast? ≠ some 0x20 ∧ IsAscii t text) ∧
    ((∃ b ∈ bytes, 128 ≤ b.toNat) ↔
      f.readString record = .ok (.error (.parse (.decode "invalid sequence".toList)))) := by
  obtain ⟨text, k, h1, h2, h3, h4⟩ := C50_character f _ record bytes hf hb
  refine ⟨fun t => ?_, ?_⟩
  · constructor
    · intro h
      refine ⟨text, k, h1, h2, ?_⟩
      cases hd : Encoding.ascii.decode text with
      | error e => rw [h4 e hd] at h; cases h
      | ok s => rw [h3 s hd] at h; cases h; exact (ascii_decode_iff _ _).mp hd
    · rintro ⟨text', k', h5, h6, h7⟩
      have := C50_unique text' text k' k (by rw [← h5, h1]) h6 h2
      subst this
      exact h3 t ((ascii_decode_iff _ _).mpr h7)
  · have hall : (∃ b ∈ bytes, 128 ≤ b.toNat) ↔ ∃ b ∈ text, 128 ≤ b.toNat := by
      rw [h1]
      constructor
      · rintro ⟨b, hm, hb⟩
        rcases List.mem_append.mp hm with hm | hm
        · exact ⟨b, hm, hb⟩
        · rw [List.eq_of_mem_replicate hm] at hb
          exact absurd hb (by decide)
      · rintro ⟨b, hm, hb⟩
        exact ⟨b, List.mem_append_left _ hm, hb⟩
    rw [hall]
    constructor
    · rintro ⟨b, hm, hb⟩
      refine h4 _ ?_
      unfold Encoding.ascii
      simp only
      rw [if_neg]
      intro h
      have h128 := List.all_eq_true.mp h b hm
      simp only [decide_eq_true_eq, UInt8.lt_iff_toNat_lt] at h128
      have h129 : b.toNat < 128 := h128
      omega
    · intro h
      cases hd : Encoding.ascii.decode text with
      | ok s => rw [h3 s hd] at h; cases h
      | error e =>
        unfold Encoding.ascii at hd
        simp only at hd
        split at hd
        · cases hd
        · rename_i hn
          by_contra hc
          push Not at hc
          refine hn (List.all_eq_true.mpr fun b hm => ?_)
          simp only [decide_eq_true_eq, UInt8.lt_iff_toNat_lt]
          exact hc b hm

/-- C115: what `open_ascii` opens, `open_utf8` and `open_windows1252` open as well, and
they return the same reader except for the encoding of character fields. -/
theorem C115_open {σ : Type} [Source σ] (m : Build) (fs : FileSystem σ) (path : Path) (r : ShapefileReader σ σ)
    (h : shapefileOpenAscii m fs path = .ok (.ok r)) :
    shapefileOpenUtf8 m fs path = .ok (.ok (r.recode Encoding.utf8)) ∧
    shapefileOpenWindows1252 m fs path = .ok (.ok (r.recode Encoding.windows1252)) := by
  have key : ∀ enc, Extends Encoding.ascii enc → shapefileOpen m fs path enc = .ok (.ok (r.recode enc)) := by
    intro enc he
    unfold shapefileOpenAscii shapefileOpen at h
    unfold shapefileOpen
    rw [bind_ok] at h
    obtain ⟨a, h1, h⟩ := h
    rw [h1, ok_bind]
    cases a with
    | error e => cases h
    | ok shp =>
      simp only at h ⊢
      rw [bind_ok] at h
      obtain ⟨b, h2, h⟩ := h
      cases b with
      | error e => cases h
      | ok dbf =>
        cases h
        have : dbfOpen m fs (setExtension path "dbf".toList) enc = .ok (.ok (dbf.recode enc)) := by
          unfold dbfOpen at h2 ⊢
          cases hfs : fs (setExtension path "dbf".toList) with
          | error e => rw [hfs] at h2; cases h2
          | ok f => rw [hfs] at h2; exact dbfNew_recode he h2
        rw [this]
        rfl
  exact ⟨key _ ascii_extends_utf8, key _ ascii_extends_windows1252⟩

/-- C115: the encoding does not matter for iterating: the same shapes, the same bytes,
the same errors, the same end. -/
theorem C115_next {σ τ : Type} [Source σ] [Source τ] (enc : Encoding) (r : ShapefileReader σ τ) :
    (r.recode enc).next = (r.next).map fun x => (x.1.map (·.map (·.recode enc)), x.2.recode enc) :=
  shapefileNext_recode enc r

/-- C115: what a field of a file opened with ASCII is read as, it is also read as with
UTF-8 and with windows-1252. -/
theorem C115_values {σ : Type} [Source σ] (m : Build) (fs : FileSystem σ) (path : Path) (r : ShapefileReader σ σ)
    (h : shapefileOpenAscii m fs path = .ok (.ok r)) (f : DbfField) (hf : f ∈ r.dbfReader.dbfMeta.fields) (record : DbfRecord)
    (t : Text) (ht : f.readString record = .ok (.ok t)) :
    (f.recode Encoding.utf8).readString (record.recode Encoding.utf8) = .ok (.ok t) ∧
    (f.recode Encoding.windows1252).readString (record.recode Encoding.windows1252) = .ok (.ok t) := by
  have key : f.dataType = .character Encoding.ascii ∨ ∀ e, f.dataType ≠ .character e := by
    unfold shapefileOpenAscii shapefileOpen at h
    rw [bind_ok] at h
    obtain ⟨a, h1, h⟩ := h
    cases a with
    | error e => cases h
    | ok shp =>
      simp only at h
      rw [bind_ok] at h
      obtain ⟨b, h2, h⟩ := h
      cases b with
      | error e => cases h
      | ok dbf =>
        cases h
        unfold dbfOpen at h2
        cases hfs : fs (setExtension path "dbf".toList) with
        | error e => rw [hfs] at h2; cases h2
        | ok f' => rw [hfs] at h2; exact dbfNew_enc h2 f hf
  exact ⟨readString_recode ascii_extends_utf8 key ht, readString_recode ascii_extends_windows1252 key ht⟩

/-- C115: `open_windows1252` never complains about the name of a field. -/
theorem C115_names {σ : Type} [Source σ] (m : Build) (fs : FileSystem σ) (path : Path) :
    shapefileOpenWindows1252 m fs path ≠ .ok (.error (.dbf (.parse .badFieldName))) := by
  intro h
  unfold shapefileOpenWindows1252 shapefileOpen at h
  rw [bind_ok] at h
  obtain ⟨a, h1, h⟩ := h
  cases a with
  | error e => cases h
  | ok shp =>
    simp only at h
    rw [bind_ok] at h
    obtain ⟨b, h2, h⟩ := h
    cases b with
    | ok dbf => cases h
    | error e =>
      cases h
      unfold dbfOpen at h2
      cases hfs : fs (setExtension path "dbf".toList) with
      | error e => rw [hfs] at h2; cases h2
      | ok f' => rw [hfs] at h2; exact dbfNew_total (fun bs => ⟨_, rfl⟩) h2

/-- C115: `dbf::open_ascii` does not read ASCII. It looks up a label which in the WHATWG
standard is a label of windows-1252, never panics doing so, never complains about names,
and reads every character field, as in `C115_windows1252`. -/
theorem C115_label {σ : Type} [Source σ] (m : Build) (fs : FileSystem σ) (path : Path) :
    dbfOpenAscii m whatwgLabel fs path = dbfOpen m fs path Encoding.windows1252 ∧
    dbfOpenAscii m whatwgLabel fs path ≠ .ok (.error (.parse .badFieldName)) ∧
    ∀ r, dbfOpenAscii m whatwgLabel fs path = .ok (.ok r) → ∀ f ∈ r.dbfMeta.fields,
      f.dataType = .character Encoding.windows1252 ∨ ∀ e, f.dataType ≠ .character e := by
  have h0 : dbfOpenAscii m whatwgLabel fs path = dbfOpen m fs path Encoding.windows1252 := rfl
  refine ⟨h0, fun h => ?_, fun r h => ?_⟩
  · rw [h0] at h
    unfold dbfOpen at h
    cases hfs : fs path with
    | error e => rw [hfs] at h; cases h
    | ok f' => rw [hfs] at h; exact dbfNew_total (fun bs => ⟨_, rfl⟩) h
  · rw [h0] at h
    unfold dbfOpen at h
    cases hfs : fs path with
    | error e => rw [hfs] at h; cases h
    | ok f' => rw [hfs] at h; exact dbfNew_enc h

/-- Non-vacuity: "é" in four bytes, in all encodings. -/
example : FieldBytes ⟨[], .character Encoding.utf8, 1, 4⟩ [0x20, 0xc3, 0xa9, 0x20, 0x20] [0xc3, 0xa9, 0x20, 0x20] ∧
    DbfField.readString ⟨[], .character Encoding.utf8, 1, 4⟩ ⟨⟨1, 5, []⟩, [0x20, 0xc3, 0xa9, 0x20, 0x20]⟩ = .ok (.ok "é".toList) ∧
    DbfField.readString ⟨[], .character Encoding.windows1252, 1, 4⟩ ⟨⟨1, 5, []⟩, [0x20, 0xc3, 0xa9, 0x20, 0x20]⟩ =
      .ok (.ok "Ã©".toList) ∧
    DbfField.readString ⟨[], .character Encoding.ascii, 1, 4⟩ ⟨⟨1, 5, []⟩, [0x20, 0xc3, 0xa9, 0x20, 0x20]⟩ =
      .ok (.error (.parse (.decode "invalid sequence".toList))) := by
  refine ⟨⟨[0x20], [], rfl, rfl, rfl⟩, ?_, ?_, ?_⟩ <;> decide +kernel

/-- A field that ends within a character, as one that was cut at a number of bytes, is an
error in UTF-8; so are a surrogate and an encoding longer than needed. -/
example :
    DbfField.readString ⟨[], .character Encoding.utf8, 1, 2⟩ ⟨⟨1, 3, []⟩, [0x20, 0x61, 0xc3]⟩ =
      .ok (.error (.parse (.decode "incomplete sequence".toList))) ∧
    DbfField.readString ⟨[], .character Encoding.utf8, 1, 3⟩ ⟨⟨1, 4, []⟩, [0x20, 0xed, 0xa0, 0x80]⟩ =
      .ok (.error (.parse (.decode "invalid sequence".toList))) ∧
    DbfField.readString ⟨[], .character Encoding.utf8, 1, 2⟩ ⟨⟨1, 3, []⟩, [0x20, 0xc0, 0x80]⟩ =
      .ok (.error (.parse (.decode "invalid sequence".toList))) := by
  refine ⟨?_, ?_, ?_⟩ <;> decide +kernel

/-- The texts of the fields of the first record. -/
def firstTexts (x : R (Except ShapefileError (ShapefileReader MemFile MemFile))) : List (R (Option Text)) :=
  match x with
  | .ok (.ok r) => match r.next with
    | .ok (some (.ok record), _) => r.dbfReader.dbfMeta.fields.map fun (f : DbfField) =>
        (f.readString record.data).map Except.toOption
    | _ => []
  | _ => []

/-- Non-vacuity: files that `open_ascii` opens, with a number that cannot
be read and a text that can. -/
example :
    let fs : FileSystem MemFile := fun p =>
      if p = ["a.shp".toList] then .ok ⟨writeShp ⟨0, 0, 1, 1⟩ shpRecords⟩
      else if p = ["a.dbf".toList] then .ok ⟨writeDbf dbfTable⟩
      else .error (.other 2)
    firstTexts (shapefileOpenAscii .debug fs ["a.shp".toList]) = [.ok none, .ok (some "bc".toList)] ∧
    firstTexts (shapefileOpenUtf8 .debug fs ["a.shp".toList]) = [.ok none, .ok (some "bc".toList)] ∧
    firstTexts (shapefileOpenWindows1252 .debug fs ["a.shp".toList]) = [.ok none, .ok (some "bc".toList)] := by
  refine ⟨?_, ?_, ?_⟩ <;> decide +kernel

end TopoGeo
