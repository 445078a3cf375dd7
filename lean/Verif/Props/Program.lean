import Verif.Spec.Program
import Verif.Proofs.Program
import Verif.Props.Example
/-!
# C104: messages of errors; C105: what the programs print, and how they end
-/

namespace TopoGeo
open Spec

theorem reported_shape_type {e : ShpParseError} (h : Reported (.shp (.parse e))) : ∀ u, e = .unsupportedType u → isShapeType u := by
  rintro u rfl
  cases h with
  | unsupported _ h => exact (isShapeType_iff _).mpr h
  | shape _ h => exact absurd rfl (h u)

theorem plainTexts_field : ∀ a ∈ plainTexts, a.2.take 5 ≠ "Field".toList ∧
    a.2 ≠ (DbfParseError.badDate.text Encoding.ascii).filter nonDigit ∧
    a.2 ≠ "'.shp' file has more records than '.dbf' record".toList ∧
    a.2 ≠ "'.dbf' file has more records than '.shp' record".toList := by decide +kernel

/-- Compares texts that do not depend on anything. -/
local macro "literal_texts" : tactic =>
  `(tactic| (try delta DbfParseError.text) <;> (try delta ShapefileError.description) <;> dsimp only <;> decide +kernel)

/-- C104: different errors have different messages. -/
theorem C104_texts (showIo : IoError → Text) (enc : Encoding) (a b : ShapefileError) (ha : Reported a) (hb : Reported b)
    (h : a.show showIo enc = b.show showIo enc) : a = b := by
  have hshp : ∀ e : ShpParseError, Reported (.shp (.parse e)) →
      e.text ≠ "Field name is not valid ".toList ++ enc.name ∧ e.text ≠ DbfParseError.badDate.text Encoding.ascii ∧
      e.text ≠ "'.shp' file has more records than '.dbf' record".toList ∧
      e.text ≠ "'.dbf' file has more records than '.shp' record".toList := by
    intro e he
    obtain ⟨h1, h2, h3, h4⟩ := plainTexts_field _ (mem_plainTexts e (reported_shape_type he))
    refine ⟨fun h => h1 ?_, fun h => h2 (by rw [h]), fun h => h3 ?_, fun h => h4 ?_⟩
    · simp only [h, List.filter_append]
      have : ("Field name is not valid ".toList).filter nonDigit = "Field name is not valid ".toList := by decide +kernel
      rw [this]
      rfl
    · simp only [h]; decide +kernel
    · simp only [h]; decide +kernel
  have key : ∀ (e : ShpParseError) (b : ShapefileError), Reported (.shp (.parse e)) → Reported b →
      ShapefileError.show showIo enc (.shp (.parse e)) = b.show showIo enc → .shp (.parse e) = b := by
    intro e b he hb h
    obtain ⟨k1, k2, k3, k4⟩ := hshp e he
    cases hb with
    | unsupported u hu =>
      have h := List.append_cancel_left h
      rw [ShpParseError.text_inj (ShpParseError.kind_eq (reported_shape_type he)
        (reported_shape_type (.unsupported u hu)) h) h]
    | shape e' he' =>
      have h := List.append_cancel_left h
      rw [ShpParseError.text_inj (ShpParseError.kind_eq (reported_shape_type he)
        (reported_shape_type (.shape e' he')) h) h]
    | date => exact absurd (List.append_cancel_left h) k2
    | name => exact absurd (List.append_cancel_left h) k1
    | shapes => exact absurd (List.append_cancel_left h) k3
    | records => exact absurd (List.append_cancel_left h) k4
  have hname : ∀ s : Text, s.take 5 ≠ "Field".toList → "Field name is not valid ".toList ++ enc.name ≠ s := by
    rintro s hs rfl
    exact hs rfl
  cases ha with
  | unsupported u hu => exact key _ b (.unsupported u hu) hb h
  | shape e he => exact key _ b (.shape e he) hb h
  | date => cases hb with
    | unsupported u hu => exact (key _ _ (.unsupported u hu) .date h.symm).symm
    | shape e he => exact (key _ _ (.shape e he) .date h.symm).symm
    | date => rfl
    | name => exact absurd (List.append_cancel_left h).symm (hname _ (by literal_texts))
    | shapes => exact absurd (List.append_cancel_left h) (by literal_texts)
    | records => exact absurd (List.append_cancel_left h) (by literal_texts)
  | name => cases hb with
    | unsupported u hu => exact (key _ _ (.unsupported u hu) .name h.symm).symm
    | shape e he => exact (key _ _ (.shape e he) .name h.symm).symm
    | date => exact absurd (List.append_cancel_left h) (hname _ (by literal_texts))
    | name => rfl
    | shapes => exact absurd (List.append_cancel_left h) (hname _ (by literal_texts))
    | records => exact absurd (List.append_cancel_left h) (hname _ (by literal_texts))
  | shapes => cases hb with
    | unsupported u hu => exact (key _ _ (.unsupported u hu) .shapes h.symm).symm
    | shape e he => exact (key _ _ (.shape e he) .shapes h.symm).symm
    | date => exact absurd (List.append_cancel_left h) (by literal_texts)
    | name => exact absurd (List.append_cancel_left h).symm (hname _ (by literal_texts))
    | shapes => rfl
    | records => exact absurd (List.append_cancel_left h) (by literal_texts)
  | records => cases hb with
    | unsupported u hu => exact (key _ _ (.unsupported u hu) .records h.symm).symm
    | shape e he => exact (key _ _ (.shape e he) .records h.symm).symm
    | date => exact absurd (List.append_cancel_left h) (by literal_texts)
    | name => exact absurd (List.append_cancel_left h).symm (hname _ (by literal_texts))
    | shapes => exact absurd (List.append_cancel_left h) (by literal_texts)
    | records => rfl

theorem parseShpHeader_error {m : Build} {buf : Bytes} {e : ShpError} (h : parseShpHeader m buf = .ok (.error e)) :
    Reported (.shp e) := by
  unfold parseShpHeader at h
  obtain ⟨magic, _, h⟩ := bind_ok.mp h
  obtain ⟨fileLen, _, h⟩ := bind_ok.mp h
  obtain ⟨version, _, h⟩ := bind_ok.mp h
  obtain ⟨shapeType, _, h⟩ := bind_ok.mp h
  obtain ⟨b0, _, h⟩ := bind_ok.mp h
  obtain ⟨b1, _, h⟩ := bind_ok.mp h
  obtain ⟨b2, _, h⟩ := bind_ok.mp h
  obtain ⟨b3, _, h⟩ := bind_ok.mp h
  split at h
  · cases h; exact .shape _ (by rintro u ⟨⟩)
  split at h
  · cases h; exact .shape _ (by rintro u ⟨⟩)
  split at h
  · rename_i hs
    split at h
    · obtain ⟨n, _, h⟩ := bind_ok.mp h
      cases h
    · cases h; exact .unsupported _ ((isShapeType_iff _).mp hs)
  · cases h; exact .shape _ (by rintro u ⟨⟩)

theorem shpNew_error {σ : Type} [Source σ] {m : Build} {f : σ} {e : ShpError} (h : ShpReader.new m f = .ok (.error e)) :
    Reported (.shp e) ∨ ∃ io, e = .io io := by
  unfold ShpReader.new at h
  obtain ⟨⟨r, f'⟩, hr, h⟩ := bind_ok.mp h
  dsimp only at h
  cases r with
  | ok x => cases h
  | error e' =>
    cases h
    unfold readShpHeader at hr
    split at hr
    · cases hr; exact .inr ⟨_, rfl⟩
    · obtain ⟨x, hx, hr⟩ := bind_ok.mp hr
      cases hr
      exact .inl (parseShpHeader_error hx)

theorem cutRings_error {n : Nat} {points : List ShpPoint} {l : List (Nat × Nat)} {rings : List ShpPolygonRing} {e : ShpError}
    (h : cutRings n points rings l = .ok (.error e)) : Reported (.shp e) := by
  induction l generalizing rings with
  | nil => cases h
  | cons ab l ih =>
    obtain ⟨a, b⟩ := ab
    rw [cutRings] at h
    split at h
    · cases h; exact .shape _ (by rintro u ⟨⟩)
    split at h
    · cases h; exact .shape _ (by rintro u ⟨⟩)
    obtain ⟨ring, _, h⟩ := bind_ok.mp h
    exact ih h

theorem parsePolygonRecord_error {buf : Bytes} {n : Nat} {e : ShpError} (h : parsePolygonRecord buf n = .ok (.error e)) :
    Reported (.shp e) := by
  unfold parsePolygonRecord at h
  obtain ⟨shapeType, _, h⟩ := bind_ok.mp h
  split at h
  · cases h; exact .shape _ (by rintro u ⟨⟩)
  obtain ⟨numParts, _, h⟩ := bind_ok.mp h
  split at h
  · cases h; exact .shape _ (by rintro u ⟨⟩)
  obtain ⟨numPoints, _, h⟩ := bind_ok.mp h
  split at h
  · cases h; exact .shape _ (by rintro u ⟨⟩)
  obtain ⟨pointBytes, _, h⟩ := bind_ok.mp h
  obtain ⟨points, _, h⟩ := bind_ok.mp h
  obtain ⟨partBytes, _, h⟩ := bind_ok.mp h
  obtain ⟨parts, _, h⟩ := bind_ok.mp h
  obtain ⟨r, hr, h⟩ := bind_ok.mp h
  cases r with
  | error e' => cases h; exact cutRings_error hr
  | ok rings =>
    dsimp only at h
    split at h
    · cases h
    split at h
    · cases h; exact .shape _ (by rintro u ⟨⟩)
    obtain ⟨ring, _, h⟩ := bind_ok.mp h
    cases h

theorem shpNext_error {σ : Type} [Source σ] {r r' : ShpReader σ} {e : ShpError} (h : r.next = .ok (some (.error e), r')) :
    Reported (.shp e) ∨ ∃ io, e = .io io := by
  unfold ShpReader.next at h
  split at h
  · cases h
  obtain ⟨⟨res, f⟩, hr, h⟩ := bind_ok.mp h
  dsimp only at h
  cases res with
  | ok x =>
    dsimp only at h
    split at h
    · cases h; exact .inl (.shape _ (by rintro u ⟨⟩))
    · cases h
  | error e' =>
    cases h
    unfold readPolygonRecord at hr
    split at hr
    · cases hr; exact .inr ⟨_, rfl⟩
    obtain ⟨a, _, hr⟩ := bind_ok.mp hr
    obtain ⟨b, _, hr⟩ := bind_ok.mp hr
    split at hr
    · cases hr; exact .inr ⟨_, rfl⟩
    obtain ⟨x, hx, hr⟩ := bind_ok.mp hr
    cases x with
    | error e'' => cases hr; exact .inl (parsePolygonRecord_error hx)
    | ok y => cases hr

theorem parseDbfFields_error {enc : Encoding} {l : List Bytes} {offset : Nat} {v : List DbfField} {e : DbfError}
    (h : parseDbfFields enc offset v l = .ok (.error e)) : Reported (.dbf e) := by
  induction l generalizing offset v with
  | nil => cases h
  | cons c l ih =>
    rw [parseDbfFields] at h
    split at h
    · cases h
    obtain ⟨x, hx, h⟩ := bind_ok.mp h
    cases x with
    | ok y => exact ih h
    | error e' =>
      cases h
      unfold parseDbfField at hx
      obtain ⟨a, _, hx⟩ := bind_ok.mp hx
      obtain ⟨b, _, hx⟩ := bind_ok.mp hx
      split at hx
      · cases hx; exact .name
      · split at hx <;> cases hx

theorem dbfNew_error {σ : Type} [Source σ] {m : Build} {f : σ} {enc : Encoding} {e : DbfError}
    (h : DbfReader.new m f enc = .ok (.error e)) : Reported (.dbf e) ∨ ∃ io, e = .io io := by
  unfold DbfReader.new at h
  obtain ⟨⟨r, f'⟩, hr, h⟩ := bind_ok.mp h
  dsimp only at h
  cases r with
  | ok x => cases h
  | error e' =>
    cases h
    unfold readDbfMeta at hr
    obtain ⟨⟨r1, f1⟩, h1, hr⟩ := bind_ok.mp hr
    dsimp only at hr
    cases r1 with
    | error e1 =>
      cases hr
      unfold readDbfHeader at h1
      split at h1
      · cases h1; exact .inr ⟨_, rfl⟩
      split at h1
      · split at h1
        · cases h1; exact .inl .date
        · obtain ⟨_, _, h1⟩ := bind_ok.mp h1
          obtain ⟨_, _, h1⟩ := bind_ok.mp h1
          obtain ⟨_, _, h1⟩ := bind_ok.mp h1
          cases h1
      · cases h1
    | ok hd =>
      dsimp only at hr
      obtain ⟨⟨r2, f2⟩, h2, hr⟩ := bind_ok.mp hr
      dsimp only at hr
      cases r2 with
      | ok x => cases hr
      | error e2 =>
        cases hr
        unfold readDbfFields at h2
        split at h2
        · cases h2
        split at h2
        · cases h2; exact .inr ⟨_, rfl⟩
        · obtain ⟨x, hx, h2⟩ := bind_ok.mp h2
          cases h2
          exact .inl (parseDbfFields_error hx)

theorem dbfNext_error {σ : Type} [Source σ] {r r' : DbfReader σ} {e : DbfError} (h : r.next = (some (.error e), r')) :
    ∃ io, e = .io io := by
  unfold DbfReader.next at h
  split at h
  · cases h
  · have h := Option.some.inj (congrArg Prod.fst h)
    unfold readDbfRecord at h
    split at h
    · cases h; exact ⟨_, rfl⟩
    · cases h

/-- C104: the errors that opening files and iterating over records return. -/
theorem C104_reported {σ τ : Type} [Source σ] [Source τ] (m : Build) (enc : Encoding) (e : ShapefileError) :
    (∀ (fs : FileSystem σ) (path : Path), shapefileOpen m fs path enc = .ok (.error e) → Reported e ∨ ∃ io, PassedOn e io) ∧
    (∀ (f : σ) (g : τ), ShapefileReader.new m f g enc = .ok (.error e) → Reported e ∨ ∃ io, PassedOn e io) ∧
    ∀ r r' : ShapefileReader σ τ, r.next = .ok (some (.error e), r') → Reported e ∨ ∃ io, PassedOn e io := by
  have shp : ∀ {r r' : ShpReader σ} {e : ShpError}, r.next = .ok (some (.error e), r') →
      Reported (.shp e) ∨ ∃ io, PassedOn (.shp e) io := by
    intro r r' e h
    rcases shpNext_error h with h | ⟨io, rfl⟩
    · exact .inl h
    · exact .inr ⟨io, .inl rfl⟩
  refine ⟨?_, ?_, ?_⟩
  · intro fs path h
    unfold shapefileOpen at h
    obtain ⟨x, hx, h⟩ := bind_ok.mp h
    cases x with
    | error e1 =>
      cases h
      unfold shpOpen at hx
      split at hx
      · cases hx; exact .inr ⟨_, .inl rfl⟩
      · rcases shpNew_error hx with h | ⟨io, rfl⟩
        · exact .inl h
        · exact .inr ⟨io, .inl rfl⟩
    | ok r =>
      dsimp only at h
      obtain ⟨y, hy, h⟩ := bind_ok.mp h
      cases y with
      | ok s => cases h
      | error e2 =>
        cases h
        unfold dbfOpen at hy
        split at hy
        · cases hy; exact .inr ⟨_, .inr rfl⟩
        · rcases dbfNew_error hy with h | ⟨io, rfl⟩
          · exact .inl h
          · exact .inr ⟨io, .inr rfl⟩
  · intro f g h
    unfold ShapefileReader.new at h
    obtain ⟨x, hx, h⟩ := bind_ok.mp h
    obtain ⟨y, hy, h⟩ := bind_ok.mp h
    cases x with
    | error e1 =>
      cases h
      rcases shpNew_error hx with h | ⟨io, rfl⟩
      · exact .inl h
      · exact .inr ⟨io, .inl rfl⟩
    | ok r =>
      cases y with
      | ok s => cases h
      | error e2 =>
        cases h
        rcases dbfNew_error hy with h | ⟨io, rfl⟩
        · exact .inl h
        · exact .inr ⟨io, .inr rfl⟩
  · intro r r' h
    unfold ShapefileReader.next at h
    obtain ⟨⟨a, shp'⟩, ha, h⟩ := bind_ok.mp h
    have h : joinResults a r.dbfReader.next.1 = some (.error e) := congrArg Prod.fst (Except.ok.inj h)
    generalize hb : r.dbfReader.next = b at h
    obtain ⟨b, dbf'⟩ := b
    rcases a with _ | e1 | x <;> rcases b with _ | e2 | y <;> cases h
    · exact .inl .records
    · exact .inl .records
    · exact .inl .shapes
    · exact shp ha
    · exact shp ha
    · exact .inl .shapes
    · obtain ⟨io, rfl⟩ := dbfNext_error hb
      exact .inr ⟨io, .inr rfl⟩

/-- C104: what an error shows. -/
theorem C104_display (showIo descriptionIo : IoError → Text) (enc : Encoding) (e : ShapefileError) :
    (∀ io, PassedOn e io → e.show showIo enc = showIo io ∧ e.description descriptionIo enc = descriptionIo io ∧
      rootCause e = some io) ∧
    ((∀ io, ¬ PassedOn e io) → e.show showIo enc = "Parse error: ".toList ++ e.description descriptionIo enc ∧
      rootCause e = none) := by
  constructor
  · rintro io (rfl | rfl) <;> exact ⟨rfl, rfl, rfl⟩
  · intro h
    rcases e with (io | e) | (io | e) | _ | _
    · exact absurd (.inl rfl) (h io)
    · exact ⟨rfl, rfl⟩
    · exact absurd (.inr rfl) (h io)
    · exact ⟨rfl, rfl⟩
    · exact ⟨rfl, rfl⟩
    · exact ⟨rfl, rfl⟩

theorem showNat_repr (n : Nat) : showNat n = (toString n).toList := by
  simp [showNat, toString, Nat.repr]

theorem shapeTypeNames_lookup (u : Nat) : (u ∉ shapeTypes → shapeTypeNames.lookup u = none) ∧
    (u ∈ shapeTypes → ∃ name, shapeTypeNames.lookup u = some name ∧ name.toList = shapeTypeName u) := by
  constructor
  · intro h
    rw [List.lookup_eq_none_iff]
    intro p hp
    have : p.1 ∈ shapeTypes := (List.forall_iff_forall_mem.mp (by decide +kernel :
      shapeTypeNames.Forall fun p => p.1 ∈ shapeTypes)) p hp
    simp only [bne_iff_ne, ne_eq]
    rintro rfl
    exact h this
  · intro h
    simp only [shapeTypes, List.mem_cons, List.not_mem_nil, or_false] at h
    rcases h with rfl | rfl | rfl | rfl | rfl | rfl | rfl | rfl | rfl | rfl | rfl | rfl | rfl | rfl <;>
      exact ⟨_, rfl, by decide +kernel⟩

theorem wrongMagic_text (n : Nat) :
    (ShpParseError.wrongMagic n).text = s!"File has wrong magic number: found {n}, expected 9994".toList := by
  have : ", expected 9994".toList = ", expected ".toList ++ showNat 9994 := by decide +kernel
  change _ = (_ ++ toString _ ++ _ : String).toList
  rw [String.toList_append, String.toList_append, ← showNat_repr]
  change _ = _ ++ _ ++ ", expected 9994".toList
  rw [this, ← List.append_assoc]
  delta ShpParseError.text
  rfl

theorem wrongVersion_text (n : Nat) :
    (ShpParseError.wrongVersion n).text = s!"File has wrong version: found {n}, expected 1000".toList := by
  have : ", expected 1000".toList = ", expected ".toList ++ showNat 1000 := by decide +kernel
  change _ = (_ ++ toString _ ++ _ : String).toList
  rw [String.toList_append, String.toList_append, ← showNat_repr]
  change _ = _ ++ _ ++ ", expected 1000".toList
  rw [this, ← List.append_assoc]
  delta ShpParseError.text
  rfl

theorem unsupportedType_text (n : Nat) (name : String) (h : name.toList = shapeTypeName n) :
    (ShpParseError.unsupportedType n).text = s!"File has unsupported type: found {name}, expected Polygon".toList := by
  have : ", expected Polygon".toList = ", expected ".toList ++ shapeTypeName 5 := by decide +kernel
  change _ = (_ ++ name ++ _ : String).toList
  rw [String.toList_append, String.toList_append, h]
  change _ = _ ++ _ ++ ", expected Polygon".toList
  rw [this, ← List.append_assoc]
  delta ShpParseError.text
  rfl

theorem nonexistentType_text (n : Nat) :
    (ShpParseError.nonexistentType n).text = s!"File has nonexistent data type {n}".toList := by
  rw [String.toList_append, ← showNat_repr]
  delta ShpParseError.text
  rfl

theorem headerMessage_some {bs : Bytes} {s : String} (hs : headerMessage bs = some s) :
    ∃ e, Header bs (some e) ∧ e.text = s.toList := by
  unfold headerMessage at hs
  by_cases h1 : u32be bs 0 = 9994
  · rw [if_neg (not_not.mpr h1)] at hs
    by_cases h2 : u32le bs 28 = 1000
    · rw [if_neg (not_not.mpr h2)] at hs
      by_cases h3 : u32le bs 32 = 5
      · rw [if_pos h3] at hs
        cases hs
      rw [if_neg h3] at hs
      by_cases h4 : u32le bs 32 ∈ shapeTypes
      · obtain ⟨name, h5, h6⟩ := (shapeTypeNames_lookup _).2 h4
        rw [h5] at hs
        obtain rfl := Option.some.inj hs
        exact ⟨_, .unsupported h1 h2 h4 h3, unsupportedType_text _ _ h6⟩
      · rw [(shapeTypeNames_lookup _).1 h4] at hs
        obtain rfl := Option.some.inj hs
        exact ⟨_, .nonexistent h1 h2 h4, nonexistentType_text _⟩
    · rw [if_pos h2] at hs
      obtain rfl := Option.some.inj hs
      exact ⟨_, .wrongVersion h1 h2, wrongVersion_text _⟩
  · rw [if_pos h1] at hs
    obtain rfl := Option.some.inj hs
    exact ⟨_, .wrongMagic h1, wrongMagic_text _⟩

/-- C104: what opening says about a file's header. -/
theorem C104_header (m : Build) (showIo : IoError → Text) (bs : Bytes) (hl : 100 ≤ bs.length) :
    (∀ s, headerMessage bs = some s →
      ∃ e, ShpReader.new m (⟨bs⟩ : MemFile) = .ok (.error e) ∧ e.show showIo = ("Parse error: " ++ s).toList) ∧
    (headerMessage bs = none → ∀ e, ShpReader.new m (⟨bs⟩ : MemFile) ≠ .ok (.error e)) := by
  refine ⟨fun s hs => ?_, fun h e he => ?_⟩
  · obtain ⟨e, he, ht⟩ := headerMessage_some hs
    refine ⟨.parse e, (C53_error m bs).2 e hl he, ?_⟩
    rw [String.toList_append, ← ht]
    rfl
  · unfold headerMessage at h
    split at h
    · cases h
    rename_i h1
    split at h
    · cases h
    rename_i h2
    split at h
    · rename_i h3
      rw [shpNew_eq, if_neg (by omega), if_neg h1, if_neg h2, if_pos ((isShapeType_iff _).mpr (by rw [h3]; decide)),
        if_pos h3] at he
      obtain ⟨n, _, he⟩ := bind_ok.mp he
      cases he
    · split at h <;> cases h

/-- Non-vacuity: a file of another type, and one of a type that does not exist. -/
example : headerMessage ((writeShp unitBox neighbourRecords).set 32 3) =
      some "File has unsupported type: found PolyLine, expected Polygon" ∧
    headerMessage ((writeShp unitBox neighbourRecords).set 32 2) = some "File has nonexistent data type 2" ∧
    headerMessage (writeShp unitBox neighbourRecords) = none := by
  decide +kernel

/-- Two errors, and an error that cannot happen: its message would be the same. -/
example : Reported (.shp (.parse (.lastPart 1 2 34))) ∧ Reported (.shp (.parse (.lastPart 12 3 4))) ∧
    ¬ Reported (.shp (.parse (.unsupportedType 2))) :=
  ⟨.shape _ (by rintro u ⟨⟩), .shape _ (by rintro u ⟨⟩), fun h => by
    cases h with
    | unsupported _ h => revert h; decide
    | shape _ h => exact h _ rfl⟩

/-- A message that misleads: "Record number 1 has a ring starting at point 0, but there
are only 3 points in the record". -/
example : parsePolygonRecord (contentBytes (List.replicate 32 0) [0] [⟨0, 0⟩, ⟨0, 0⟩, ⟨0, 0⟩]) 1 =
    .ok (.error (.parse (.lastPart 1 0 3))) := by
  decide +kernel

/-! ## C105 -/

/-- C105: both programs want one argument, a text. -/
theorem C105_usage {σ : Type} [Source σ] (m : Build) (showF64 : UInt64 → Text) (dbg : DbfError → Text)
    (showIo : IoError → Text) (toPath : Text → Path) (fuel : Nat) (fs : FileSystem σ) (enc : Encoding)
    (args : List (Option Text)) (run : ProgramRun)
    (hrun : run = geoMain m showIo toPath fuel fs enc args ∨ run = catMain m showF64 dbg showIo toPath fuel fs enc args) :
    (∀ name rest, args = some name :: rest → rest.length ≠ 1 →
      run = ⟨[], ["Usage: ".toList ++ name ++ " <SHP_PATH>".toList], .code 1⟩) ∧
    ((args = [] ∨ (∃ rest, args = none :: rest) ∨ ∃ name, args = [name, none]) → run = ⟨[], [], .panicked .explicit⟩) := by
  have key : ∀ rest : Text → ProgramRun, run = withPath args rest →
      (∀ name more, args = some name :: more → more.length ≠ 1 →
        run = ⟨[], ["Usage: ".toList ++ name ++ " <SHP_PATH>".toList], .code 1⟩) ∧
      ((args = [] ∨ (∃ more, args = none :: more) ∨ ∃ name, args = [name, none]) → run = ⟨[], [], .panicked .explicit⟩) := by
    rintro rest rfl
    constructor
    · rintro name more rfl h
      unfold withPath
      rw [if_pos (by simpa using h)]
      rfl
    · rintro (rfl | ⟨more, rfl⟩ | ⟨name, rfl⟩)
      · rfl
      · unfold withPath
        split <;> rfl
      · cases name <;> rfl
  rcases hrun with h | h
  · exact key _ h
  · exact key _ h

theorem Spec.Ended.after {run : ProgramRun} (lines : List Text) (h : Ended run) : Ended (run.after lines) := by
  cases h with
  | well l => exact .well _
  | gaveUp l msg => exact .gaveUp _ _
  | panicked l p => exact .panicked _ _

theorem Spec.Ended.orPanic {α : Type} (x : R α) {rest : α → ProgramRun} (h : ∀ a, Ended (rest a)) :
    Ended (.orPanic x rest) := by
  cases x with
  | error p => exact .panicked _ _
  | ok a => exact h a

theorem Spec.Ended.fail (msg : Text) : Ended (.fail msg) := .gaveUp _ _

theorem Spec.Ended.withPath (args : List (Option Text)) {rest : Text → ProgramRun} (h : ∀ a, Ended (rest a)) :
    Ended (withPath args rest) := by
  unfold TopoGeo.withPath
  split
  · exact .orPanic _ fun _ => .fail _
  · exact .orPanic _ fun _ => .orPanic _ h

theorem catMainLoop_ended {σ τ : Type} [Source σ] [Source τ] (showF64 : UInt64 → Text) (dbg : DbfError → Text)
    (showIo : IoError → Text) (enc : Encoding) (fuel : Nat) (r : ShapefileReader σ τ) (n : Nat) :
    Ended (catMainLoop showF64 dbg showIo enc fuel r n) := by
  induction fuel generalizing r n with
  | zero => exact .panicked _ _
  | succ fuel ih =>
    rw [catMainLoop]
    refine .orPanic _ ?_
    rintro ⟨_ | e | record, r'⟩
    · exact .well _
    · exact .fail _
    · exact .orPanic _ fun line => .after _ (ih _ _)

/-- C105: exit code 0 and no message, exit code 1 and one message, or a panic. -/
theorem C105_exit {σ : Type} [Source σ] (m : Build) (showF64 : UInt64 → Text) (dbg : DbfError → Text)
    (showIo : IoError → Text) (toPath : Text → Path) (fuel : Nat) (fs : FileSystem σ) (enc : Encoding)
    (args : List (Option Text)) :
    Ended (geoMain m showIo toPath fuel fs enc args) ∧ Ended (catMain m showF64 dbg showIo toPath fuel fs enc args) := by
  constructor
  · refine .withPath _ fun path => .orPanic _ ?_
    rintro (e | reader)
    · exact .fail _
    · refine .orPanic _ ?_
      rintro (e | ⟨b, n⟩)
      · exact .fail _
      · exact .after _ (.orPanic _ fun t => .after _ (.orPanic _ fun u => .after _ (.orPanic _ fun v => .well _)))
  · refine .withPath _ fun path => .orPanic _ ?_
    rintro (e | reader)
    · exact .fail _
    · exact catMainLoop_ended _ _ _ _ _ _ _

theorem topologyReport_lines (title : String) (d : TopologyDescription) :
    (topologyReport title d).map String.toList = title.toList :: d.lines := by
  simp only [topologyReport, TopologyDescription.lines, List.map_cons, List.map_nil, String.toList_append, showNat_repr]
  rfl

theorem fileReport_lines (n : Nat) (d1 d2 d3 : TopologyDescription) : (fileReport n d1 d2 d3).map String.toList =
    ["Read ".toList ++ showNat n ++ " regions".toList] ++ (("Formed initial topology:".toList :: d1.lines) ++
      (("Normalized topology:".toList :: d2.lines) ++ ("Clipped topology:".toList :: d3.lines))) := by
  have : s!"Read {n} regions".toList = "Read ".toList ++ showNat n ++ " regions".toList := by
    rw [String.toList_append, String.toList_append, showNat_repr]
    rfl
  simp only [fileReport, List.map_cons, List.map_append, List.cons_append, topologyReport_lines, this, List.nil_append,
    List.append_assoc]

theorem geoMain_path {σ : Type} [Source σ] (m : Build) (showIo : IoError → Text) (toPath : Text → Path) (fuel : Nat)
    (fs : FileSystem σ) (enc : Encoding) (name path : Text) :
    geoMain m showIo toPath fuel fs enc [some name, some path] =
      .orPanic (shapefileOpen m fs (toPath path) enc) fun
        | .error err => .fail (err.show showIo enc)
        | .ok reader =>
          .orPanic (readRegions m fuel (ShapefileGeoIterator.new reader) TopologyBuilder.new 0) fun
            | .error err => .fail ("Error during read: ".toList ++ err.show showIo enc)
            | .ok (b, n) => .after ["Read ".toList ++ showNat n ++ " regions".toList] (geoMainTopology m b) := rfl

theorem catMain_path {σ : Type} [Source σ] (m : Build) (showF64 : UInt64 → Text) (dbg : DbfError → Text)
    (showIo : IoError → Text) (toPath : Text → Path) (fuel : Nat) (fs : FileSystem σ) (enc : Encoding) (name path : Text) :
    catMain m showF64 dbg showIo toPath fuel fs enc [some name, some path] =
      .orPanic (shapefileOpen m fs (toPath path) enc) fun
        | .error err => .fail (err.show showIo enc)
        | .ok reader => catMainLoop showF64 dbg showIo enc fuel reader 0 := rfl

/-- C105: what the first program prints. -/
theorem C105_geo {σ : Type} [Source σ] (m : Build) (showIo : IoError → Text) (toPath : Text → Path) (fuel : Nat)
    (fs : FileSystem σ) (enc : Encoding) (name path : Text) (run : ProgramRun)
    (hrun : run = geoMain m showIo toPath fuel fs enc [some name, some path]) :
    (∀ n d1 d2 d3, shpToGeoData m fuel fs (toPath path) enc = .ok (.ok (n, d1, d2, d3)) →
      run = ⟨(fileReport n d1 d2 d3).map String.toList, [], .code 0⟩) ∧
    (∀ e, shpToGeoData m fuel fs (toPath path) enc = .ok (.error e) → ∃ opened,
      run = ⟨[], [errorTitle opened ++ e.show showIo enc], .code 1⟩ ∧
      (opened = false ↔ shapefileOpen m fs (toPath path) enc = .ok (.error e))) ∧
    ∀ p, shpToGeoData m fuel fs (toPath path) enc = .error p → ∃ n d1 d2 d3, ∃ k ∈ [0, 1, 9, 17],
      run = ⟨((fileReport n d1 d2 d3).take k).map String.toList, [], .panicked p⟩ := by
  rw [geoMain_path] at hrun
  subst hrun
  have d0 : TopologyDescription := ⟨0, 0, 0, 0, 0, 0, 0⟩
  simp only [List.map_take, fileReport_lines]
  unfold shpToGeoData
  cases h1 : shapefileOpen m fs (toPath path) enc with
  | error p =>
    refine ⟨by rintro _ _ _ _ ⟨⟩, by rintro _ ⟨⟩, ?_⟩
    rintro _ ⟨⟩
    exact ⟨0, d0, d0, d0, 0, by simp, rfl⟩
  | ok x =>
  rw [ok_bind]
  cases x with
  | error e =>
    refine ⟨by rintro _ _ _ _ ⟨⟩, ?_, by rintro _ ⟨⟩⟩
    rintro _ ⟨⟩
    exact ⟨false, rfl, by simp⟩
  | ok reader =>
  dsimp only
  change _ ∧ _ ∧ _
  generalize hr : readRegions m fuel (ShapefileGeoIterator.new reader) TopologyBuilder.new 0 = x
  cases x with
  | error p =>
    refine ⟨by rintro _ _ _ _ ⟨⟩, by rintro _ ⟨⟩, ?_⟩
    rintro _ ⟨⟩
    exact ⟨0, d0, d0, d0, 0, by simp, by rw [ProgramRun.orPanic]; simp only [hr]; rfl⟩
  | ok x =>
  rw [ok_bind]
  cases x with
  | error e =>
    refine ⟨by rintro _ _ _ _ ⟨⟩, ?_, by rintro _ ⟨⟩⟩
    rintro _ ⟨⟩
    exact ⟨true, by rw [ProgramRun.orPanic]; simp only [hr]; rfl, by simp⟩
  | ok bn =>
  obtain ⟨b, n⟩ := bn
  simp only [ProgramRun.orPanic, hr, geoMainTopology]
  cases h2 : b.intoTopology with
  | error p =>
    refine ⟨by rintro _ _ _ _ ⟨⟩, by rintro _ ⟨⟩, ?_⟩
    rintro _ ⟨⟩
    exact ⟨n, d0, d0, d0, 1, by simp, rfl⟩
  | ok t =>
  rw [ok_bind]
  cases h3 : normalize m t with
  | error p =>
    refine ⟨by rintro _ _ _ _ ⟨⟩, by rintro _ ⟨⟩, ?_⟩
    rintro _ ⟨⟩
    exact ⟨n, describe t, d0, d0, 9, by simp, by simp only [h3]; rfl⟩
  | ok u =>
  rw [ok_bind]
  cases h4 : clipTopology m u (.minX 2147483648) with
  | error p =>
    refine ⟨by rintro _ _ _ _ ⟨⟩, by rintro _ ⟨⟩, ?_⟩
    rintro _ ⟨⟩
    exact ⟨n, describe t, describe u, d0, 17, by simp, by simp only [h3, h4]; rfl⟩
  | ok v =>
    refine ⟨?_, by rintro _ ⟨⟩, by rintro _ ⟨⟩⟩
    rintro _ _ _ _ ⟨⟩
    simp only [h3, h4]
    rfl

theorem toString_inj {a b : Nat} (h : toString a = toString b) : a = b := by
  have := congrArg String.toList h
  rw [← showNat_repr, ← showNat_repr] at this
  exact showNat_inj this

theorem labelled_inj {label : String} {a b : Nat} (h : label ++ toString a = label ++ toString b) : a = b := by
  have := congrArg String.toList h
  rw [String.toList_append, String.toList_append, ← showNat_repr, ← showNat_repr] at this
  exact showNat_inj (List.append_cancel_left this)

/-- C105: the numbers can be read off what was printed. -/
theorem C105_report (n n' : Nat) (d1 d2 d3 d1' d2' d3' : TopologyDescription)
    (h : fileReport n d1 d2 d3 = fileReport n' d1' d2' d3') : n = n' ∧ d1 = d1' ∧ d2 = d2' ∧ d3 = d3' := by
  have hd : ∀ (title : String) (d d' : TopologyDescription), topologyReport title d = topologyReport title d' → d = d' := by
    intro title d d' h
    obtain ⟨a1, a2, a3, a4, a5, a6, a7⟩ := d
    obtain ⟨b1, b2, b3, b4, b5, b6, b7⟩ := d'
    simp only [topologyReport, List.cons.injEq, and_true, true_and] at h
    obtain ⟨h1, h2, h3, h4, h5, h6, h7⟩ := h
    rw [labelled_inj h1, labelled_inj h2, labelled_inj h3, labelled_inj h4, labelled_inj h5, labelled_inj h6,
      labelled_inj h7]
  simp only [fileReport, List.cons_append, List.cons.injEq, List.append_assoc] at h
  obtain ⟨h0, h⟩ := h
  obtain ⟨h1, h⟩ := List.append_inj h rfl
  obtain ⟨h2, h3⟩ := List.append_inj h rfl
  refine ⟨?_, hd _ _ _ h1, hd _ _ _ h2, hd _ _ _ h3⟩
  have h0 := congrArg String.toList h0
  rw [String.toList_append, String.toList_append, String.toList_append, String.toList_append] at h0
  have h0 := List.append_cancel_left (List.append_cancel_right h0)
  rw [← showNat_repr, ← showNat_repr] at h0
  exact showNat_inj h0

theorem catMainLoop_eq {σ τ : Type} [Source σ] [Source τ] (showF64 : UInt64 → Text) (dbg : DbfError → Text)
    (showIo : IoError → Text) (enc : Encoding) (fuel : Nat) (r : ShapefileReader σ τ) (before : List Text) (n : Nat) :
    (∀ lines k, catRecords showF64 dbg fuel r before n = .ok (lines, .ok k) →
      (catMainLoop showF64 dbg showIo enc fuel r n).after before = ⟨lines, [], .code 0⟩) ∧
    (∀ lines e, catRecords showF64 dbg fuel r before n = .ok (lines, .error e) →
      (catMainLoop showF64 dbg showIo enc fuel r n).after before =
        ⟨lines, ["Error during read: ".toList ++ e.show showIo enc], .code 1⟩) ∧
    ∀ p, catRecords showF64 dbg fuel r before n = .error p → ∃ (records : List ShapefileRecord) (texts : List Text)
        (r' : ShapefileReader σ τ),
      callsR ShapefileReader.next records.length r = .ok (records.map (fun x => some (.ok x)), r') ∧
      List.Forall₂ (fun (r : ShapefileRecord) text => r.show showF64 dbg = .ok text) records texts ∧
      (r'.next = .error p ∨ (∃ x r'', r'.next = .ok (some (.ok x), r'') ∧ x.show showF64 dbg = .error p) ∨ p = .fuel) ∧
      (catMainLoop showF64 dbg showIo enc fuel r n).after before = ⟨before ++ texts, [], .panicked p⟩ := by
  induction fuel generalizing r before n with
  | zero =>
    refine ⟨by rintro _ _ ⟨⟩, by rintro _ _ ⟨⟩, ?_⟩
    rintro _ ⟨⟩
    exact ⟨[], [], r, rfl, .nil, .inr (.inr rfl), rfl⟩
  | succ fuel ih =>
    rw [catRecords, catMainLoop]
    cases hn : r.next with
    | error p =>
      refine ⟨by rintro _ _ ⟨⟩, by rintro _ _ ⟨⟩, ?_⟩
      rintro _ ⟨⟩
      exact ⟨[], [], r, rfl, .nil, .inl hn, rfl⟩
    | ok x =>
    obtain ⟨o, r'⟩ := x
    rw [ok_bind]
    rcases o with _ | e | record
    · refine ⟨?_, by rintro _ _ ⟨⟩, by rintro _ ⟨⟩⟩
      rintro _ _ ⟨⟩
      rfl
    · refine ⟨by rintro _ _ ⟨⟩, ?_, by rintro _ ⟨⟩⟩
      rintro _ _ ⟨⟩
      simp [ProgramRun.after, ProgramRun.orPanic, ProgramRun.fail]
    · simp only [ProgramRun.orPanic]
      cases hs : record.show showF64 dbg with
      | error p =>
        refine ⟨by rintro _ _ ⟨⟩, by rintro _ _ ⟨⟩, ?_⟩
        rintro _ ⟨⟩
        exact ⟨[], [], r, rfl, .nil, .inr (.inl ⟨record, r', hn, hs⟩), rfl⟩
      | ok line =>
        rw [ok_bind]
        obtain ⟨i1, i2, i3⟩ := ih r' (before ++ [line]) (n + 1)
        have e : ∀ run : ProgramRun, (run.after [line]).after before = run.after (before ++ [line]) := by
          intro run
          simp [ProgramRun.after]
        simp only [e]
        refine ⟨i1, i2, ?_⟩
        intro p hp
        obtain ⟨records, texts, r2, j1, j2, j4, j3⟩ := i3 p hp
        refine ⟨record :: records, line :: texts, r2, ?_, .cons hs j2, j4, ?_⟩
        · rw [List.length_cons, callsR, hn, ok_bind]
          dsimp only
          rw [j1]
          rfl
        · rw [j3, List.append_assoc]
          rfl

/-- C105: what the second program prints. -/
theorem C105_cat {σ : Type} [Source σ] (m : Build) (showF64 : UInt64 → Text) (dbg : DbfError → Text)
    (showIo : IoError → Text) (toPath : Text → Path) (fuel : Nat) (fs : FileSystem σ) (enc : Encoding) (name path : Text)
    (run : ProgramRun) (hrun : run = catMain m showF64 dbg showIo toPath fuel fs enc [some name, some path]) :
    (∀ lines n, catShp m showF64 dbg fuel fs (toPath path) enc = .ok (lines, .ok n) → run = ⟨lines, [], .code 0⟩) ∧
    (∀ lines e, catShp m showF64 dbg fuel fs (toPath path) enc = .ok (lines, .error e) → ∃ opened,
      run = ⟨lines, [errorTitle opened ++ e.show showIo enc], .code 1⟩ ∧
      (opened = false ↔ shapefileOpen m fs (toPath path) enc = .ok (.error e))) ∧
    ∀ p, catShp m showF64 dbg fuel fs (toPath path) enc = .error p →
      (run = ⟨[], [], .panicked p⟩ ∧ shapefileOpen m fs (toPath path) enc = .error p) ∨
      ∃ (r r' : ShapefileReader σ σ) (records : List ShapefileRecord) (texts : List Text),
        shapefileOpen m fs (toPath path) enc = .ok (.ok r) ∧
        callsR ShapefileReader.next records.length r = .ok (records.map (fun x => some (.ok x)), r') ∧
        List.Forall₂ (fun (r : ShapefileRecord) text => r.show showF64 dbg = .ok text) records texts ∧
        (r'.next = .error p ∨ (∃ x r'', r'.next = .ok (some (.ok x), r'') ∧ x.show showF64 dbg = .error p) ∨ p = .fuel) ∧
        run = ⟨texts, [], .panicked p⟩ := by
  rw [catMain_path] at hrun
  subst hrun
  unfold catShp
  cases h1 : shapefileOpen m fs (toPath path) enc with
  | error p =>
    refine ⟨by rintro _ _ ⟨⟩, by rintro _ _ ⟨⟩, ?_⟩
    rintro _ ⟨⟩
    exact .inl ⟨rfl, rfl⟩
  | ok x =>
  rw [ok_bind]
  cases x with
  | error e =>
    refine ⟨by rintro _ _ ⟨⟩, ?_, by rintro _ ⟨⟩⟩
    rintro _ _ ⟨⟩
    exact ⟨false, rfl, by simp⟩
  | ok reader =>
    obtain ⟨i1, i2, i3⟩ := catMainLoop_eq showF64 dbg showIo enc fuel reader [] 0
    have e : ∀ run : ProgramRun, run.after [] = run := fun run => rfl
    simp only [e] at i1 i2 i3
    refine ⟨i1, fun lines e h => ⟨true, i2 lines e h, by simp⟩, fun p h => .inr ?_⟩
    obtain ⟨records, texts, r', j1, j2, j4, j3⟩ := i3 p h
    exact ⟨reader, r', records, texts, rfl, j1, j2, j4, j3⟩

theorem formatted_or (showF64 : UInt64 → Text) (dbg : DbfError → Text) (l : List ShapefileRecord) :
    (∃ texts, List.Forall₂ (fun (r : ShapefileRecord) text => r.show showF64 dbg = .ok text) l texts) ∨
    ∃ before x after texts p, l = before ++ x :: after ∧
      List.Forall₂ (fun (r : ShapefileRecord) text => r.show showF64 dbg = .ok text) before texts ∧
      x.show showF64 dbg = .error p := by
  induction l with
  | nil => exact .inl ⟨[], .nil⟩
  | cons a l ih =>
    cases ha : a.show showF64 dbg with
    | error p => exact .inr ⟨[], a, l, [], p, rfl, .nil, ha⟩
    | ok text =>
      rcases ih with ⟨texts, h⟩ | ⟨before, x, after, texts, p, rfl, h, hx⟩
      · exact .inl ⟨text :: texts, .cons ha h⟩
      · exact .inr ⟨a :: before, x, after, text :: texts, p, rfl, .cons ha h, hx⟩

theorem catMainLoop_calls {σ τ : Type} [Source σ] [Source τ] (showF64 : UInt64 → Text) (dbg : DbfError → Text)
    (showIo : IoError → Text) (enc : Encoding) (records : List ShapefileRecord) (texts : List Text)
    (ht : List.Forall₂ (fun (r : ShapefileRecord) text => r.show showF64 dbg = .ok text) records texts)
    (os : List (Option (Except ShapefileError ShapefileRecord))) (r r' : ShapefileReader σ τ) (k : Nat)
    (h : callsR ShapefileReader.next (records.length + k) r = .ok (records.map (fun x => some (.ok x)) ++ os, r')) :
    ∃ r1, callsR ShapefileReader.next k r1 = .ok (os, r') ∧ ∀ n fuel,
      catMainLoop showF64 dbg showIo enc (records.length + fuel) r n =
        (catMainLoop showF64 dbg showIo enc fuel r1 (n + records.length)).after texts := by
  induction ht generalizing r with
  | nil => exact ⟨r, by simpa using h, fun n fuel => by simp [ProgramRun.after]⟩
  | @cons record text records texts h1 _ ih =>
    rw [List.length_cons, Nat.add_right_comm] at h
    obtain ⟨r1, a1, a2⟩ := callsR_uncons h
    obtain ⟨r2, b1, b2⟩ := ih r1 a2
    refine ⟨r2, b1, fun n fuel => ?_⟩
    rw [List.length_cons, Nat.add_right_comm, catMainLoop, a1]
    simp only [ProgramRun.orPanic, h1]
    rw [b2, show n + 1 + records.length = n + (records.length + 1) by omega]
    simp [ProgramRun.after]

theorem geoMainTopology_report (m : Build) (b : TopologyBuilder DbfRecord) (n : Nat) : ∃ d1 d2 d3,
    (geoMainTopology m b).after ["Read ".toList ++ showNat n ++ " regions".toList] =
      ⟨(fileReport n d1 d2 d3).map String.toList, [], .code 0⟩ ∨
    ∃ p, ∃ k ∈ [0, 1, 9, 17], (geoMainTopology m b).after ["Read ".toList ++ showNat n ++ " regions".toList] =
      ⟨((fileReport n d1 d2 d3).take k).map String.toList, [], .panicked p⟩ := by
  have d0 : TopologyDescription := ⟨0, 0, 0, 0, 0, 0, 0⟩
  simp only [List.map_take, fileReport_lines, geoMainTopology, ProgramRun.orPanic]
  cases h2 : b.intoTopology with
  | error p => exact ⟨d0, d0, d0, .inr ⟨p, 1, by simp, rfl⟩⟩
  | ok t =>
  dsimp only
  cases h3 : normalize m t with
  | error p => exact ⟨describe t, d0, d0, .inr ⟨p, 9, by simp, rfl⟩⟩
  | ok u =>
  dsimp only
  cases h4 : clipTopology m u (.minX 2147483648) with
  | error p => exact ⟨describe t, describe u, d0, .inr ⟨p, 17, by simp, rfl⟩⟩
  | ok v => exact ⟨describe t, describe u, describe v, .inl rfl⟩

/-- C105: on files as they are written, neither program gives up. The second one
panics only at a record that cannot be formatted, and has printed a line for each
record before it. -/
theorem C105_written (m : Build) (showF64 : UInt64 → Text) (dbg : DbfError → Text) (showIo : IoError → Text)
    (toPath : Text → Path) (fs : FileSystem MemFile) (enc : Encoding) (name path : Text) (box : ShpBoundingBox)
    (records : List OutRecord) (hg : ∀ r ∈ records, r.Good) (hs : fileLength records < 2 ^ 32) (t : Table) (ht : Fits enc t)
    (hn : t.records.length = records.length) (tail tail' : Bytes)
    (h1 : fs (toPath path) = .ok ⟨writeShp box records ++ tail⟩)
    (h2 : fs (setExtension (toPath path) "dbf".toList) = .ok ⟨writeDbf t ++ tail'⟩) (fuel : Nat) (hf : records.length < fuel) :
    (∃ d1 d2 d3, geoMain m showIo toPath fuel fs enc [some name, some path] =
        ⟨(fileReport records.length d1 d2 d3).map String.toList, [], .code 0⟩ ∨
      ∃ p, ∃ k ∈ [0, 1, 9, 17], geoMain m showIo toPath fuel fs enc [some name, some path] =
        ⟨((fileReport records.length d1 d2 d3).take k).map String.toList, [], .panicked p⟩) ∧
    ∃ recs : List ShapefileRecord, recs.length = records.length ∧
      (∀ (i : Nat) (k1 : i < records.length) (k2 : i < t.records.length) (k3 : i < recs.length),
        recs[i].rings = records[i].rings ∧ recs[i].data.bytes = t.records[i]) ∧
      ∃ texts, (List.Forall₂ (fun (r : ShapefileRecord) text => r.show showF64 dbg = .ok text) recs texts ∧
          catMain m showF64 dbg showIo toPath fuel fs enc [some name, some path] =
            ⟨texts ++ ["Read ".toList ++ showNat records.length ++ " records".toList], [], .code 0⟩) ∨
        ∃ before x after p, recs = before ++ x :: after ∧
          List.Forall₂ (fun (r : ShapefileRecord) text => r.show showF64 dbg = .ok text) before texts ∧
          x.show showF64 dbg = .error p ∧
          catMain m showF64 dbg showIo toPath fuel fs enc [some name, some path] = ⟨texts, [], .panicked p⟩ := by
  obtain ⟨r, r', recs, hopen, a2, hlen, hrecs', b1⟩ :=
    open_written m fs (toPath path) enc box records hg hs t ht hn tail tail' h1 h2
  refine ⟨?_, recs, hlen, hrecs', ?_⟩
  · have e : geoMain m showIo toPath fuel fs enc [some name, some path] =
        .orPanic (readRegions m fuel (ShapefileGeoIterator.new r) TopologyBuilder.new 0) fun
          | .error err => .fail ("Error during read: ".toList ++ err.show showIo enc)
          | .ok (b, n) => .after ["Read ".toList ++ showNat n ++ " regions".toList] (geoMainTopology m b) := by
      rw [geoMain_path, hopen]
      rfl
    have hnew : ShapefileGeoIterator.new r = ⟨r, ShapefileQuantizer.new box⟩ := by
      unfold ShapefileGeoIterator.new; rw [a2]
    rw [e, hnew]
    rcases C68_read m (ShapefileQuantizer.new box) recs r r' b1 with ⟨regions, b, c1, c2, c3⟩ | ⟨hm, c⟩
    · rw [c3 fuel (by omega), hlen]
      exact geoMainTopology_report m b _
    · rw [c fuel (by omega)]
      have d0 : TopologyDescription := ⟨0, 0, 0, 0, 0, 0, 0⟩
      exact ⟨d0, d0, d0, .inr ⟨_, 0, by simp, rfl⟩⟩
  · have e : catMain m showF64 dbg showIo toPath fuel fs enc [some name, some path] =
        catMainLoop showF64 dbg showIo enc fuel r 0 := by
      rw [catMain_path, hopen]
      rfl
    rw [e]
    clear e hrecs' hopen
    rcases formatted_or showF64 dbg recs with ⟨texts, h⟩ | ⟨before, x, after, texts, p, rfl, h, hx⟩
    · refine ⟨texts, .inl ⟨h, ?_⟩⟩
      obtain ⟨r1, j1, j2⟩ := catMainLoop_calls showF64 dbg showIo enc recs texts h [none] r r' 1 b1
      obtain ⟨r2, j3, _⟩ := callsR_uncons j1
      have := j2 0 (fuel - recs.length)
      rw [Nat.add_sub_cancel' (by omega)] at this
      obtain ⟨j, hj⟩ : ∃ j, fuel - recs.length = j + 1 := ⟨fuel - recs.length - 1, by omega⟩
      rw [this, hj, catMainLoop, j3, Nat.zero_add, hlen]
      simp [ProgramRun.after, ProgramRun.orPanic]
    · refine ⟨texts, .inr ⟨before, x, after, p, rfl, h, hx, ?_⟩⟩
      simp only [List.length_append, List.length_cons] at hlen b1
      rw [List.map_append, List.append_assoc, Nat.add_assoc] at b1
      obtain ⟨r1, j1, j2⟩ := catMainLoop_calls showF64 dbg showIo enc before texts h _ r r' _ b1
      obtain ⟨r2, j3, _⟩ := callsR_uncons j1
      have := j2 0 (fuel - before.length)
      rw [Nat.add_sub_cancel' (by omega)] at this
      obtain ⟨j, hj⟩ : ∃ j, fuel - before.length = j + 1 := ⟨fuel - before.length - 1, by omega⟩
      rw [this, hj, catMainLoop, j3]
      simp [ProgramRun.after, ProgramRun.orPanic, hx]

/-- Non-vacuity: the programs run on two squares side by side, and on no file. -/
example :
    geoMain .debug (fun _ => "not found".toList) (fun t => [t]) 3 neighbourFiles Encoding.ascii
        [some "geo".toList, some "a.shp".toList] =
      ⟨(fileReport 2 ⟨2, 2, 0, 7, 1, 6, 14⟩ ⟨2, 2, 0, 3, 1, 2, 10⟩ ⟨0, 0, 0, 0, 0, 0, 0⟩).map String.toList, [], .code 0⟩ ∧
    geoMain .debug (fun _ => "not found".toList) (fun t => [t]) 3 neighbourFiles Encoding.ascii
        [some "geo".toList, some "b.shp".toList] = ⟨[], ["not found".toList], .code 1⟩ ∧
    geoMain .debug (fun _ => "not found".toList) (fun t => [t]) 3 neighbourFiles Encoding.ascii [some "geo".toList] =
      ⟨[], ["Usage: geo <SHP_PATH>".toList], .code 1⟩ := by
  decide +kernel

end TopoGeo
