import Verif.Model.Open
import Verif.Props.Shapefile
/-!
# Property C66: opening a shapefile by name
-/

namespace TopoGeo
open Spec

theorem findIdx?_reverse_dot (stem ext : Text) (h : '.' ∉ ext) :
    (stem ++ '.' :: ext).reverse.findIdx? (· == '.') = some ext.length := by
  rw [List.reverse_append, List.reverse_cons, List.append_assoc, List.findIdx?_append]
  have : ext.reverse.findIdx? (· == '.') = none := by
    rw [List.findIdx?_eq_none_iff]
    intro c hc
    simp only [beq_eq_false_iff_ne, ne_eq]
    rintro rfl
    exact h (by simpa using hc)
  rw [this]
  simp [List.findIdx?_cons]

/-- The attributes are next to the shapes: the extension is replaced by `dbf`. -/
theorem C66_path (dir : Path) (stem ext : Text) (hs : stem ≠ []) (he : ext ≠ []) (hd : '.' ∉ ext) :
    setExtension (dir ++ [stem ++ '.' :: ext]) "dbf".toList = dir ++ [stem ++ ".dbf".toList] := by
  unfold setExtension
  rw [List.getLast?_concat]
  simp only
  rw [if_neg, List.dropLast_concat, fileStem, findIdx?_reverse_dot stem ext hd]
  · simp only
    rw [if_neg]
    · congr 3
      rw [List.take_left' (by simp)]
    · cases stem with
      | nil => exact absurd rfl hs
      | cons => simp; omega
  · intro h
    cases stem with
    | nil => exact hs rfl
    | cons a stem =>
      have h : a :: (stem ++ '.' :: ext) = '.' :: ['.'] := h
      have h := (List.cons.inj h).2
      have h' := congrArg List.length h
      cases ext with
      | nil => exact he rfl
      | cons => simp at h'; omega

/-- Without an extension, `.dbf` is appended. -/
theorem C66_path_bare (dir : Path) (name : Text) (hd : '.' ∉ name) :
    setExtension (dir ++ [name]) "dbf".toList = dir ++ [name ++ ".dbf".toList] := by
  unfold setExtension
  rw [List.getLast?_concat]
  simp only
  rw [if_neg, List.dropLast_concat, fileStem]
  · have : name.reverse.findIdx? (· == '.') = none := by
      rw [List.findIdx?_eq_none_iff]
      intro c hc
      simp only [beq_eq_false_iff_ne, ne_eq]
      rintro rfl
      exact hd (by simpa using hc)
    rw [this]
    rfl
  · rintro rfl
    exact hd (by decide)

/-- If both files exist and the shapes can be opened, opening by name is opening
the two files. -/
theorem C66_files {σ : Type} [Source σ] (m : Build) (fs : FileSystem σ) (path : Path) (enc : Encoding) (shp dbf : σ)
    (r : ShpReader σ) (h1 : fs path = .ok shp) (h2 : fs (setExtension path "dbf".toList) = .ok dbf)
    (h3 : ShpReader.new m shp = .ok (.ok r)) :
    shapefileOpen m fs path enc = ShapefileReader.new m shp dbf enc := by
  unfold shapefileOpen shpOpen dbfOpen ShapefileReader.new
  rw [h1, h2]
  simp only
  rw [h3, ok_bind, ok_bind]
  simp only
  cases DbfReader.new m dbf enc with
  | error e => rfl
  | ok x => cases x <;> rfl

/-- If a reader is obtained, both files exist, and it is the reader of these
files. -/
theorem C66_reader {σ : Type} [Source σ] (m : Build) (fs : FileSystem σ) (path : Path) (enc : Encoding)
    (reader : ShapefileReader σ σ) (h : shapefileOpen m fs path enc = .ok (.ok reader)) :
    ∃ shp dbf, fs path = .ok shp ∧ fs (setExtension path "dbf".toList) = .ok dbf ∧
      ShapefileReader.new m shp dbf enc = .ok (.ok reader) := by
  cases h1 : fs path with
  | error e => unfold shapefileOpen shpOpen at h; rw [h1] at h; cases h
  | ok shp =>
    cases h3 : ShpReader.new m shp with
    | error e => unfold shapefileOpen shpOpen at h; rw [h1] at h; simp only at h; rw [h3] at h; cases h
    | ok x =>
      cases x with
      | error e => unfold shapefileOpen shpOpen at h; rw [h1] at h; simp only at h; rw [h3] at h; cases h
      | ok r =>
        cases h2 : fs (setExtension path "dbf".toList) with
        | error e =>
          unfold shapefileOpen shpOpen dbfOpen at h
          rw [h1, h2] at h; simp only at h; rw [h3] at h; cases h
        | ok dbf => exact ⟨shp, dbf, rfl, rfl, by rw [← C66_files m fs path enc shp dbf r h1 h2 h3]; exact h⟩

/-- Shapes first: if they cannot be opened, that is the error, whatever the
attributes are. -/
theorem C66_shapes_first {σ : Type} [Source σ] (m : Build) (fs : FileSystem σ) (path : Path) (enc : Encoding) :
    (∀ e, fs path = .error e → shapefileOpen m fs path enc = .ok (.error (.shp (.io e)))) ∧
    (∀ shp e, fs path = .ok shp → ShpReader.new m shp = .ok (.error e) →
      shapefileOpen m fs path enc = .ok (.error (.shp e))) ∧
    (∀ shp e, fs path = .ok shp → ShpReader.new m shp = .error e → shapefileOpen m fs path enc = .error e) := by
  refine ⟨fun e h => ?_, fun shp e h h' => ?_, fun shp e h h' => ?_⟩ <;> unfold shapefileOpen shpOpen <;> rw [h]
  · rfl
  · simp only; rw [h']; rfl
  · simp only; rw [h']; rfl

/-- Then the attributes. -/
theorem C66_attributes_missing {σ : Type} [Source σ] (m : Build) (fs : FileSystem σ) (path : Path) (enc : Encoding) (shp : σ)
    (r : ShpReader σ) (e : IoError) (h1 : fs path = .ok shp) (h2 : fs (setExtension path "dbf".toList) = .error e)
    (h3 : ShpReader.new m shp = .ok (.ok r)) :
    shapefileOpen m fs path enc = .ok (.error (.dbf (.io e))) := by
  unfold shapefileOpen shpOpen dbfOpen
  rw [h1, h2]
  simp only
  rw [h3]
  rfl

/-- `open_ascii` opens the files with a decoder that takes exactly the bytes below
128, each as the character with that code. -/
theorem C66_ascii {σ : Type} [Source σ] (m : Build) (fs : FileSystem σ) (path : Path) :
    ∃ enc : Encoding, shapefileOpenAscii m fs path = shapefileOpen m fs path enc ∧
      (∀ bs, Encoding.accepts enc bs ↔ ∀ b ∈ bs, b.toNat < 128) ∧
      (∀ bs text, enc.decode bs = .ok text → text.map Char.toNat = bs.map UInt8.toNat) := by
  have key : ∀ bs : Bytes, bs.all (fun b => b < 128) = true ↔ ∀ b ∈ bs, b.toNat < 128 := by
    intro bs
    rw [List.all_eq_true]
    constructor
    · intro h b hb
      exact UInt8.lt_iff_toNat_lt.mp (of_decide_eq_true (h b hb))
    · intro h b hb
      exact decide_eq_true (UInt8.lt_iff_toNat_lt.mpr (h b hb))
  refine ⟨Encoding.ascii, rfl, ?_, ?_⟩
  · intro bs
    rw [← key]
    unfold Encoding.accepts Encoding.ascii
    dsimp only
    by_cases h : bs.all (fun b => b < 128) = true
    · simp only [if_pos h, h, iff_true]
      exact ⟨_, rfl⟩
    · rw [if_neg h]
      constructor
      · rintro ⟨t, ht⟩; cases ht
      · intro h'; exact absurd h' h
  · intro bs text h
    unfold Encoding.ascii at h
    dsimp only at h
    by_cases ha : bs.all (fun b => b < 128) = true
    · rw [if_pos ha] at h
      obtain rfl := Except.ok.inj h
      rw [List.map_map]
      apply List.map_congr_left
      intro b hb
      have := (key bs).mp ha b hb
      show (Char.ofNat b.toNat).toNat = b.toNat
      rw [Char.ofNat, dif_pos (Or.inl (by omega))]
      rfl
    · rw [if_neg ha] at h; cases h

/-- `dbf::open_ascii` looks a decoder up by name: it panics iff there is none,
and otherwise opens the file with that decoder. -/
theorem C66_dbf_ascii {σ : Type} [Source σ] (m : Build) (labels : Text → Option Encoding) (fs : FileSystem σ) (path : Path) :
    (∀ enc, labels "ascii".toList = some enc → dbfOpenAscii m labels fs path = dbfOpen m fs path enc) ∧
    (labels "ascii".toList = none → dbfOpenAscii m labels fs path = .error .explicit) := by
  unfold dbfOpenAscii
  refine ⟨fun enc h => ?_, fun h => ?_⟩ <;> rw [h]

/-- C61: the same for a shapefile: its fields are those of the attributes. -/
theorem C61_shapefile {σ τ : Type} (r : ShapefileReader σ τ) (name : Text) :
    (∀ f, r.getField name = some f ↔ ∃ before after, r.dbfReader.dbfMeta.fields = before ++ f :: after ∧ f.name = name ∧
      ∀ g ∈ before, g.name ≠ name) ∧
    (r.getField name = none ↔ ∀ f ∈ r.dbfReader.dbfMeta.fields, f.name ≠ name) :=
  C61_get_field r.dbfReader name

/-- Non-vacuity: a directory with the example files, one without attributes, and
paths with several dots. -/
example :
    let fs : FileSystem MemFile := fun p =>
      if p = ["data".toList, "a.b.shp".toList] then .ok ⟨writeShp ⟨0, 0, 1, 1⟩ shpRecords⟩
      else if p = ["data".toList, "a.b.dbf".toList] then .ok ⟨writeDbf dbfTable⟩
      else if p = ["data".toList, "lone".toList] then .ok ⟨writeShp ⟨0, 0, 1, 1⟩ shpRecords⟩
      else .error (.other 2)
    let kind := fun (x : R (Except ShapefileError (ShapefileReader MemFile MemFile))) => match x with
      | .ok (.ok _) => 0 | .ok (.error (.shp _)) => 1 | .ok (.error (.dbf _)) => 2 | _ => 3
    kind (shapefileOpenAscii .debug fs ["data".toList, "a.b.shp".toList]) = 0 ∧
    kind (shapefileOpenAscii .debug fs ["data".toList, "a.b.dbf".toList]) = 1 ∧
    kind (shapefileOpenAscii .debug fs ["data".toList, "lone".toList]) = 2 ∧
    kind (shapefileOpenAscii .debug fs ["a.b.shp".toList]) = 1 := by decide +kernel

end TopoGeo
