import Verif.Props.Dbf
import Verif.Props.Shp
import Verif.Spec.Shapefile
/-!
# Property C57: the joint reader of .shp and .dbf files
-/

namespace TopoGeo

open Spec

theorem joinResults_iff (a : Option (Except ShpError ShpPolygonRecord)) (b : Option (Except DbfError DbfRecord))
    (o : Option (Except ShapefileError ShapefileRecord)) : joinResults a b = o ↔ Joined a b o := by
  constructor
  · rintro rfl
    rcases a with _ | e | shape <;> rcases b with _ | e' | data
    · exact .finished
    · exact .moreData _
    · exact .moreData _
    · exact .moreShapes _
    · exact .shapeError _ _
    · exact .shapeError _ _
    · exact .moreShapes _
    · exact .dataError _ _
    · exact .record _ _ _
  · intro h
    cases h <;> rfl

/-- The joint reader's calls are those of the two readers, side by side. -/
theorem shapefileCalls {σ τ : Type} [Source σ] [Source τ] (n : Nat) (r : ShapefileReader σ τ) :
    callsR ShapefileReader.next n r = (callsR ShpReader.next n r.shpReader).map fun x =>
      (List.zipWith joinResults x.1 (calls DbfReader.next n r.dbfReader).1,
        ⟨x.2, (calls DbfReader.next n r.dbfReader).2⟩) := by
  induction n generalizing r with
  | zero => rfl
  | succ n ih =>
    simp only [callsR]
    have hnext : r.next = r.shpReader.next.bind fun x => .ok (joinResults x.1 (DbfReader.next r.dbfReader).1,
        ⟨x.2, (DbfReader.next r.dbfReader).2⟩) := rfl
    rw [hnext]
    rcases r.shpReader.next with e | ⟨o, s1⟩
    · rfl
    · simp only [Except.bind]
      rw [ok_bind, ok_bind]
      simp only
      rw [ih]
      rcases callsR ShpReader.next n s1 with e | ⟨os, s2⟩
      · rfl
      · simp only [Except.map]
        rw [ok_bind, ok_bind]
        rfl

/-! ## C57 -/

/-- After any number of calls without panics, each reader was called as often,
and the `i`-th item is the join of the `i`-th items. -/
theorem C57_lockstep {σ τ : Type} [Source σ] [Source τ] (n : Nat) (r r' : ShapefileReader σ τ)
    (os : List (Option (Except ShapefileError ShapefileRecord))) (h : callsR ShapefileReader.next n r = .ok (os, r')) :
    ∃ as bs, callsR ShpReader.next n r.shpReader = .ok (as, r'.shpReader) ∧
      calls DbfReader.next n r.dbfReader = (bs, r'.dbfReader) ∧ as.length = n ∧ bs.length = n ∧ os.length = n ∧
      ∀ (i : Nat) (hi : i < n) (ha : i < as.length) (hb : i < bs.length) (ho : i < os.length), Joined as[i] bs[i] os[i] := by
  rw [shapefileCalls] at h
  rcases hx : callsR ShpReader.next n r.shpReader with e | ⟨as, s⟩
  · rw [hx] at h; cases h
  · rw [hx] at h
    simp only [Except.map] at h
    obtain ⟨rfl, rfl⟩ := Prod.mk.inj (Except.ok.inj h)
    have hl : ∀ (n : Nat) (r : ShpReader σ) (as : List (Option (Except ShpError ShpPolygonRecord))) (s : ShpReader σ),
        callsR ShpReader.next n r = .ok (as, s) → as.length = n := by
      intro n
      induction n with
      | zero =>
        intro r as s h
        simp only [callsR] at h
        obtain ⟨rfl, _⟩ := Prod.mk.inj (Except.ok.inj h)
        rfl
      | succ n ih =>
        intro r as s h
        obtain ⟨o, r1, os', h1, h2, rfl⟩ := callsR_succ h
        rw [List.length_cons, ih r1 os' s h2]
    have hla := hl n _ _ _ hx
    have hlb := calls_length DbfReader.next n r.dbfReader
    refine ⟨as, (calls DbfReader.next n r.dbfReader).1, rfl, rfl, hla, hlb, ?_, ?_⟩
    · rw [List.length_zipWith, hla, hlb, Nat.min_self]
    · intro i hi ha hb ho
      rw [← joinResults_iff, List.getElem_zipWith]

/-- It panics iff the .shp reader does. -/
theorem C57_panic {σ τ : Type} [Source σ] [Source τ] (n : Nat) (r : ShapefileReader σ τ) (e : Panic) :
    callsR ShapefileReader.next n r = .error e ↔ callsR ShpReader.next n r.shpReader = .error e := by
  rw [shapefileCalls]
  rcases callsR ShpReader.next n r.shpReader with e' | x
  · simp [Except.map]
  · simp [Except.map]

/-- `None` is returned iff both files are exhausted, and only join errors are
returned when one of them is. -/
theorem C57_none (a : Option (Except ShpError ShpPolygonRecord)) (b : Option (Except DbfError DbfRecord))
    (o : Option (Except ShapefileError ShapefileRecord)) (h : Joined a b o) :
    (o = none ↔ a = none ∧ b = none) ∧
    (o = some (.error .shpHasMore) ↔ a ≠ none ∧ b = none) ∧
    (o = some (.error .dbfHasMore) ↔ a = none ∧ b ≠ none) ∧
    ∀ record, o = some (.ok record) → ∃ shape, a = some (.ok shape) ∧ b = some (.ok record.data) ∧ shape.rings = record.rings := by
  cases h <;> simp

/-- Opening: both files are opened; an error of the .shp file comes first. -/
theorem C57_new {σ τ : Type} [Source σ] [Source τ] (m : Build) (f : σ) (g : τ) (enc : Encoding) :
    (∀ r, ShapefileReader.new m f g enc = .ok (.ok r) ↔
      ShpReader.new m f = .ok (.ok r.shpReader) ∧ DbfReader.new m g enc = .ok (.ok r.dbfReader)) ∧
    (∀ e, ShapefileReader.new m f g enc = .ok (.error e) ↔
      (∃ e' y, ShpReader.new m f = .ok (.error e') ∧ DbfReader.new m g enc = .ok y ∧ e = .shp e') ∨
      (∃ x e', ShpReader.new m f = .ok (.ok x) ∧ DbfReader.new m g enc = .ok (.error e') ∧ e = .dbf e')) ∧
    ((∃ p, ShapefileReader.new m f g enc = .error p) ↔
      (∃ p, ShpReader.new m f = .error p) ∨ ∃ p, DbfReader.new m g enc = .error p) := by
  unfold ShapefileReader.new
  rcases ShpReader.new m f with p | e | x
  · simp [bind, Except.bind]
  · rw [ok_bind]
    rcases DbfReader.new m g enc with p | y
    · simp [bind, Except.bind]
    · rw [ok_bind]
      simp [eq_comm]
  · rw [ok_bind]
    rcases DbfReader.new m g enc with p | e | y
    · simp [bind, Except.bind]
    · rw [ok_bind]
      simp [eq_comm]
    · rw [ok_bind]
      simp only
      refine ⟨?_, by simp, by simp⟩
      intro r
      constructor
      · intro h
        obtain rfl := Except.ok.inj (Except.ok.inj h)
        exact ⟨rfl, rfl⟩
      · rintro ⟨h1, h2⟩
        cases h1
        cases h2
        rfl

/-- Writing shapes and as many table rows, and reading them back. -/
theorem C57_round_trip (m : Build) (enc : Encoding) (box : ShpBoundingBox) (records : List OutRecord)
    (hg : ∀ r ∈ records, r.Good) (hs : fileLength records < 2 ^ 32) (t : Table) (ht : Fits enc t)
    (hn : t.records.length = records.length) (tail tail' : Bytes) :
    ∃ r, ShapefileReader.new m (⟨writeShp box records ++ tail⟩ : MemFile) (⟨writeDbf t ++ tail'⟩ : MemFile) enc =
        .ok (.ok r) ∧ r.boundingBox = box ∧ List.Forall₂ (IsField enc) t.columns r.dbfFields ∧
      ∀ n, ∃ r' os, callsR ShapefileReader.next (records.length + n) r = .ok (os ++ List.replicate n none, r') ∧
        os.length = records.length ∧
        ∀ (i : Nat) (h1 : i < records.length) (h2 : i < t.records.length) (h3 : i < os.length), ∃ data,
          os[i] = some (.ok ⟨records[i].rings, data⟩) ∧ data.bytes = t.records[i] := by
  obtain ⟨s, a1, a2, a3⟩ := C52_round_trip m box records hg hs tail
  obtain ⟨d, b1, _, _, b2, _, b3⟩ := C48_round_trip m enc t ht tail'
  refine ⟨⟨s, d⟩, ((C57_new m _ _ enc).1 ⟨s, d⟩).mpr ⟨a1, b1⟩, ?_, b2, fun n => ?_⟩
  · show s.header.boundingBox = box
    rw [a2]
  · obtain ⟨s', a3⟩ := a3 n
    have b3 := b3 n
    rw [hn] at b3
    refine ⟨⟨s', (calls DbfReader.next (records.length + n) d).2⟩,
      List.zipWith joinResults (records.map fun r => some (.ok ⟨r.number, r.rings⟩))
        (t.records.map fun b => some (.ok ⟨d.dbfMeta, b⟩)), ?_, ?_, ?_⟩
    · rw [shapefileCalls]
      simp only
      rw [a3]
      simp only [Except.map]
      rw [b3, List.zipWith_append (by simp [hn]), List.zipWith_replicate, Nat.min_self]
      rfl
    · simp [hn]
    · intro i h1 h2 h3
      refine ⟨⟨d.dbfMeta, t.records[i]⟩, ?_, rfl⟩
      rw [List.getElem_zipWith, List.getElem_map, List.getElem_map]
      rfl

/-- Non-vacuity: the example files have two records each. -/
example : (∀ r ∈ shpRecords, r.Good) ∧ fileLength shpRecords < 2 ^ 32 ∧ Fits Encoding.ascii dbfTable ∧
    dbfTable.records.length = shpRecords.length :=
  ⟨shpRecords_good, by decide +kernel, dbfTable_fits, rfl⟩

/-- Non-vacuity: with one row less, the second item is a join error, and so is
every item after an unreadable shape. -/
example : (match ShapefileReader.new .release (⟨writeShp ⟨0, 0, 1, 1⟩ shpRecords⟩ : MemFile)
      (⟨writeDbf { dbfTable with records := [] }⟩ : MemFile) Encoding.ascii with
    | .ok (.ok r) => match callsR ShapefileReader.next 3 r with
      | .ok (os, _) => os.map fun o => match o with | some (.error e) => some e | _ => none
      | .error _ => []
    | _ => []) = [some .shpHasMore, some .shpHasMore, none] := by
  decide +kernel

end TopoGeo
