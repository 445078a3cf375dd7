import Verif.Model.ReadTime
import Verif.Proofs.OperationsTime
/-!
# Counting rounds does not change what is read
-/

namespace TopoGeo

open Timed

variable {σ τ : Type} [Source σ] [Source τ]

theorem readExactT_result (file : σ) (n : Nat) : (readExactT file n).result = .ok (Source.readExact file n) := rfl

theorem readExactT_rounds (file : σ) (n : Nat) : (readExactT file n).rounds = 2 * n + 1 := rfl

theorem readShpHeaderT_result (m : Build) (file : σ) : (readShpHeaderT m file).result = readShpHeader m file := by
  simp only [readShpHeaderT, readShpHeader, result_bind, readExactT_result, ok_bind']
  rcases Source.readExact file 100 with ⟨_ | _, _⟩
  · rfl
  · simp only [result_bind, result_lift, result_pure]

theorem shpNewT_result (m : Build) (file : σ) : (ShpReader.newT m file).result = ShpReader.new m file := by
  simp only [ShpReader.newT, ShpReader.new, result_bind, readShpHeaderT_result]
  congr 1
  funext ⟨r, f⟩
  cases r <;> rfl

theorem cutRingsT_result (k : Nat) (points : List ShpPoint) (rings : List ShpPolygonRing) (ws : List (Nat × Nat)) :
    (cutRingsT k points rings ws).result = cutRings k points rings ws := by
  induction ws generalizing rings with
  | nil => rfl
  | cons w rest ih =>
    obtain ⟨a, b⟩ := w
    simp only [cutRingsT, cutRings, result_bind, result_tick, ok_bind', result_ite, result_pure, result_ticks,
      result_lift, ih]

theorem parsePolygonRecordT_result (buf : Bytes) (k : Nat) : (parsePolygonRecordT buf k).result = parsePolygonRecord buf k := by
  simp only [parsePolygonRecordT, parsePolygonRecord, result_bind, result_lift, result_ite, result_pure]
  congr 1
  funext shapeType
  split
  · rfl
  congr 1
  funext numParts
  split
  · rfl
  congr 1
  funext numPoints
  split
  · rfl
  simp only [parseRingsT, result_bind, result_lift, result_ticks, ok_bind', cutRingsT_result]
  congr 1
  funext pointBytes
  congr 1
  funext points
  congr 1
  funext partBytes
  congr 1
  funext parts
  congr 1
  funext r
  cases r with
  | error e => rfl
  | ok rings =>
    unfold lastRingT
    dsimp only
    cases parts.getLast? with
    | none => rfl
    | some lastPart => simp only [result_ite, result_pure, result_bind, result_ticks, ok_bind', result_lift]

theorem readPolygonRecordT_result (file : σ) : (readPolygonRecordT file).result = readPolygonRecord file := by
  simp only [readPolygonRecordT, readPolygonRecord, result_bind, readExactT_result, ok_bind']
  rcases Source.readExact file 8 with ⟨_ | headerBuf, file1⟩
  · rfl
  simp only [result_bind, result_lift, readExactT_result, ok_bind']
  congr 1
  funext recordNumber
  congr 1
  funext contentLength
  rcases Source.readExact file1 (contentLength * 2) with ⟨_ | buf, file2⟩
  · rfl
  simp only [result_bind, parsePolygonRecordT_result]
  congr 1
  funext r
  cases r <;> rfl

theorem shpNextT_result (r : ShpReader σ) : r.nextT.result = r.next := by
  simp only [ShpReader.nextT, ShpReader.next, result_ite, result_pure, result_bind, readPolygonRecordT_result]
  split
  · rfl
  congr 1
  funext ⟨res, file'⟩
  rcases res with _ | ⟨record, nBytes⟩
  · rfl
  · simp only [result_ite, result_pure]

theorem parseDbfFieldsT_result (enc : Encoding) (offset : Nat) (v : List DbfField) (cs : List Bytes) :
    (parseDbfFieldsT enc offset v cs).result = parseDbfFields enc offset v cs := by
  induction cs generalizing offset v with
  | nil => rfl
  | cons c rest ih =>
    simp only [parseDbfFieldsT, parseDbfFields, result_bind, result_tick, ok_bind', result_ite, result_pure, result_ticks,
      result_lift]
    split
    · rfl
    congr 1
    funext r
    cases r with
    | error e => rfl
    | ok next => exact ih _ _

theorem readDbfFieldsT_result (m : Build) (file : σ) (enc : Encoding) (h : DbfHeader) :
    (readDbfFieldsT m file enc h).result = readDbfFields m file enc h := by
  simp only [readDbfFieldsT, readDbfFields, result_ite, result_lift, result_bind, readExactT_result, ok_bind']
  split
  · rfl
  rcases Source.readExact file (h.nHeaderBytes - 32) with ⟨_ | buf, file'⟩
  · rfl
  · simp only [result_bind, parseDbfFieldsT_result, result_pure]

theorem dbfNewT_result (m : Build) (file : σ) (enc : Encoding) :
    (DbfReader.newT m file enc).result = DbfReader.new m file enc := by
  simp only [DbfReader.newT, DbfReader.new, result_bind, readDbfMetaT, readDbfMeta, readDbfHeaderT, result_ticks, ok_bind',
    result_lift]
  rcases readDbfHeader file with _ | ⟨_ | h, file1⟩
  · rfl
  · rfl
  simp only [ok_bind', result_bind, readDbfFieldsT_result]
  rcases readDbfFields m file1 enc h with _ | ⟨_ | fields, file2⟩ <;> rfl

theorem dbfNextT_result (r : DbfReader σ) : r.nextT.result = .ok r.next := by
  simp only [DbfReader.nextT, DbfReader.next, result_ite, result_pure, result_bind, result_ticks, ok_bind']
  split <;> rfl

theorem shapefileOpenT_result (m : Build) (fs : FileSystem σ) (path : Path) (enc : Encoding) :
    (shapefileOpenT m fs path enc).result = shapefileOpen m fs path enc := by
  unfold shapefileOpenT shapefileOpen shpOpen dbfOpen
  cases fs path with
  | error e => rfl
  | ok f =>
    simp only [result_bind, shpNewT_result]
    congr 1
    funext r
    cases r with
    | error e => rfl
    | ok shpReader =>
      dsimp only
      cases fs (setExtension path "dbf".toList) with
      | error e => rfl
      | ok g =>
        simp only [result_bind, dbfNewT_result]
        congr 1
        funext r
        cases r <;> rfl

theorem shapefileNextT_result (r : ShapefileReader σ τ) : r.nextT.result = r.next := by
  simp only [ShapefileReader.nextT, ShapefileReader.next, result_bind, shpNextT_result, dbfNextT_result, ok_bind', result_pure]

theorem partitionRingsT_result (m : Build) (q : ShapefileQuantizer) (outer inner : List Ring) (rs : List ShpPolygonRing) :
    (partitionRingsT m q outer inner rs).result = partitionRings m q outer inner rs := by
  induction rs generalizing outer inner with
  | nil => rfl
  | cons r rest ih =>
    simp only [partitionRingsT, partitionRings, result_bind, result_tick, result_ticks, ok_bind', result_lift, result_ite, ih]

theorem geoNextT_result (m : Build) (it : ShapefileGeoIterator σ τ) : (it.nextT m).result = it.next m := by
  simp only [ShapefileGeoIterator.nextT, ShapefileGeoIterator.next, result_bind, shapefileNextT_result]
  congr 1
  funext ⟨o, r'⟩
  rcases o with _ | _ | record
  · rfl
  · rfl
  · simp only [result_bind, partitionRingsT_result, result_pure]

theorem readRegionsT_result (m : Build) (fuel : Nat) (it : ShapefileGeoIterator σ τ) (b : TopologyBuilder DbfRecord) (n : Nat) :
    (readRegionsT m fuel it b n).result = readRegions m fuel it b n := by
  induction fuel generalizing it b n with
  | zero => rfl
  | succ fuel ih =>
    simp only [readRegionsT, readRegions, result_bind, result_tick, ok_bind', geoNextT_result]
    congr 1
    funext ⟨o, it'⟩
    rcases o with _ | _ | region
    · rfl
    · rfl
    · simp only [result_bind, addRegionT_result, ih]

theorem shpToGeoDataT_result (m : Build) (fuel : Nat) (fs : FileSystem σ) (path : Path) (enc : Encoding) :
    (shpToGeoDataT m fuel fs path enc).result = shpToGeoData m fuel fs path enc := by
  simp only [shpToGeoDataT, shpToGeoData, result_bind, shapefileOpenT_result]
  congr 1
  funext r
  cases r with
  | error e => rfl
  | ok reader =>
    simp only [result_bind, readRegionsT_result]
    congr 1
    funext r
    rcases r with _ | ⟨b, n⟩
    · rfl
    simp only [result_bind, treatTopologyT, describeT, result_ticks, ok_bind', result_pure, intoTopologyT_result,
      normalizeT_result, clipTopologyT_result, bind_assoc]

end TopoGeo
