import Verif.Proofs.ReadRounds
import Verif.Proofs.ReadGeo
import Verif.Props.Rounds
/-!
# Rounds of the example program
-/

namespace TopoGeo

open Timed Spec

variable {σ τ : Type} [Source σ] [Source τ]

theorem shpNewT_spent (m : Build) (file : σ) : (ShpReader.newT m file).rounds ≤ 3 * 100 ∧
    ∀ size : σ → Nat, HoldsAtMost size → (∀ e, ShpReader.new m file ≠ .ok (.error (.io e))) →
      100 ≤ size file ∧ ∀ r, ShpReader.new m file = .ok (.ok r) → size r.file + 100 ≤ size file := by
  constructor
  · refine Nat.le_trans (rounds_bind (k := 201) (l := 0) ?_ fun a _ => ?_) (by omega)
    · unfold readShpHeaderT
      rw [rounds_readExact_bind]
      rcases Source.readExact file 100 with ⟨e | buf, f⟩
      · simp
      · exact Nat.add_le_add_left (rounds_lift_bind (l := 0) fun _ _ => by simp) _
    · rcases a with ⟨_ | _, _⟩ <;> simp
  · intro size hs hio
    unfold ShpReader.new readShpHeader at *
    rcases h1 : Source.readExact file 100 with ⟨e | buf, f⟩
    · simp only [h1] at hio
      exact absurd rfl (hio e)
    · have := hs _ _ _ _ h1
      refine ⟨by omega, fun r h => ?_⟩
      simp only at h
      rcases h2 : parseShpHeader m buf with e | r1
      · rw [h2] at h; cases h
      · rw [h2] at h
        rcases r1 with e | header
        · cases h
        · cases h
          exact this

theorem partitionRingsT_rounds (m : Build) (q : ShapefileQuantizer) (outer inner : List Ring) (rs : List ShpPolygonRing) :
    (partitionRingsT m q outer inner rs).rounds ≤ rs.length + 2 * rs.flatten.length := by
  induction rs generalizing outer inner with
  | nil => simp [partitionRingsT]
  | cons r rest ih =>
    rw [List.length_cons, List.flatten_cons, List.length_append]
    refine Nat.le_trans (rounds_tick_bind (l := 2 * r.length + (rest.length + 2 * rest.flatten.length)) ?_) (by omega)
    refine rounds_ticks_bind (rounds_lift_bind fun o _ => ?_)
    split
    · exact ih _ _
    · exact ih _ _

theorem ringsVolume_append (a b : List Ring) : ringsVolume (a ++ b) = ringsVolume a + ringsVolume b := by
  simp [ringsVolume]

theorem partitionRings_volume {m : Build} {q : ShapefileQuantizer} {outer inner : List Ring} {rs : List ShpPolygonRing}
    {o i : List Ring} (h : partitionRings m q outer inner rs = .ok (o, i)) :
    ringsVolume o + ringsVolume i = ringsVolume outer + ringsVolume inner + (rs.length + rs.flatten.length) := by
  induction rs generalizing outer inner with
  | nil => cases h; simp
  | cons r rest ih =>
    have hv : ringVolume (shpPolygonRingToRing q r) = 1 + r.length := by simp [ringVolume, shpPolygonRingToRing]
    simp only [partitionRings, bind_ok] at h
    obtain ⟨w, _, h⟩ := h
    rw [List.length_cons, List.flatten_cons, List.length_append]
    split at h
    · have := ih h
      rw [ringsVolume_append, ringsVolume_cons, hv] at this
      simp only [ringsVolume, List.map_nil, List.sum_nil] at *
      omega
    · have := ih h
      rw [ringsVolume_append, ringsVolume_cons, hv] at this
      simp only [ringsVolume, List.map_nil, List.sum_nil] at *
      omega

/-- What is left to read, weighed by the rounds that it can take. -/
def ahead (size : σ → Nat) (size' : τ → Nat) (r : ShapefileReader σ τ) : Nat :=
  30 * size r.shpReader.file + 3 * size' r.dbfReader.file

/-- How many rounds it can take to find out that a record is not there. -/
def vain : Nat := 3 * longestRecord + 2 * 65535 + 2

theorem geoNextT_always (m : Build) (it : ShapefileGeoIterator σ τ) (hB : it.reader.dbfReader.dbfMeta.nBytesPerRecord ≤ 65535)
    (h : ∀ region it', it.next m ≠ .ok (some (.ok region), it')) (hp : ∀ e, it.next m ≠ .error e) :
    (it.nextT m).rounds + 1 ≤ vain := by
  obtain ⟨spent, a1, a2, _⟩ := shpNextT_spent it.reader.shpReader
  have a3 := dbfNextT_rounds it.reader.dbfReader
  have : (it.nextT m).rounds ≤ (3 * spent + ((2 * it.reader.dbfReader.dbfMeta.nBytesPerRecord + 1) + 0)) + 0 := by
    refine rounds_bind (rounds_bind a1 fun a _ => rounds_bind a3 fun b _ => by simp) fun a ha => ?_
    rw [shapefileNextT_result] at ha
    rcases a with ⟨_ | _ | record, r'⟩
    · simp
    · simp
    · exfalso
      have hn : it.next m = (partitionRings m it.quantizer [] [] record.rings).bind fun (o, i) =>
          .ok (some (.ok ⟨record.data, o, i⟩), { it with reader := r' }) := by
        unfold ShapefileGeoIterator.next
        rw [ha]
        rfl
      rcases hr : partitionRings m it.quantizer [] [] record.rings with e | ⟨o, i⟩
      · rw [hr] at hn; exact hp e hn
      · rw [hr] at hn; exact h _ _ hn
  unfold vain
  omega

theorem joinResults_ok {a : Option (Except ShpError ShpPolygonRecord)} {b : Option (Except DbfError DbfRecord)}
    {r : ShapefileRecord} (h : joinResults a b = some (.ok r)) :
    ∃ s d, a = some (.ok s) ∧ b = some (.ok d) ∧ r = ⟨s.rings, d⟩ := by
  rcases a with _ | _ | s <;> rcases b with _ | _ | d <;> simp [joinResults] at h
  exact ⟨s, d, rfl, rfl, h.symm⟩

theorem joinResults_none {a : Option (Except ShpError ShpPolygonRecord)} {b : Option (Except DbfError DbfRecord)}
    (h : joinResults a b = none) : a = none ∧ b = none := by
  rcases a with _ | _ | s <;> rcases b with _ | _ | d <;> simp [joinResults] at h ⊢

theorem shapefileNext_ok {r r' : ShapefileReader σ τ} {o : Option (Except ShapefileError ShapefileRecord)}
    (h : r.next = .ok (o, r')) : ∃ a, r.shpReader.next = .ok (a, r'.shpReader) ∧ r'.dbfReader = r.dbfReader.next.2 ∧
      o = joinResults a r.dbfReader.next.1 := by
  simp only [ShapefileReader.next, bind_ok] at h
  obtain ⟨⟨a, shp'⟩, h1, h2⟩ := h
  cases h2
  exact ⟨a, h1, rfl, rfl⟩

theorem shapefileNext_error {r : ShapefileReader σ τ} {e : Panic} (h : r.next = .error e) : r.shpReader.next = .error e := by
  unfold ShapefileReader.next at h
  rcases h1 : r.shpReader.next with e' | ⟨a, s⟩
  · rw [h1] at h
    cases h
    rfl
  · rw [h1] at h
    cases h

theorem shapefileNextT_rounds (r : ShapefileReader σ τ) {k : Nat} (hk : r.shpReader.nextT.rounds ≤ k) :
    r.nextT.rounds ≤ k + (2 * r.dbfReader.dbfMeta.nBytesPerRecord + 1) := by
  refine rounds_bind (l := (2 * r.dbfReader.dbfMeta.nBytesPerRecord + 1) + 0) hk fun a _ => ?_
  exact rounds_bind (dbfNextT_rounds r.dbfReader) fun b _ => by simp

/-- A record that is there. -/
theorem shapefileNextT_record {size : σ → Nat} {size' : τ → Nat} (hs : HoldsAtMost size) (hs' : HoldsAtMost size')
    {r r' : ShapefileReader σ τ} {record : ShapefileRecord} (h : r.next = .ok (some (.ok record), r')) :
    ∃ spent d, r.nextT.rounds ≤ 3 * spent + (2 * d + 1) ∧ recordSize record.rings ≤ spent ∧
      size r'.shpReader.file + spent ≤ size r.shpReader.file ∧ record.data.bytes.length = d ∧
      size' r'.dbfReader.file + d ≤ size' r.dbfReader.file ∧ r'.dbfReader.dbfMeta = r.dbfReader.dbfMeta := by
  obtain ⟨a, h1, h2, h3⟩ := shapefileNext_ok h
  obtain ⟨s, d, rfl, hd, rfl⟩ := joinResults_ok h3.symm
  obtain ⟨spent, a1, _, a3, a4⟩ := shpNextT_spent r.shpReader
  have hio : ∀ e s', r.shpReader.next ≠ .ok (some (.error (.io e)), s') := by
    intro e s' he
    rw [h1] at he
    cases he
  obtain ⟨b1, b2⟩ := dbfNext_spent (r := r.dbfReader) (o := some (.ok d)) (r' := r'.dbfReader)
    (by rw [← hd, h2])
  obtain ⟨b3, b4⟩ := b2 d rfl
  refine ⟨spent, _, shapefileNextT_rounds r a1, (a3 _ _ h1).2, (a4 size hs hio).2 _ _ h1, b3, b4 size' hs', b1⟩

theorem geoNextT_region {size : σ → Nat} {size' : τ → Nat} (hs : HoldsAtMost size) (hs' : HoldsAtMost size') (m : Build)
    {it it' : ShapefileGeoIterator σ τ} {region : Region DbfRecord} (h : it.next m = .ok (some (.ok region), it')) :
    (it.nextT m).rounds + 22 * regionVolume region + 1 + ahead size size' it'.reader ≤ ahead size size' it.reader ∧
    regionVolume region + size it'.reader.shpReader.file ≤ size it.reader.shpReader.file ∧
    region.data.bytes.length + size' it'.reader.dbfReader.file ≤ size' it.reader.dbfReader.file ∧
    it'.reader.dbfReader.dbfMeta = it.reader.dbfReader.dbfMeta := by
  simp only [ShapefileGeoIterator.next, bind_ok] at h
  obtain ⟨⟨o, r'⟩, h1, h2⟩ := h
  rcases o with _ | _ | record
  · cases h2
  · cases h2
  · simp only [bind_ok] at h2
    obtain ⟨⟨o, i⟩, h3, h4⟩ := h2
    cases h4
    obtain ⟨spent, d, b1, b2, b3, b4, b5, b6⟩ := shapefileNextT_record hs hs' h1
    have hv := partitionRings_volume h3
    have hp := partitionRingsT_rounds m it.quantizer [] [] record.rings
    have hr : (it.nextT m).rounds ≤ (3 * spent + (2 * d + 1)) + (record.rings.length + 2 * record.rings.flatten.length) := by
      refine rounds_bind b1 fun a ha => ?_
      rw [shapefileNextT_result, h1] at ha
      cases ha
      exact Nat.le_trans (rounds_bind (l := 0) hp fun _ _ => by simp) (by omega)
    rw [regionVolume_eq]
    unfold ahead
    unfold recordSize at b2
    simp only [ringsVolume, List.map_nil, List.sum_nil] at *
    refine ⟨by omega, by omega, by omega, b6⟩

/-- A panic: what was read was there. -/
theorem geoNextT_panic {size : σ → Nat} {size' : τ → Nat} (hs : HoldsAtMost size) (hs' : HoldsAtMost size') (m : Build)
    {it : ShapefileGeoIterator σ τ} {e : Panic} (h : it.next m = .error e) :
    (it.nextT m).rounds ≤ ahead size size' it.reader := by
  rcases h1 : it.reader.next with e' | ⟨o, r'⟩
  · have h2 := shapefileNext_error h1
    obtain ⟨spent, a1, _, _, a4⟩ := shpNextT_spent it.reader.shpReader
    have hio : ∀ e s', it.reader.shpReader.next ≠ .ok (some (.error (.io e)), s') := by
      intro e s' he
      rw [h2] at he
      cases he
    have a5 := (a4 size hs hio).1
    have hp : it.reader.nextT.rounds ≤ 3 * spent := by
      refine rounds_bind (l := 0) a1 fun a ha => ?_
      rw [shpNextT_result, h2] at ha
      cases ha
    have : (it.nextT m).rounds ≤ 3 * spent := by
      refine rounds_bind (l := 0) hp fun a ha => ?_
      rw [shapefileNextT_result, h1] at ha
      cases ha
    unfold ahead
    omega
  · simp only [ShapefileGeoIterator.next, h1, ok_bind] at h
    rcases o with _ | _ | record
    · cases h
    · cases h
    · obtain ⟨spent, d, b1, b2, b3, b4, b5, b6⟩ := shapefileNextT_record hs hs' h1
      have hp := partitionRingsT_rounds m it.quantizer [] [] record.rings
      have hr : (it.nextT m).rounds ≤ (3 * spent + (2 * d + 1)) + (record.rings.length + 2 * record.rings.flatten.length) := by
        refine rounds_bind b1 fun a ha => ?_
        rw [shapefileNextT_result, h1] at ha
        cases ha
        exact Nat.le_trans (rounds_bind (l := 0) hp fun _ _ => by simp) (by omega)
      unfold ahead
      unfold recordSize at b2
      omega

theorem geoNextT_none {m : Build} {it it' : ShapefileGeoIterator σ τ} (h : it.next m = .ok (none, it')) :
    (it.nextT m).rounds = 0 := by
  have hn : it.reader.next = .ok (none, it'.reader) := by
    simp only [ShapefileGeoIterator.next, bind_ok] at h
    obtain ⟨⟨o, r'⟩, h1, h2⟩ := h
    rcases o with _ | _ | record
    · cases h2; exact h1
    · cases h2
    · simp only [bind_ok] at h2
      obtain ⟨_, _, h4⟩ := h2
      cases h4
  obtain ⟨a, h1, h2, h3⟩ := shapefileNext_ok hn
  obtain ⟨rfl, hd⟩ := joinResults_none h3.symm
  have e1 : it.reader.shpReader.nextT.rounds = 0 := by
    rcases shpNext_cases h1 with ⟨h, _, _⟩ | ⟨_, _, ⟨_, h, _⟩ | ⟨_, _, _, _, _, ⟨_, h, _⟩ | ⟨_, _, _, ⟨_, h⟩ | ⟨_, h⟩⟩⟩⟩
    · exact shpNextT_end h
    · cases h
    · cases h
    · cases h
    · cases h
  have e2 : it.reader.dbfReader.nextT.rounds = 0 := by
    unfold DbfReader.next at hd
    unfold DbfReader.nextT
    split at hd
    · rename_i h; rw [if_pos h]; rfl
    · cases hd
  have : (it.nextT m).rounds ≤ 0 := by
    refine rounds_bind (k := 0) (l := 0) (rounds_bind (k := 0) (l := 0) (by omega) fun a _ =>
      rounds_bind (k := 0) (l := 0) (by omega) fun b _ => by simp) fun a ha => ?_
    rw [shapefileNextT_result, hn] at ha
    cases ha
    simp
  omega

theorem readRegionsT_rounds {size : σ → Nat} {size' : τ → Nat} (hs : HoldsAtMost size) (hs' : HoldsAtMost size') (m : Build)
    (fuel : Nat) (it : ShapefileGeoIterator σ τ) (b : TopologyBuilder DbfRecord) (n : Nat)
    (hB : it.reader.dbfReader.dbfMeta.nBytesPerRecord ≤ 65535) :
    (readRegionsT m fuel it b n).rounds ≤ ahead size size' it.reader + vain ∧
    ((∀ e, readRegions m fuel it b n ≠ .ok (.error e)) → (readRegionsT m fuel it b n).rounds ≤ ahead size size' it.reader + 1) ∧
    ∀ b' n', readRegions m fuel it b n = .ok (.ok (b', n')) → ∃ rs, b.addRegions m rs = .ok b' ∧
      regionsVolume rs ≤ size it.reader.shpReader.file ∧
      (rs.map fun r => r.data.bytes.length).sum ≤ size' it.reader.dbfReader.file := by
  have hvain : 2 ≤ vain := by unfold vain; omega
  induction fuel generalizing it b n with
  | zero => exact ⟨by simp [readRegionsT], fun _ => by simp [readRegionsT], fun _ _ h => by cases h⟩
  | succ fuel ih =>
    rcases hnx : it.next m with e | ⟨_ | _ | region, it'⟩
    · have a1 := geoNextT_panic hs hs' m hnx
      have : (readRegionsT m (fuel + 1) it b n).rounds ≤ ahead size size' it.reader + 1 := by
        refine rounds_tick_bind (rounds_bind (l := 0) a1 fun a ha => ?_)
        rw [geoNextT_result, hnx] at ha
        cases ha
      refine ⟨by omega, fun _ => this, fun b' n' h => ?_⟩
      simp only [readRegions, hnx] at h
      cases h
    · have a1 := geoNextT_none hnx
      have : (readRegionsT m (fuel + 1) it b n).rounds ≤ 0 + 1 := by
        refine rounds_tick_bind (rounds_bind (k := 0) (l := 0) (by omega) fun a ha => ?_)
        rw [geoNextT_result, hnx] at ha
        cases ha
        simp
      refine ⟨by omega, fun _ => by omega, fun b' n' h => ?_⟩
      simp only [readRegions, hnx, ok_bind] at h
      cases h
      exact ⟨[], rfl, by simp [regionsVolume], by simp⟩
    · rename_i err
      have a1 := geoNextT_always m it hB (fun r i h => by rw [hnx] at h; cases h) (fun e h => by rw [hnx] at h; cases h)
      have hr : readRegions m (fuel + 1) it b n = .ok (.error err) := by simp only [readRegions, hnx, ok_bind]
      have : (readRegionsT m (fuel + 1) it b n).rounds ≤ (it.nextT m).rounds + 0 + 1 := by
        refine rounds_tick_bind (rounds_bind (l := 0) (Nat.le_refl _) fun a ha => ?_)
        rw [geoNextT_result, hnx] at ha
        cases ha
        simp
      exact ⟨by omega, fun h => absurd hr (h _), fun b' n' h => by rw [hr] at h; cases h⟩
    · obtain ⟨a1, a2, a3, a4⟩ := geoNextT_region hs hs' m hnx
      have hadd := addRegionT_rounds m b region
      have hr : readRegions m (fuel + 1) it b n = (b.addRegion m region).bind fun b' => readRegions m fuel it' b' (n + 1) := by
        simp only [readRegions, hnx, ok_bind]
        rfl
      have key : ∀ k, (∀ b1, b.addRegion m region = .ok b1 → (readRegionsT m fuel it' b1 (n + 1)).rounds ≤ k) →
          (readRegionsT m (fuel + 1) it b n).rounds ≤ (it.nextT m).rounds + (22 * regionVolume region + k) + 1 := by
        intro k hk
        refine rounds_tick_bind (rounds_bind (Nat.le_refl _) fun a ha => ?_)
        rw [geoNextT_result, hnx] at ha
        cases ha
        refine rounds_bind hadd fun b1 hb1 => ?_
        rw [addRegionT_result] at hb1
        exact hk b1 hb1
      have ih' := fun b1 => ih it' b1 (n + 1) (by rw [a4]; exact hB)
      refine ⟨?_, fun h => ?_, fun b' n' h => ?_⟩
      · have := key _ fun b1 _ => (ih' b1).1
        omega
      · have := key _ fun b1 hb1 => (ih' b1).2.1 fun e he => h e (by rw [hr, hb1]; exact he)
        omega
      · rw [hr] at h
        rcases hb : b.addRegion m region with e | b1
        · rw [hb] at h; cases h
        · rw [hb] at h
          obtain ⟨rs, c1, c2, c3⟩ := (ih' b1).2.2 b' n' h
          refine ⟨region :: rs, by simp only [TopologyBuilder.addRegions, hb, ok_bind, c1], ?_, ?_⟩
          · simp only [regionsVolume, List.map_cons, List.sum_cons] at *
            omega
          · simp only [List.map_cons, List.sum_cons] at *
            omega

theorem attributeBytes_built {m : Build} {rs : List (Region DbfRecord)} {t : Topology DbfRecord} (h : buildTopology m rs = .ok t) :
    attributeBytes t ≤ (rs.map fun r => r.data.bytes.length).sum := by
  have e : attributeBytes t = ((drawn t).map fun d => d.data.bytes.length).sum := by
    simp [attributeBytes, drawn, Function.comp_def]
  rw [e, drawn_build h]
  clear h e
  induction rs with
  | nil => simp
  | cons r rs ih =>
    rw [List.filterMap_cons]
    by_cases hr : keptRings r.outerRings = []
    · have : builtDrawn r = none := by simp [builtDrawn, hr]
      rw [this]
      simp only [List.map_cons, List.sum_cons]
      omega
    · obtain ⟨d, hd, hdd⟩ : ∃ d, builtDrawn r = some d ∧ d.data = r.data := by simp [builtDrawn, hr]
      rw [hd]
      simp only [List.map_cons, List.sum_cons, hdd]
      omega

theorem normalized_from {m : Build} {t t' : Topology DbfRecord} (h : normalize m t = .ok t') :
    ∃ rs, buildTopology m rs = .ok t' ∧ regionsVolume rs ≤ 2 * walkedVolume t ∧
      (rs.map fun r => r.data.bytes.length).sum = attributeBytes t := by
  obtain ⟨rs, h1, h2⟩ := normalize_ok.mp h
  refine ⟨rs, h2, ?_⟩
  unfold regionsVolume walkedVolume attributeBytes
  clear h2 h
  generalize t.regions = ts at h1
  induction h1 with
  | nil => simp
  | cons h3 _ ih =>
    have a1 := normalizeRegion_volume h3
    simp only [normalizeRegion, bind_ok] at h3
    obtain ⟨_, _, _, _, h4⟩ := h3
    cases h4
    simp only [List.map_cons, List.sum_cons]
    omega

theorem regions_le_walked {δ : Type} (t : Topology δ) : t.regions.length ≤ walkedVolume t := by
  rw [walkedVolume_eq]; omega

theorem directed_le_walked {δ : Type} (t : Topology δ) : (allDirectedEdges t).length ≤ walkedVolume t := by
  rw [walkedVolume_eq]
  have : (allDirectedEdges t).length ≤ ((allDirectedEdges t).map fun de => (pathOf t de).length + 1).sum := by
    induction allDirectedEdges t with
    | nil => simp
    | cons de l ih => simp only [List.length_cons, List.map_cons, List.sum_cons]; omega
  omega

theorem edges_le_stored {δ : Type} (t : Topology δ) : t.edges.length ≤ storedVolume t := by
  unfold storedVolume
  induction t.edges with
  | nil => simp
  | cons e l ih => rw [List.map_cons, pathsVolume_cons, List.length_cons]; omega

theorem log_three (v : Nat) {w : Nat} (hw : w ≤ 3 * v) : w * (w.log2 + 1) ≤ 9 * (v * (v.log2 + 1)) := by
  rcases Nat.eq_zero_or_pos v with rfl | hv
  · have : w = 0 := by omega
    subst this; simp
  · have h1 : w.log2 ≤ v.log2 + 2 := by
      rcases Nat.eq_zero_or_pos w with rfl | hw'
      · simp
      · have : w < 2 ^ (v.log2 + 3) := by
          have := Nat.lt_log2_self (n := v)
          rw [Nat.pow_add] at *
          omega
        have := (Nat.log2_lt (by omega)).mpr this
        omega
    calc w * (w.log2 + 1) ≤ (3 * v) * (3 * (v.log2 + 1)) := Nat.mul_le_mul hw (by omega)
      _ = 9 * (v * (v.log2 + 1)) := by ring

theorem describeT_rounds {δ : Type} (t : Topology δ) : (describeT t).rounds ≤ t.regions.length + t.edges.length := by
  exact rounds_ticks_bind (l := 0) (by simp)

theorem treatTopologyT_rounds {m : Build} {b : TopologyBuilder DbfRecord} {rs : List (Region DbfRecord)}
    (hb : TopologyBuilder.new.addRegions m rs = .ok b) (n : Nat) :
    (treatTopologyT m b n).rounds ≤ 1155 * (regionsVolume rs * ((regionsVolume rs).log2 + 1)) +
      2 * (rs.map fun r => r.data.bytes.length).sum := by
  generalize hA : (rs.map fun r => r.data.bytes.length).sum = A
  generalize hV : regionsVolume rs = V
  have hinto : b.intoTopologyT.rounds ≤ 6 * V := by
    have h1 := intoTopologyT_rounds b
    have h2 := addRegions_length hb
    rw [hV] at h2
    simp only [TopologyBuilder.new, buildRounds, List.map_nil, List.sum_nil, List.length_nil] at h2
    unfold buildRounds at h1
    omega
  have hVV : V ≤ V * (V.log2 + 1) := Nat.le_mul_of_pos_right _ (by omega)
  have : (treatTopologyT m b n).rounds ≤ 6 * V + (6 * V + (A + (747 * (V * (V.log2 + 1)) + (36 * V + (A + (306 * V + 54 * V)))))) := by
    refine rounds_bind hinto fun t ht => ?_
    rw [intoTopologyT_result] at ht
    have hbt : buildTopology m rs = .ok t := by simp only [buildTopology, hb, ok_bind, ht]
    obtain ⟨w1, s1⟩ := C110_size m rs t hbt
    have r1 := regions_le_walked t
    have e1 := edges_le_stored t
    have at1 := attributeBytes_built hbt
    refine rounds_bind (Nat.le_trans (describeT_rounds t) (by omega)) fun _ _ => ?_
    refine Nat.le_trans (rounds_ticks_bind (l := 747 * (V * (V.log2 + 1)) + (36 * V + (A + (306 * V + 54 * V)))) ?_)
      (by omega)
    have hn := normalizeT_rounds m t
    have hl := log_three V (w := walkedVolume t) (by omega)
    refine rounds_bind (by omega) fun t2 ht2 => ?_
    rw [normalizeT_result] at ht2
    obtain ⟨rs2, hb2, hv2, ha2⟩ := normalized_from ht2
    obtain ⟨w2, s2⟩ := C110_size m rs2 t2 hb2
    have r2 := regions_le_walked t2
    have e2 := edges_le_stored t2
    have at2 := attributeBytes_built hb2
    refine rounds_bind (Nat.le_trans (describeT_rounds t2) (by omega)) fun _ _ => ?_
    refine Nat.le_trans (rounds_ticks_bind (l := 306 * V + 54 * V) ?_) (by omega)
    have hc := clipTopologyT_rounds m t2 (.minX 2147483648)
    refine rounds_bind (by omega) fun t3 ht3 => ?_
    rw [clipTopologyT_result] at ht3
    have c1 := (C80_clip_topology m _ t2 t3 ht3).2.1
    obtain ⟨l, c2, c3⟩ := C80_clip_rings m _ t2 t3 ht3
    have c4 := c2.length_le
    have c5 := c3.length_eq
    have d2 := directed_le_walked t2
    exact Nat.le_trans (rounds_bind (l := 0) (describeT_rounds t3) fun _ _ => by simp) (by omega)
  omega

theorem shapefileOpenT_rounds {size : σ → Nat} (hs : HoldsAtMost size) (m : Build) (fs : FileSystem σ) (path : Path)
    (enc : Encoding) :
    (shapefileOpenT m fs path enc).rounds ≤ 3 * (100 + 65535) ∧
    ((∀ e, shapefileOpen m fs path enc ≠ .ok (.error e)) → (shapefileOpenT m fs path enc).rounds ≤
      3 * fileSize size fs path + 3 * fileSize size fs (setExtension path "dbf".toList)) ∧
    ∀ r, shapefileOpen m fs path enc = .ok (.ok r) →
      (shapefileOpenT m fs path enc).rounds + ahead size size r ≤
        30 * fileSize size fs path + 3 * fileSize size fs (setExtension path "dbf".toList) ∧
      size r.shpReader.file ≤ fileSize size fs path ∧
      size r.dbfReader.file ≤ fileSize size fs (setExtension path "dbf".toList) ∧
      r.dbfReader.dbfMeta.nBytesPerRecord ≤ 65535 := by
  rcases hf : fs path with e | f
  · have hO : shapefileOpen m fs path enc = .ok (.error (.shp (.io e))) := by
      simp only [shapefileOpen, shpOpen, hf, ok_bind]
    have hT : (shapefileOpenT m fs path enc).rounds = 0 := by simp [shapefileOpenT, hf]
    exact ⟨by omega, fun h => absurd hO (h _), fun r h => by rw [hO] at h; cases h⟩
  · have hS : fileSize size fs path = size f := by simp only [fileSize, hf]
    obtain ⟨a1, a2⟩ := shpNewT_spent m f
    have key : ∀ k, (∀ s, ShpReader.new m f = .ok (.ok s) → (match fs (setExtension path "dbf".toList) with
          | .error e => (pure (.error (.dbf (.io e))) : Timed (Except ShapefileError (ShapefileReader σ σ)))
          | .ok g => do
            match ← DbfReader.newT m g enc with
            | .error err => pure (.error (.dbf err))
            | .ok dbfReader => pure (.ok ⟨s, dbfReader⟩)).rounds ≤ k) →
          (shapefileOpenT m fs path enc).rounds ≤ 3 * 100 + k := by
      intro k hk
      unfold shapefileOpenT
      simp only [hf]
      refine rounds_bind a1 fun x hx => ?_
      rw [shpNewT_result] at hx
      rcases x with e | s
      · simp
      · exact hk s hx
    rcases h1 : ShpReader.new m f with e | e | s
    · have a3 := (a2 size hs fun e he => by rw [h1] at he; cases he).1
      have hO : shapefileOpen m fs path enc = .error e := by
        simp only [shapefileOpen, shpOpen, hf, h1]
        rfl
      have := key 0 fun s h => by rw [h1] at h; cases h
      exact ⟨by omega, fun _ => by omega, fun r h => by rw [hO] at h; cases h⟩
    · have hO : shapefileOpen m fs path enc = .ok (.error (.shp e)) := by
        simp only [shapefileOpen, shpOpen, hf, h1, ok_bind]
      have := key 0 fun s h => by rw [h1] at h; cases h
      exact ⟨by omega, fun h => absurd hO (h _), fun r h => by rw [hO] at h; cases h⟩
    · have a3 := a2 size hs fun e he => by rw [h1] at he; cases he
      have a4 := a3.2 s h1
      rcases hg : fs (setExtension path "dbf".toList) with e | g
      · have hO : shapefileOpen m fs path enc = .ok (.error (.dbf (.io e))) := by
          simp only [shapefileOpen, shpOpen, dbfOpen, hf, h1, hg, ok_bind]
        have := key 0 fun s h => by rw [hg]; simp
        exact ⟨by omega, fun h => absurd hO (h _), fun r h => by rw [hO] at h; cases h⟩
      · have hD : fileSize size fs (setExtension path "dbf".toList) = size g := by simp only [fileSize, hg]
        obtain ⟨spent, b1, b2, b3⟩ := dbfNewT_spent m g enc
        have key2 := key (3 * spent) fun s _ => by
          simp only [hg]
          exact Nat.le_trans (rounds_bind (l := 0) b1 fun x _ => by cases x <;> simp) (by omega)
        have hO : shapefileOpen m fs path enc = (DbfReader.new m g enc).bind fun r => match r with
            | .error err => .ok (.error (.dbf err))
            | .ok dbfReader => .ok (.ok ⟨s, dbfReader⟩) := by
          simp only [shapefileOpen, shpOpen, dbfOpen, hf, h1, hg, ok_bind]
          rfl
        refine ⟨by omega, fun h => ?_, fun r h => ?_⟩
        · have := (b3 size hs fun e he => h (.dbf (.io e)) (by rw [hO, he]; rfl)).1
          omega
        · rw [hO] at h
          rcases h2 : DbfReader.new m g enc with e | e | d
          · rw [h2] at h; cases h
          · rw [h2] at h; cases h
          · rw [h2] at h
            cases h
            have b4 := b3 size hs fun e he => by rw [h2] at he; cases he
            have b5 := b4.2 d h2
            unfold ahead
            exact ⟨by dsimp only; omega, by dsimp only; omega, by dsimp only; omega, b5.2⟩

theorem log_mono {a b : Nat} (h : a ≤ b) : a * (a.log2 + 1) ≤ b * (b.log2 + 1) := by
  rcases Nat.eq_zero_or_pos a with rfl | ha
  · simp
  · refine Nat.mul_le_mul h (Nat.add_le_add_right ?_ 1)
    have : a < 2 ^ (b.log2 + 1) := Nat.lt_of_le_of_lt h Nat.lt_log2_self
    have := (Nat.log2_lt (by omega)).mpr this
    omega

theorem shpToGeoDataT_rounds {size : σ → Nat} (hs : HoldsAtMost size) (m : Build) (fuel : Nat) (fs : FileSystem σ)
    (path : Path) (enc : Encoding) :
    (shpToGeoDataT m fuel fs path enc).rounds ≤
      programRounds (fileSize size fs path) (fileSize size fs (setExtension path "dbf".toList)) + vain ∧
    ((∀ e, shpToGeoData m fuel fs path enc ≠ .ok (.error e)) → (shpToGeoDataT m fuel fs path enc).rounds ≤
      programRounds (fileSize size fs path) (fileSize size fs (setExtension path "dbf".toList))) := by
  obtain ⟨o1, o2, o3⟩ := shapefileOpenT_rounds hs m fs path enc
  generalize fileSize size fs path = S at *
  generalize fileSize size fs (setExtension path "dbf".toList) = D at *
  have hSS : S ≤ S * (S.log2 + 1) := Nat.le_mul_of_pos_right _ (by omega)
  have hvain : 3 * (100 + 65535) ≤ vain := by unfold vain longestRecord; omega
  unfold programRounds
  rcases hop : shapefileOpen m fs path enc with e | e | reader
  · have h1 := o2 fun e he => by rw [hop] at he; cases he
    have : (shpToGeoDataT m fuel fs path enc).rounds ≤ (3 * S + 3 * D) + 0 := by
      refine rounds_bind h1 fun x hx => ?_
      rw [shapefileOpenT_result, hop] at hx
      cases hx
    omega
  · have : (shpToGeoDataT m fuel fs path enc).rounds ≤ 3 * (100 + 65535) + 0 := by
      refine rounds_bind o1 fun x hx => ?_
      rw [shapefileOpenT_result, hop] at hx
      cases hx
      simp
    refine ⟨by omega, fun h => absurd ?_ (h e)⟩
    simp only [shpToGeoData, hop, ok_bind]
  · obtain ⟨c1, c2, c3, c4⟩ := o3 reader hop
    obtain ⟨r1, r2, r3⟩ := readRegionsT_rounds hs hs m fuel (ShapefileGeoIterator.new reader) TopologyBuilder.new 0 c4
    have hahead : ahead size size (ShapefileGeoIterator.new reader).reader = ahead size size reader := rfl
    rw [hahead] at r1 r2
    have key : ∀ k l, (readRegionsT m fuel (ShapefileGeoIterator.new reader) TopologyBuilder.new 0).rounds ≤ k →
        (∀ b n, readRegions m fuel (ShapefileGeoIterator.new reader) TopologyBuilder.new 0 = .ok (.ok (b, n)) →
          (treatTopologyT m b n).rounds ≤ l) →
        (shpToGeoDataT m fuel fs path enc).rounds ≤ (shapefileOpenT m fs path enc).rounds + (k + l) := by
      intro k l hk hl
      refine rounds_bind (Nat.le_refl _) fun x hx => ?_
      rw [shapefileOpenT_result, hop] at hx
      cases hx
      refine rounds_bind hk fun y hy => ?_
      rw [readRegionsT_result] at hy
      rcases y with e | ⟨b, n⟩
      · simp
      · exact Nat.le_trans (rounds_bind (l := 0) (hl b n hy) fun _ _ => by simp) (by omega)
    have hq : (ShapefileGeoIterator.new reader).reader = reader := rfl
    rcases hrd : readRegions m fuel (ShapefileGeoIterator.new reader) TopologyBuilder.new 0 with e | e | ⟨b, n⟩
    · have := key _ 0 (r2 fun e he => by rw [hrd] at he; cases he) fun b n h => by rw [hrd] at h; cases h
      omega
    · have := key _ 0 r1 fun b n h => by rw [hrd] at h; cases h
      refine ⟨by omega, fun h => absurd ?_ (h e)⟩
      simp only [shpToGeoData, hop, ok_bind, hrd]
    · obtain ⟨rs, d1, d2, d3⟩ := r3 b n hrd
      rw [hq] at d2 d3
      have ht := fun n => treatTopologyT_rounds d1 n
      have hlog := log_mono (a := regionsVolume rs) (b := S) (by omega)
      have := key _ (1155 * (S * (S.log2 + 1)) + 2 * D) (r2 fun e he => by rw [hrd] at he; cases he) fun b' n' h => by
        rw [hrd] at h
        cases h
        have := ht n
        omega
      omega

end TopoGeo
