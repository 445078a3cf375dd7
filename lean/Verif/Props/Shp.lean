import Verif.Proofs.Shp
/-!
# Properties C52-C56: the .shp reader

A non-vacuity example stands after each theorem. They share one file.
-/

namespace TopoGeo

open Spec

/-- Two records, of one and two rings. -/
def shpRecords : List OutRecord :=
  [⟨1, ⟨0, 0, 1, 1⟩, [[⟨0, 0⟩, ⟨0, 1⟩, ⟨1, 1⟩, ⟨0, 0⟩]]⟩,
   ⟨2, ⟨0, 0, 7, 7⟩, [[⟨5, 5⟩, ⟨5, 6⟩, ⟨6, 6⟩, ⟨5, 5⟩], [⟨7, 7⟩, ⟨7, 8⟩, ⟨8, 8⟩, ⟨8, 7⟩, ⟨7, 7⟩]]⟩]

theorem shpRecords_good : ∀ r ∈ shpRecords, r.Good := by
  intro r hr
  have : r = ⟨1, ⟨0, 0, 1, 1⟩, [[⟨0, 0⟩, ⟨0, 1⟩, ⟨1, 1⟩, ⟨0, 0⟩]]⟩ ∨
      r = ⟨2, ⟨0, 0, 7, 7⟩, [[⟨5, 5⟩, ⟨5, 6⟩, ⟨6, 6⟩, ⟨5, 5⟩], [⟨7, 7⟩, ⟨7, 8⟩, ⟨8, 8⟩, ⟨8, 7⟩, ⟨7, 7⟩]]⟩ := by
    simpa [shpRecords] using hr
  rcases this with rfl | rfl
  · exact ⟨by decide, by decide, _, rfl, by decide⟩
  · exact ⟨by decide, by decide, _, rfl, by decide⟩

/-- Something about the reader of a file, if it opens. -/
def shpOpened {α : Type} (bs : Bytes) (g : ShpReader MemFile → α) : Option α :=
  match ShpReader.new .release (⟨bs⟩ : MemFile) with
  | .ok (.ok r) => some (g r)
  | _ => none

/-! ## C52 -/

/-- Writing polygon records and reading them back. -/
theorem C52_round_trip (m : Build) (box : ShpBoundingBox) (records : List OutRecord) (hg : ∀ r ∈ records, r.Good)
    (hs : fileLength records < 2 ^ 32) (tail : Bytes) :
    ∃ r, ShpReader.new m (⟨writeShp box records ++ tail⟩ : MemFile) = .ok (.ok r) ∧ r.header = ⟨fileLength records, box⟩ ∧
      ∀ n, ∃ r', callsR ShpReader.next (records.length + n) r =
        .ok (records.map (fun r => some (.ok ⟨r.number, r.rings⟩)) ++ List.replicate n none, r') := by
  have heven : ∀ rs : List OutRecord, 2 ∣ (rs.flatMap OutRecord.bytes).length := by
    intro rs
    induction rs with
    | nil => simp
    | cons r rs ih =>
      rw [List.flatMap_cons, List.length_append, outRecord_length]
      unfold OutRecord.content
      rw [contentBytes_length (boxBytes_length _)]
      omega
  have hdiv : fileLength records / 2 * 2 = fileLength records := by
    have := heven records
    unfold fileLength
    omega
  have lbe : ∀ n, (beBytes 4 n).length = 4 := beBytes_length 4
  have lle : ∀ n, (leBytes 4 n).length = 4 := leBytes_length 4
  have lf := f64Bytes_length
  generalize hQ : List.replicate 32 (0 : UInt8) ++ records.flatMap OutRecord.bytes ++ tail = Q
  have hbs : writeShp box records ++ tail = beBytes 4 9994 ++ List.replicate 20 0 ++ beBytes 4 (fileLength records / 2) ++
      leBytes 4 1000 ++ leBytes 4 5 ++ f64Bytes box.b0 ++ f64Bytes box.b1 ++ f64Bytes box.b2 ++ f64Bytes box.b3 ++ Q := by
    unfold writeShp boxBytes
    rw [← hQ]
    simp only [List.append_assoc]
  have hlen : ¬ (writeShp box records ++ tail).length < 100 := by
    rw [hbs, ← hQ]
    simp [lbe, lle, lf]
    omega
  have h0 : u32be (writeShp box records ++ tail) 0 = 9994 := by
    rw [hbs]
    unfold u32be
    simp only [List.append_assoc]
    rw [List.drop_zero, List.take_left' (lbe _), beNat_beBytes (by decide)]
  have h24 : u32be (writeShp box records ++ tail) 24 = fileLength records / 2 := by
    rw [hbs]
    unfold u32be
    simp only [List.append_assoc]
    rw [← List.append_assoc (beBytes 4 9994), List.drop_left' (by simp [lbe]), List.take_left' (lbe _),
      beNat_beBytes (k := 4) (by omega)]
  have h28 : u32le (writeShp box records ++ tail) 28 = 1000 := by
    rw [hbs, show beBytes 4 9994 ++ List.replicate 20 0 ++ beBytes 4 (fileLength records / 2) ++
      leBytes 4 1000 ++ leBytes 4 5 ++ f64Bytes box.b0 ++ f64Bytes box.b1 ++ f64Bytes box.b2 ++ f64Bytes box.b3 ++ Q =
      (beBytes 4 9994 ++ List.replicate 20 0 ++ beBytes 4 (fileLength records / 2)) ++ (leBytes 4 1000 ++ (leBytes 4 5 ++
        f64Bytes box.b0 ++ f64Bytes box.b1 ++ f64Bytes box.b2 ++ f64Bytes box.b3 ++ Q)) by simp only [List.append_assoc]]
    unfold u32le
    rw [List.drop_left' (by simp [lbe]), List.take_left' (lle _), leNat_leBytes (by decide)]
  have h32 : u32le (writeShp box records ++ tail) 32 = 5 := by
    rw [hbs, show beBytes 4 9994 ++ List.replicate 20 0 ++ beBytes 4 (fileLength records / 2) ++
      leBytes 4 1000 ++ leBytes 4 5 ++ f64Bytes box.b0 ++ f64Bytes box.b1 ++ f64Bytes box.b2 ++ f64Bytes box.b3 ++ Q =
      (beBytes 4 9994 ++ List.replicate 20 0 ++ beBytes 4 (fileLength records / 2) ++ leBytes 4 1000) ++ (leBytes 4 5 ++
        (f64Bytes box.b0 ++ f64Bytes box.b1 ++ f64Bytes box.b2 ++ f64Bytes box.b3 ++ Q)) by simp only [List.append_assoc]]
    unfold u32le
    rw [List.drop_left' (by simp [lbe, lle]), List.take_left' (lle _), leNat_leBytes (by decide)]
  have hf : ∀ (pre post : Bytes) (u : UInt64) (i : Nat), writeShp box records ++ tail = pre ++ (f64Bytes u ++ post) →
      pre.length = i → f64le (writeShp box records ++ tail) i = u := by
    intro pre post u i h1 h2
    unfold f64le
    rw [h1, List.drop_left' h2, List.take_left' (lf u), ofNat_f64Bytes]
  have hb0 : f64le (writeShp box records ++ tail) 36 = box.b0 := by
    apply hf (beBytes 4 9994 ++ List.replicate 20 0 ++ beBytes 4 (fileLength records / 2) ++ leBytes 4 1000 ++ leBytes 4 5)
      (f64Bytes box.b1 ++ f64Bytes box.b2 ++ f64Bytes box.b3 ++ Q)
    · rw [hbs]; simp only [List.append_assoc]
    · simp [lbe, lle]
  have hb1 : f64le (writeShp box records ++ tail) 44 = box.b1 := by
    apply hf (beBytes 4 9994 ++ List.replicate 20 0 ++ beBytes 4 (fileLength records / 2) ++ leBytes 4 1000 ++ leBytes 4 5 ++
      f64Bytes box.b0) (f64Bytes box.b2 ++ f64Bytes box.b3 ++ Q)
    · rw [hbs]; simp only [List.append_assoc]
    · simp [lbe, lle, lf]
  have hb2 : f64le (writeShp box records ++ tail) 52 = box.b2 := by
    apply hf (beBytes 4 9994 ++ List.replicate 20 0 ++ beBytes 4 (fileLength records / 2) ++ leBytes 4 1000 ++ leBytes 4 5 ++
      f64Bytes box.b0 ++ f64Bytes box.b1) (f64Bytes box.b3 ++ Q)
    · rw [hbs]; simp only [List.append_assoc]
    · simp [lbe, lle, lf]
  have hb3 : f64le (writeShp box records ++ tail) 60 = box.b3 := by
    apply hf (beBytes 4 9994 ++ List.replicate 20 0 ++ beBytes 4 (fileLength records / 2) ++ leBytes 4 1000 ++ leBytes 4 5 ++
      f64Bytes box.b0 ++ f64Bytes box.b1 ++ f64Bytes box.b2) Q
    · rw [hbs]; simp only [List.append_assoc]
    · simp [lbe, lle, lf]
  have hdrop : (writeShp box records ++ tail).drop 100 = records.flatMap OutRecord.bytes ++ tail := by
    unfold writeShp
    rw [List.append_assoc]
    exact List.drop_left' (by simp [lbe, lle, boxBytes_length])
  refine ⟨⟨⟨records.flatMap OutRecord.bytes ++ tail⟩, 100, ⟨fileLength records, box⟩⟩, ?_, rfl, fun n => ?_⟩
  · rw [shpNew_eq, if_neg hlen, h0, h24, h28, h32, hb0, hb1, hb2, hb3, hdrop, hdiv, if_neg (by simp), if_neg (by simp),
      if_pos (by decide), if_pos rfl]
    unfold Build.u32
    rw [if_pos hs]
    rfl
  · obtain ⟨r', h, _⟩ := shpCalls_written ⟨fileLength records, box⟩ records hg tail 100 n rfl hs
    exact ⟨r', h⟩

/-- Non-vacuity. -/
example : (∀ r ∈ shpRecords, r.Good) ∧ fileLength shpRecords = 424 :=
  ⟨shpRecords_good, by decide +kernel⟩

/-! ## C53 -/

/-- In release builds, opening succeeds iff the header is that of a polygon file,
and it never panics. The announced length wraps around at 2^32. -/
theorem C53_release (bs : Bytes) :
    (∃ x, ShpReader.new .release (⟨bs⟩ : MemFile) = .ok x) ∧
    ((∃ r, ShpReader.new .release (⟨bs⟩ : MemFile) = .ok (.ok r)) ↔ 100 ≤ bs.length ∧ Header bs none) ∧
    ∀ r, ShpReader.new .release (⟨bs⟩ : MemFile) = .ok (.ok r) → r.header.fileNBytes = 2 * u32be bs 24 % 2 ^ 32 ∧
      r.header.boundingBox = ⟨f64le bs 36, f64le bs 44, f64le bs 52, f64le bs 60⟩ := by
  have hu : Build.u32 .release (u32be bs 24 * 2) = .ok (2 * u32be bs 24 % 2 ^ 32) := by
    rw [Nat.mul_comm]
    unfold Build.u32
    split
    · rename_i h; rw [Nat.mod_eq_of_lt h]
    · rfl
  rw [shpNew_eq]
  by_cases hl : bs.length < 100
  · rw [if_pos hl]
    refine ⟨⟨_, rfl⟩, ⟨?_, fun h => by omega⟩, ?_⟩
    · rintro ⟨r, hr⟩; cases hr
    · intro r hr; cases hr
  rw [if_neg hl]
  by_cases h1 : u32be bs 0 ≠ 9994
  · rw [if_pos h1]
    refine ⟨⟨_, rfl⟩, ⟨?_, ?_⟩, ?_⟩
    · rintro ⟨r, hr⟩; cases hr
    · rintro ⟨_, h⟩; cases h; contradiction
    · intro r hr; cases hr
  rw [if_neg h1]
  by_cases h2 : u32le bs 28 ≠ 1000
  · rw [if_pos h2]
    refine ⟨⟨_, rfl⟩, ⟨?_, ?_⟩, ?_⟩
    · rintro ⟨r, hr⟩; cases hr
    · rintro ⟨_, h⟩; cases h; contradiction
    · intro r hr; cases hr
  rw [if_neg h2]
  by_cases h3 : isShapeType (u32le bs 32) = true
  · rw [if_pos h3]
    by_cases h4 : u32le bs 32 = 5
    · rw [if_pos h4, hu]
      refine ⟨⟨_, rfl⟩, ⟨fun _ => ⟨by omega, .polygons (by simpa using h1) (by simpa using h2) h4⟩, fun _ => ⟨_, rfl⟩⟩, ?_⟩
      intro r hr
      simp only [Except.bind] at hr
      obtain rfl := Except.ok.inj (Except.ok.inj hr)
      exact ⟨rfl, rfl⟩
    · rw [if_neg h4]
      refine ⟨⟨_, rfl⟩, ⟨?_, ?_⟩, ?_⟩
      · rintro ⟨r, hr⟩; cases hr
      · rintro ⟨_, h⟩; cases h; contradiction
      · intro r hr; cases hr
  · rw [if_neg h3]
    refine ⟨⟨_, rfl⟩, ⟨?_, ?_⟩, ?_⟩
    · rintro ⟨r, hr⟩; cases hr
    · rintro ⟨_, h⟩
      cases h with
      | polygons _ _ h4 => rw [h4] at h3; exact absurd (by decide) h3
    · intro r hr; cases hr

/-- Which error is returned otherwise. -/
theorem C53_error (m : Build) (bs : Bytes) :
    (bs.length < 100 → ShpReader.new m (⟨bs⟩ : MemFile) = .ok (.error (.io .unexpectedEof))) ∧
    ∀ e, 100 ≤ bs.length → Header bs (some e) → ShpReader.new m (⟨bs⟩ : MemFile) = .ok (.error (.parse e)) := by
  rw [shpNew_eq]
  constructor
  · intro hl
    rw [if_pos hl]
  · intro e hl h
    rw [if_neg (by omega)]
    cases h with
    | wrongMagic h1 => rw [if_pos h1]
    | wrongVersion h1 h2 => rw [if_neg (by simpa using h1), if_pos h2]
    | unsupported h1 h2 h3 h4 =>
      rw [if_neg (by simpa using h1), if_neg (by simpa using h2), if_pos ((isShapeType_iff _).mpr h3), if_neg h4]
    | nonexistent h1 h2 h3 =>
      rw [if_neg (by simpa using h1), if_neg (by simpa using h2), if_neg (fun h => h3 ((isShapeType_iff _).mp h))]

/-- A debug build differs only in that it panics on lengths of 2^32 bytes and
more. -/
theorem C53_debug (bs : Bytes) :
    (¬ (100 ≤ bs.length ∧ Header bs none ∧ 2 ^ 31 ≤ u32be bs 24) →
      ShpReader.new .debug (⟨bs⟩ : MemFile) = ShpReader.new .release (⟨bs⟩ : MemFile)) ∧
    ((100 ≤ bs.length ∧ Header bs none ∧ 2 ^ 31 ≤ u32be bs 24) →
      ShpReader.new .debug (⟨bs⟩ : MemFile) = .error .overflow) := by
  rw [shpNew_eq, shpNew_eq]
  constructor
  · intro h
    by_cases hl : bs.length < 100
    · rw [if_pos hl, if_pos hl]
    rw [if_neg hl, if_neg hl]
    by_cases h1 : u32be bs 0 ≠ 9994
    · rw [if_pos h1, if_pos h1]
    rw [if_neg h1, if_neg h1]
    by_cases h2 : u32le bs 28 ≠ 1000
    · rw [if_pos h2, if_pos h2]
    rw [if_neg h2, if_neg h2]
    by_cases h3 : u32le bs 32 = 5
    · have h4 : ¬ 2 ^ 31 ≤ u32be bs 24 := fun h4 =>
        h ⟨by omega, .polygons (by simpa using h1) (by simpa using h2) h3, h4⟩
      have h5 : ∀ m : Build, m.u32 (u32be bs 24 * 2) = .ok (u32be bs 24 * 2) := by
        intro m
        unfold Build.u32
        exact if_pos (by omega)
      rw [h5, h5]
    · rw [if_neg h3, if_neg h3]
  · rintro ⟨hl, h, h4⟩
    cases h with
    | polygons h1 h2 h3 =>
      rw [if_neg (by omega), if_neg (by simpa using h1), if_neg (by simpa using h2), if_pos (by rw [h3]; decide), if_pos h3]
      unfold Build.u32
      rw [if_neg (by omega)]
      rfl

/-- The cases cover every file. -/
theorem C53_total (bs : Bytes) : ∃ e, Header bs e := by
  by_cases h1 : u32be bs 0 = 9994
  · by_cases h2 : u32le bs 28 = 1000
    · by_cases h3 : u32le bs 32 = 5
      · exact ⟨_, .polygons h1 h2 h3⟩
      · by_cases h4 : u32le bs 32 ∈ shapeTypes
        · exact ⟨_, .unsupported h1 h2 h4 h3⟩
        · exact ⟨_, .nonexistent h1 h2 h4⟩
    · exact ⟨_, .wrongVersion h1 h2⟩
  · exact ⟨_, .wrongMagic h1⟩

/-- Non-vacuity: a good header, one of points, and one that announces 2^32 bytes. -/
example : Header (writeShp ⟨0, 0, 1, 1⟩ shpRecords) none ∧
    Header ((writeShp ⟨0, 0, 1, 1⟩ shpRecords).set 32 1) (some (.unsupportedType 1)) ∧
    Header ((writeShp ⟨0, 0, 1, 1⟩ shpRecords).set 24 128) none ∧
    2 ^ 31 ≤ u32be ((writeShp ⟨0, 0, 1, 1⟩ shpRecords).set 24 128) 24 := by
  refine ⟨.polygons (by decide +kernel) (by decide +kernel) (by decide +kernel), ?_,
    .polygons (by decide +kernel) (by decide +kernel) (by decide +kernel), by decide +kernel⟩
  have h : u32le ((writeShp ⟨0, 0, 1, 1⟩ shpRecords).set 32 1) 32 = 1 := by decide +kernel
  have := Header.unsupported (bs := (writeShp ⟨0, 0, 1, 1⟩ shpRecords).set 32 1) (by decide +kernel) (by decide +kernel)
    (by rw [h]; decide) (by rw [h]; decide)
  rw [h] at this
  exact this

/-! ## C54 -/

/-- A content is accepted, with the given rings, iff it is the content of a
record that has them. -/
theorem C54_accepted (content : Bytes) (number : Nat) (record : ShpPolygonRecord) :
    parsePolygonRecord content number = .ok (.ok record) ↔ record.recordNumber = number ∧ IsContent content record.rings :=
  parsePolygonRecord_ok

/-- The same for the records that `next` yields: the content is what follows the
record's header in the file, and the number is in that header. -/
theorem C54_next {σ : Type} [Source σ] (r r' : ShpReader σ) (record : ShpPolygonRecord)
    (h : r.next = .ok (some (.ok record), r')) :
    ∃ header file1 content, Source.readExact r.file 8 = (.ok header, file1) ∧
      Source.readExact file1 (u32be header 4 * 2) = (.ok content, r'.file) ∧ record.recordNumber = u32be header 0 ∧
      IsContent content record.rings := by
  rcases shpNext_cases h with ⟨_, h, _⟩ | ⟨_, _, ⟨_, h, _⟩ | ⟨hb, f1, buf, h1, h2, ⟨_, h, _⟩ | ⟨rec', h3, _, ⟨_, h⟩ | ⟨_, h⟩⟩⟩⟩
  · cases h
  · cases h
  · cases h
  · cases h
  · have : record = rec' := by cases h; rfl
    subst this
    obtain ⟨h4, h5⟩ := parsePolygonRecord_ok.mp h3
    exact ⟨hb, f1, buf, h1, h2, h4, h5⟩

/-- What an accepted content looks like, offset by offset. -/
theorem C54_rings (content : Bytes) (rings : List ShpPolygonRing) (h : IsContent content rings) :
    content.length = 44 + 4 * u32le content 36 + 16 * u32le content 40 ∧ rings.length = u32le content 36 ∧ rings ≠ [] ∧
    ∀ (i : Nat) (ring : ShpPolygonRing), rings[i]? = some ring → ∃ start finish,
      start = u32le content (44 + 4 * i) ∧
      finish = (if i + 1 < u32le content 36 then u32le content (44 + 4 * (i + 1)) else u32le content 40) ∧
      start + ring.length = finish ∧ (if i + 1 < u32le content 36 then 3 ≤ ring.length else 4 ≤ ring.length) ∧
      ring.flatMap pointBytes = (content.drop (44 + 4 * u32le content 36 + 16 * start)).take (16 * ring.length) := by
  obtain ⟨_, h2, h3, points, hq, hpts, hc⟩ := isContent_facts h
  have hpl : (partOffsets content).length = u32le content 36 := by unfold partOffsets; simp
  have hlen := (cuts_size hc).1
  have hget : ∀ i, i < u32le content 36 → (partOffsets content)[i]? = some (u32le content (44 + 4 * i)) := by
    intro i hi
    unfold partOffsets
    rw [List.getElem?_map, List.getElem?_range hi]
    rfl
  have key : ∀ (parts : List Nat) (rings : List ShpPolygonRing), Cuts points parts rings →
      ∀ (i : Nat) (ring : ShpPolygonRing), rings[i]? = some ring → ∃ start before after, parts[i]? = some start ∧
        points = before ++ ring ++ after ∧ before.length = start ∧
        (if i + 1 < parts.length then parts[i + 1]? = some (start + ring.length) ∧ 3 ≤ ring.length
         else start + ring.length = points.length ∧ 4 ≤ ring.length) := by
    intro parts rings hc
    induction hc with
    | last a ring rest h1 h2 h3 =>
      intro i x hi
      cases i with
      | zero =>
        have : ring = x := by simpa using hi
        subst this
        refine ⟨a, rest, [], rfl, by simpa using h1, h2, ?_⟩
        rw [if_neg (by simp)]
        refine ⟨?_, h3⟩
        subst h1 h2
        simp
      | succ i => simp at hi
    | more a b parts rings before ring after h1 h2 h3 h4 _ ih =>
      intro i x hi
      cases i with
      | zero =>
        have : ring = x := by simpa using hi
        subst this
        refine ⟨a, before, after, rfl, h1, h2, ?_⟩
        rw [if_pos (by simp)]
        refine ⟨?_, h4⟩
        simp
        omega
      | succ i =>
        obtain ⟨start, be, af, k1, k2, k3, k4⟩ := ih i x (by simpa using hi)
        refine ⟨start, be, af, by simpa using k1, k2, k3, ?_⟩
        by_cases hlt : i + 1 < (b :: parts).length
        · rw [if_pos hlt] at k4
          rw [if_pos (by simp at hlt ⊢; omega)]
          exact ⟨by simpa using k4.1, k4.2⟩
        · rw [if_neg hlt] at k4
          rw [if_neg (by simp at hlt ⊢; omega)]
          exact k4
  refine ⟨by rw [h3]; rfl, by omega, ?_, ?_⟩
  · rintro rfl
    simp at hlen
    omega
  · intro i ring hi
    obtain ⟨start, before, after, k1, k2, k3, k4⟩ := key _ _ hc i ring hi
    have hi2 : i < u32le content 36 := by
      have := (List.getElem?_eq_some_iff.mp hi).1
      omega
    rw [hget i hi2] at k1
    obtain rfl := Option.some.inj k1
    rw [hpl] at k4
    refine ⟨_, _, rfl, rfl, ?_, ?_, ?_⟩
    · by_cases hlt : i + 1 < u32le content 36
      · rw [if_pos hlt] at k4 ⊢
        rw [hget _ hlt] at k4
        exact (Option.some.inj k4.1).symm
      · rw [if_neg hlt] at k4 ⊢
        rw [k4.1, hq]
    · by_cases hlt : i + 1 < u32le content 36
      · rw [if_pos hlt] at k4 ⊢; exact k4.2
      · rw [if_neg hlt] at k4 ⊢; exact k4.2
    · rw [← List.drop_drop, hpts, k2, List.flatMap_append, List.flatMap_append, List.append_assoc,
        List.drop_left' (by rw [flatMap_pointBytes_length, k3]), List.take_left' (flatMap_pointBytes_length ring)]

/-- Non-vacuity: both records of the file. -/
example : ∀ r ∈ shpRecords, IsContent r.content r.rings := by
  intro r hr
  have hl : ∀ r ∈ shpRecords, r.content.length < 2 ^ 32 := by decide +kernel
  exact (outRecord_content (shpRecords_good r hr) (hl r hr)).1

/-! ## C55 -/

/-- How reading a content ends, for every content. -/
theorem C55_reading (content : Bytes) (number : Nat) (v : Outcome) :
    RecordEndsAs (parsePolygonRecord content number) number v ↔ Reading number content v :=
  readsAs_iff number content v

/-- Exactly incomplete contents make it panic; any other content is either
accepted or gives a parse error. -/
theorem C55_panics (content : Bytes) (number : Nat) :
    ((∃ e, parsePolygonRecord content number = .error e) ↔ Incomplete content) ∧
    (¬ Incomplete content → (∃ record, parsePolygonRecord content number = .ok (.ok record)) ∨
      ∃ e, parsePolygonRecord content number = .ok (.error (.parse e))) := by
  obtain ⟨v, hv⟩ := reading_total number content
  have hr := reading_readsAs hv
  have hneed : ∀ {bs : Bytes}, bs.length = neededLength bs → 44 ≤ bs.length := by
    intro bs h; unfold neededLength at h; omega
  cases v with
  | panics =>
    have hi : Incomplete content := by
      unfold Incomplete
      cases hv with
      | noType h => exact Or.inl h
      | noPartCount h1 h2 h3 => exact Or.inr ⟨h2, Or.inl h3⟩
      | noPointCount h1 h2 h3 h4 => exact Or.inr ⟨h2, Or.inr ⟨h4, h3⟩⟩
    exact ⟨⟨fun _ => hi, fun _ => hr⟩, fun h => absurd hi h⟩
  | error e =>
    have hi : ¬ Incomplete content := by
      unfold Incomplete
      cases hv with
      | wrongType h1 h2 => omega
      | noParts h1 h2 h3 => omega
      | wrongLength h1 h2 h3 h4 => omega
      | outOfRange before a b after h1 h2 h3 => have := hneed h3; omega
      | invalidRange before a b after h1 h2 h3 => have := hneed h3; omega
      | lastPart last h1 h2 h3 => have := hneed h3; omega
    refine ⟨⟨?_, fun h => absurd h hi⟩, fun _ => Or.inr ⟨e, hr⟩⟩
    rintro ⟨e', he⟩
    simp only [RecordEndsAs] at hr
    rw [hr] at he
    cases he
  | accepts rings =>
    have hi : ¬ Incomplete content := by
      unfold Incomplete
      cases hv with
      | accepts _ h =>
        obtain ⟨_, _, h3, _⟩ := isContent_facts h
        have := hneed h3
        omega
    refine ⟨⟨?_, fun h => absurd h hi⟩, fun _ => Or.inl ⟨_, hr⟩⟩
    rintro ⟨e', he⟩
    simp only [RecordEndsAs] at hr
    rw [hr] at he
    cases he

/-- `next` panics iff it has to read an incomplete content. -/
theorem C55_next {σ : Type} [Source σ] (r : ShpReader σ) :
    (∃ e, r.next = .error e) ↔ r.nBytesAlreadyRead < r.header.fileNBytes ∧ ∃ header file1 content file2,
      Source.readExact r.file 8 = (.ok header, file1) ∧ Source.readExact file1 (u32be header 4 * 2) = (.ok content, file2) ∧
      Incomplete content := by
  by_cases hend : r.header.fileNBytes ≤ r.nBytesAlreadyRead
  · rw [shpNext_end hend]
    constructor
    · rintro ⟨e, h⟩; cases h
    · rintro ⟨h, _⟩; omega
  · rw [shpNext_more (by omega), readPolygonRecord_eq]
    rcases h1 : Source.readExact r.file 8 with ⟨e | hb, f1⟩
    · constructor
      · rintro ⟨e, h⟩; simp only [Except.bind] at h; cases h
      · rintro ⟨_, header, file1, content, file2, k1, _⟩
        cases k1
    · simp only
      rcases h2 : Source.readExact f1 (u32be hb 4 * 2) with ⟨e | buf, f2⟩
      · constructor
        · rintro ⟨e, h⟩; simp only [Except.bind] at h; cases h
        · rintro ⟨_, header, file1, content, file2, k1, k2, _⟩
          obtain ⟨k4, rfl⟩ := Prod.mk.inj k1
          obtain rfl := Except.ok.inj k4
          rw [h2] at k2
          cases k2
      · simp only
        have hp := C55_panics buf (u32be hb 0)
        constructor
        · rintro ⟨e, h⟩
          refine ⟨by omega, hb, f1, buf, f2, rfl, h2, hp.1.mp ?_⟩
          rcases hx : parsePolygonRecord buf (u32be hb 0) with e' | x
          · exact ⟨e', rfl⟩
          · rw [hx] at h
            rcases x with e | record
            · simp only [Except.bind] at h; cases h
            · simp only [Except.bind] at h
              split at h <;> cases h
        · rintro ⟨_, header, file1, content, file2, k1, k2, k3⟩
          obtain ⟨k4, rfl⟩ := Prod.mk.inj k1
          obtain rfl := Except.ok.inj k4
          rw [h2] at k2
          obtain ⟨k5, rfl⟩ := Prod.mk.inj k2
          obtain rfl := Except.ok.inj k5
          obtain ⟨e, he⟩ := hp.1.mpr k3
          rw [he]
          exact ⟨e, rfl⟩

/-- Non-vacuity: a null shape, an empty content, and one that ends after the
number of parts. -/
example : Reading 7 (leBytes 4 0) (.error (.recordShapeType 7 0)) ∧ Incomplete [] ∧
    Incomplete (leBytes 4 5 ++ List.replicate 32 0 ++ leBytes 4 1) ∧
    Reading 7 (leBytes 4 5 ++ List.replicate 36 0) (.error (.noParts 7)) := by
  refine ⟨.wrongType (by decide) (by decide), Or.inl (by decide),
    Or.inr ⟨by decide +kernel, Or.inr ⟨by decide +kernel, by decide +kernel⟩⟩,
    .noParts (by decide +kernel) (by decide +kernel) (by decide +kernel)⟩

/-! ## C56 -/

/-- The yielded records do not take up more than the announced length. -/
theorem C56_size {σ : Type} [Source σ] (m : Build) (file : σ) (r r' : ShpReader σ) (n : Nat)
    (os : List (Option (Except ShpError ShpPolygonRecord))) (h : ShpReader.new m file = .ok (.ok r))
    (hc : callsR ShpReader.next n r = .ok (os, r')) : yieldedSize os ≤ r.header.fileNBytes - 100 := by
  have h100 : r.nBytesAlreadyRead = 100 := by
    unfold ShpReader.new at h
    rcases hx : readShpHeader m file with e | ⟨x, f⟩
    · rw [hx] at h; cases h
    · rw [hx, ok_bind] at h
      rcases x with e | header
      · cases h
      · obtain rfl := Except.ok.inj (Except.ok.inj h)
        rfl
  have : ∀ (n : Nat) (r : ShpReader σ) (os : List (Option (Except ShpError ShpPolygonRecord))),
      callsR ShpReader.next n r = .ok (os, r') → yieldedSize os ≤ r.header.fileNBytes - r.nBytesAlreadyRead := by
    intro n
    induction n with
    | zero =>
      intro r os hc
      simp only [callsR] at hc
      obtain ⟨rfl, _⟩ := Prod.mk.inj (Except.ok.inj hc)
      simp [yieldedSize]
    | succ n ih =>
      intro r os hc
      obtain ⟨o, r1, os', h1, h2, rfl⟩ := callsR_succ hc
      have ih := ih r1 os' h2
      rcases shpNext_cases h1 with ⟨_, rfl, rfl⟩ | ⟨_, hh, ⟨e, rfl, hn, _⟩ | ⟨hb, f1, buf, _, _,
        ⟨e, rfl, _, hn⟩ | ⟨record, h3, hn, ⟨h4, rfl⟩ | ⟨h4, rfl⟩⟩⟩⟩
      · exact ih
      · simp only [yieldedSize]; rw [hh, hn] at ih; exact ih
      · simp only [yieldedSize]; rw [hh, hn] at ih; exact ih
      · simp only [yieldedSize]; rw [hh] at ih; omega
      · simp only [yieldedSize]
        rw [hh] at ih
        have := isContent_size (parsePolygonRecord_ok.mp h3).2
        omega
  have := this n r os hc
  omega

/-- Once `next` has returned `None`, it returns `None` forever. -/
theorem C56_none {σ : Type} [Source σ] (r r' : ShpReader σ) (n : Nat)
    (os : List (Option (Except ShpError ShpPolygonRecord))) (hc : callsR ShpReader.next n r = .ok (os, r')) (i j : Nat)
    (hi : os[i]? = some none) (hij : i ≤ j) (hj : j < os.length) : os[j]? = some none := by
  induction n generalizing r os i j with
  | zero =>
    simp only [callsR] at hc
    obtain ⟨rfl, _⟩ := Prod.mk.inj (Except.ok.inj hc)
    simp at hj
  | succ n ih =>
    obtain ⟨o, r1, os', h1, h2, rfl⟩ := callsR_succ hc
    cases i with
    | zero =>
      have : o = none := by simpa using hi
      subst this
      rcases shpNext_cases h1 with ⟨h3, _, rfl⟩ | ⟨_, _, ⟨_, h, _⟩ | ⟨_, _, _, _, _, ⟨_, h, _⟩ | ⟨_, _, _, ⟨_, h⟩ | ⟨_, h⟩⟩⟩⟩
      · rw [shpCalls_none h3] at h2
        obtain ⟨rfl, _⟩ := Prod.mk.inj (Except.ok.inj h2)
        cases j with
        | zero => rfl
        | succ j =>
          rw [List.getElem?_cons_succ, List.getElem?_replicate_of_lt]
          simpa using hj
      · cases h
      · cases h
      · cases h
      · cases h
    | succ i =>
      cases j with
      | zero => omega
      | succ j =>
        rw [List.getElem?_cons_succ] at hi ⊢
        exact ih r1 os' h2 i j hi (by omega) (by simpa using hj)

/-- Reading from memory, once an I/O error was returned, every later call returns
one as well: a loop over the items never ends. -/
theorem C56_io_forever (r r' : ShpReader MemFile) (n : Nat)
    (os : List (Option (Except ShpError ShpPolygonRecord))) (hc : callsR ShpReader.next n r = .ok (os, r')) (i j : Nat)
    (e : IoError) (hi : os[i]? = some (some (.error (.io e)))) (hij : i ≤ j) (hj : j < os.length) :
    ∃ e', os[j]? = some (some (.error (.io e'))) := by
  have hempty : ∀ (n : Nat) (r : ShpReader MemFile), r.file = ⟨[]⟩ → r.nBytesAlreadyRead < r.header.fileNBytes →
      ∃ r', callsR ShpReader.next n r = .ok (List.replicate n (some (.error (.io .unexpectedEof))), r') := by
    intro n
    induction n with
    | zero => intro r _ _; exact ⟨r, rfl⟩
    | succ n ih =>
      intro r hf hn
      obtain ⟨r', h⟩ := ih ⟨⟨[]⟩, r.nBytesAlreadyRead, r.header⟩ rfl hn
      refine ⟨r', callsR_cons ?_ h⟩
      rw [shpNext_more hn, readPolygonRecord_eq, hf, memFile_error (by simp)]
      rfl
  induction n generalizing r os i j with
  | zero =>
    simp only [callsR] at hc
    obtain ⟨rfl, _⟩ := Prod.mk.inj (Except.ok.inj hc)
    simp at hj
  | succ n ih =>
    obtain ⟨o, r1, os', h1, h2, rfl⟩ := callsR_succ hc
    cases i with
    | succ i =>
      cases j with
      | zero => omega
      | succ j =>
        rw [List.getElem?_cons_succ] at hi ⊢
        exact ih r1 os' h2 i j hi (by omega) (by simpa using hj)
    | zero =>
      have : o = some (.error (.io e)) := by simpa using hi
      subst this
      cases j with
      | zero => exact ⟨e, rfl⟩
      | succ j =>
        have herr : ∀ (f f' : MemFile) (k : Nat), Source.readExact f k = (.error e, f') → f' = ⟨[]⟩ := by
          intro f f' k hk
          cases f with | mk bs =>
          by_cases hl : bs.length < k
          · rw [memFile_error hl] at hk
            exact (Prod.mk.inj hk).2.symm
          · rw [memFile_ok (by omega)] at hk
            cases hk
        rcases shpNext_cases h1 with ⟨_, h, _⟩ | ⟨h3, h4, ⟨_, h, h5, h6⟩ | ⟨_, _, _, _, _, ⟨_, h, _⟩ | ⟨_, _, _, ⟨_, h⟩ | ⟨_, h⟩⟩⟩⟩
        · cases h
        · cases h
          have hf : r1.file = ⟨[]⟩ := by
            rcases h6 with h6 | ⟨hb, f1, _, h6⟩
            · exact herr _ _ _ h6
            · exact herr _ _ _ h6
          obtain ⟨r2, h7⟩ := hempty n r1 hf (by rw [h4, h5]; exact h3)
          rw [h7] at h2
          obtain ⟨rfl, _⟩ := Prod.mk.inj (Except.ok.inj h2)
          rw [List.getElem?_cons_succ, List.getElem?_replicate_of_lt (by simpa using hj)]
          exact ⟨_, rfl⟩
        · cases h
        · cases h
        · cases h

/-- Reading from memory a file that is not longer than announced, once any error
was returned, `None` is never returned. -/
theorem C56_rejected (m : Build) (bs : Bytes) (r r' : ShpReader MemFile) (n : Nat)
    (os : List (Option (Except ShpError ShpPolygonRecord))) (h : ShpReader.new m (⟨bs⟩ : MemFile) = .ok (.ok r))
    (hl : bs.length ≤ r.header.fileNBytes) (hc : callsR ShpReader.next n r = .ok (os, r')) (i : Nat) (e : ShpError)
    (hi : os[i]? = some (some (.error e))) : none ∉ os := by
  have hinit : r.nBytesAlreadyRead + r.file.data.length ≤ r.header.fileNBytes := by
    rw [shpNew_eq] at h
    by_cases h0 : bs.length < 100
    · rw [if_pos h0] at h; cases h
    rw [if_neg h0] at h
    split at h
    · cases h
    split at h
    · cases h
    split at h
    · split at h
      · rcases hx : m.u32 (u32be bs 24 * 2) with e | k
        · rw [hx] at h; cases h
        · rw [hx] at h
          obtain rfl := Except.ok.inj (Except.ok.inj h)
          simp only [List.length_drop] at *
          omega
      · cases h
    · cases h
  have hread : ∀ (f f' : MemFile) (k : Nat) (b : Bytes), Source.readExact f k = (.ok b, f') →
      f'.data.length + k = f.data.length := by
    intro f f' k b hk
    cases f with | mk bs =>
    by_cases hl : bs.length < k
    · rw [memFile_error hl] at hk; cases hk
    · rw [memFile_ok (by omega)] at hk
      obtain ⟨_, rfl⟩ := Prod.mk.inj hk
      simp
      omega
  have hread' : ∀ (f f' : MemFile) (k : Nat) (e : IoError), Source.readExact f k = (.error e, f') → f'.data.length = 0 := by
    intro f f' k e hk
    cases f with | mk bs =>
    by_cases hl : bs.length < k
    · rw [memFile_error hl] at hk
      obtain ⟨_, rfl⟩ := Prod.mk.inj hk
      rfl
    · rw [memFile_ok (by omega)] at hk; cases hk
  -- once bytes are missing, the announced length is not reached
  have hnever : ∀ (n : Nat) (r : ShpReader MemFile) (os : List (Option (Except ShpError ShpPolygonRecord))),
      callsR ShpReader.next n r = .ok (os, r') → r.nBytesAlreadyRead + r.file.data.length < r.header.fileNBytes →
      none ∉ os := by
    intro n
    induction n with
    | zero =>
      intro r os hc _
      simp only [callsR] at hc
      obtain ⟨rfl, _⟩ := Prod.mk.inj (Except.ok.inj hc)
      simp
    | succ n ih =>
      intro r os hc hlt
      obtain ⟨o, r1, os', h1, h2, rfl⟩ := callsR_succ hc
      have ih := ih r1 os' h2
      rcases shpNext_cases h1 with ⟨h3, _, _⟩ | ⟨h3, hh, ⟨e, rfl, hn, h5⟩ | ⟨hb, f1, buf, h4, h5,
        ⟨e, rfl, _, hn⟩ | ⟨record, h6, hn, ⟨h7, rfl⟩ | ⟨h7, rfl⟩⟩⟩⟩
      · omega
      · have : r1.file.data.length = 0 := by
          rcases h5 with h5 | ⟨hb, f1, _, h5⟩
          · exact hread' _ _ _ _ h5
          · exact hread' _ _ _ _ h5
        have := ih (by rw [hh]; omega)
        simpa using this
      · have a1 := hread _ _ _ _ h4
        have a2 := hread _ _ _ _ h5
        have := ih (by rw [hh]; omega)
        simpa using this
      · have a1 := hread _ _ _ _ h4
        have a2 := hread _ _ _ _ h5
        have a3 := Source.length_of_ok _ _ _ _ h5
        have := ih (by rw [hh]; omega)
        simpa using this
      · have a1 := hread _ _ _ _ h4
        have a2 := hread _ _ _ _ h5
        have a3 := Source.length_of_ok _ _ _ _ h5
        have := ih (by rw [hh]; omega)
        simpa using this
  have main : ∀ (n : Nat) (r : ShpReader MemFile) (os : List (Option (Except ShpError ShpPolygonRecord))) (i : Nat),
      callsR ShpReader.next n r = .ok (os, r') → r.nBytesAlreadyRead + r.file.data.length ≤ r.header.fileNBytes →
      os[i]? = some (some (.error e)) → none ∉ os := by
    intro n
    induction n with
    | zero =>
      intro r os i hc _ _
      simp only [callsR] at hc
      obtain ⟨rfl, _⟩ := Prod.mk.inj (Except.ok.inj hc)
      simp
    | succ n ih =>
      intro r os i hc hle hi
      obtain ⟨o, r1, os', h1, h2, rfl⟩ := callsR_succ hc
      have hnever := hnever n r1 os' h2
      rcases shpNext_cases h1 with ⟨h3, rfl, rfl⟩ | ⟨h3, hh, ⟨e, rfl, hn, h5⟩ | ⟨hb, f1, buf, h4, h5,
        ⟨e, rfl, _, hn⟩ | ⟨record, h6, hn, ⟨h7, rfl⟩ | ⟨h7, rfl⟩⟩⟩⟩
      · rw [shpCalls_none h3] at h2
        obtain ⟨rfl, _⟩ := Prod.mk.inj (Except.ok.inj h2)
        have := List.mem_of_getElem? hi
        simp at this
      · have : r1.file.data.length = 0 := by
          rcases h5 with h5 | ⟨hb, f1, _, h5⟩
          · exact hread' _ _ _ _ h5
          · exact hread' _ _ _ _ h5
        have := hnever (by rw [hh]; omega)
        simpa using this
      · have a1 := hread _ _ _ _ h4
        have a2 := hread _ _ _ _ h5
        have := hnever (by rw [hh]; omega)
        simpa using this
      · have a1 := hread _ _ _ _ h4
        have a2 := hread _ _ _ _ h5
        have a3 := Source.length_of_ok _ _ _ _ h5
        omega
      · have a1 := hread _ _ _ _ h4
        have a2 := hread _ _ _ _ h5
        have a3 := Source.length_of_ok _ _ _ _ h5
        cases i with
        | zero => simp at hi
        | succ i =>
          have := ih r1 os' i h2 (by rw [hh]; omega) (by simpa using hi)
          simpa using this
  exact main n r os i hc hinit hi

/-- The kinds of the first items of a file: a record, an error, or the end. -/
def shpKinds (bs : Bytes) (n : Nat) : Option (Option (List (Option Bool))) :=
  shpOpened bs fun r => match callsR ShpReader.next n r with
    | .ok (os, _) => some (os.map fun o => o.map fun x => match x with | .ok _ => true | .error _ => false)
    | .error _ => none

/-- Non-vacuity: a good file, a truncated one, and one whose first record is of
another type, which after that yields the second one and then errors only. -/
example : shpKinds (writeShp ⟨0, 0, 1, 1⟩ shpRecords) 4 = some (some [some true, some true, none, none]) ∧
    shpKinds ((writeShp ⟨0, 0, 1, 1⟩ shpRecords).take 420) 4 =
      some (some [some true, some false, some false, some false]) ∧
    shpKinds ((writeShp ⟨0, 0, 1, 1⟩ shpRecords).set 108 0) 4 =
      some (some [some false, some true, some false, some false]) := by
  refine ⟨?_, ?_, ?_⟩ <;> decide +kernel

end TopoGeo
