import Verif.Proofs.ReadTime
import Verif.Proofs.BuildRounds
import Verif.Proofs.Shp
import Verif.Proofs.Dbf
import Verif.Spec.ReadRounds
/-!
# Rounds of reading
-/

namespace TopoGeo

open Timed Spec

variable {σ τ : Type} [Source σ] [Source τ]

theorem rounds_readExact_bind {α : Type} (file : σ) (n : Nat) (f : Except IoError Bytes × σ → Timed α) :
    (readExactT file n >>= f).rounds = 2 * n + 1 + (f (Source.readExact file n)).rounds := by
  show ((f _).after _).rounds = _
  rw [rounds_after]

theorem lift_ok_bind {α β : Type} (a : α) (f : α → Timed β) : (lift (.ok a) >>= f) = f a := by
  show (f a).after 0 = f a
  cases f a <;> simp [after]

theorem cutRingsT_rounds (k : Nat) (points : List ShpPoint) (rings : List ShpPolygonRing) (a : Nat) (parts : List Nat) :
    (cutRingsT k points rings (tupleWindows (a :: parts))).rounds ≤ parts.length + 2 * (points.length - a) := by
  induction parts generalizing a rings with
  | nil => simp [tupleWindows, cutRingsT]
  | cons b parts ih =>
    simp only [tupleWindows, cutRingsT, List.length_cons]
    by_cases h1 : a > points.length ∨ b > points.length
    · have := rounds_tick_bind (l := 0) (f := fun _ => if a > points.length ∨ b > points.length then
        pure (.error (.parse (.partOutOfRange k a b points.length)))
        else if a + 3 > b then pure (.error (.parse (.partInvalidRange k a b)))
        else do
          ticks (2 * (b - a))
          let ring ← lift (slice points a b)
          cutRingsT k points (rings ++ [ring]) (tupleWindows (b :: parts))) (by rw [if_pos h1]; simp)
      omega
    · by_cases h2 : a + 3 > b
      · refine Nat.le_trans (rounds_tick_bind (l := 0) ?_) (by omega)
        rw [if_neg h1, if_pos h2]
        simp
      · refine Nat.le_trans (rounds_tick_bind (l := 2 * (b - a) + (parts.length + 2 * (points.length - b))) ?_) (by omega)
        rw [if_neg h1, if_neg h2]
        exact rounds_ticks_bind (rounds_lift_bind fun ring _ => ih _ b)

theorem lastRingT_rounds (k n : Nat) (points : List ShpPoint) (parts : List Nat) (rings : List ShpPolygonRing) :
    (lastRingT k n points parts rings).rounds ≤ 2 * n := by
  unfold lastRingT
  cases parts.getLast? with
  | none => simp
  | some a =>
    dsimp only
    split
    · simp
    · exact Nat.le_trans (rounds_ticks_bind (l := 0) (rounds_lift_bind fun _ _ => by simp)) (by omega)

theorem parseRingsT_rounds {buf : Bytes} (k numParts numPoints : Nat)
    (h : 44 + 4 * numParts + 16 * numPoints = buf.length) :
    (parseRingsT buf k numParts numPoints).rounds ≤ 2 * numParts + 5 * numPoints := by
  have h1 : (buf.drop (44 + 4 * numParts)).length = 16 * numPoints := by rw [List.length_drop]; omega
  have h2 : ((buf.drop 44).take (44 + 4 * numParts - 44)).length = 4 * numParts := by
    rw [List.length_take, List.length_drop]; omega
  have c1 := length_chunks (by omega) h1
  have c2 := length_chunks (by omega) h2
  unfold parseRingsT sliceFrom slice
  rw [if_pos (by omega), lift_ok_bind, parsePoints_ok (chunks_all (by omega) h1), if_pos (by omega),
    lift_ok_bind, lift_ok_bind, parseParts_ok (chunks_all (by omega) h2), lift_ok_bind, c1, c2]
  refine Nat.le_trans (rounds_ticks_bind (rounds_ticks_bind (l := (numParts + 2 * numPoints) + 2 * numPoints)
    (rounds_bind ?_ fun r _ => ?_))) (by omega)
  · cases hp : (chunks 4 ((buf.drop 44).take (44 + 4 * numParts - 44))).map leNat with
    | nil => simp [tupleWindows, cutRingsT]
    | cons a parts =>
      have := cutRingsT_rounds k ((chunks 16 (buf.drop (44 + 4 * numParts))).map pointOf) [] a parts
      have e := congrArg List.length hp
      rw [List.length_map, c2, List.length_cons] at e
      rw [List.length_map, c1] at this
      omega
  · cases r with
    | error e => simp
    | ok rings => exact lastRingT_rounds _ _ _ _ _

theorem parsePolygonRecordT_rounds (buf : Bytes) (k : Nat) : (parsePolygonRecordT buf k).rounds ≤ buf.length := by
  unfold parsePolygonRecordT
  refine rounds_lift_bind fun shapeType _ => ?_
  split
  · simp
  refine rounds_lift_bind fun numParts _ => ?_
  split
  · simp
  refine rounds_lift_bind fun numPoints _ => ?_
  split
  · simp
  · rename_i h
    have := parseRingsT_rounds k numParts numPoints (not_not.mp h)
    omega

theorem readPolygonRecordT_failed {file f : σ} {e : IoError} (h : Source.readExact file 8 = (.error e, f)) :
    (readPolygonRecordT file).rounds ≤ 3 * 8 := by
  unfold readPolygonRecordT
  rw [rounds_readExact_bind, h]
  simp

theorem readPolygonRecordT_rounds {file f1 : σ} {hb : Bytes} (h : Source.readExact file 8 = (.ok hb, f1)) :
    (readPolygonRecordT file).rounds ≤ 3 * (8 + u32be hb 4 * 2) := by
  have hl := Source.length_of_ok _ _ _ _ h
  unfold readPolygonRecordT
  rw [rounds_readExact_bind, h]
  dsimp only
  rw [u32beAt_ok rfl (by omega), lift_ok_bind, u32beAt_ok rfl (by omega), lift_ok_bind, rounds_readExact_bind]
  rcases h2 : Source.readExact f1 (u32be hb 4 * 2) with ⟨e | buf, f2⟩
  · simp only [rounds_pure]; omega
  · have hl2 := Source.length_of_ok _ _ _ _ h2
    dsimp only
    refine Nat.le_trans (Nat.add_le_add_left (Nat.add_le_add_left (rounds_bind (l := 0)
      (parsePolygonRecordT_rounds buf (u32be hb 0)) fun r _ => ?_) _) _) (by omega)
    cases r <;> simp

theorem shpNextT_end {r : ShpReader σ} (h : r.header.fileNBytes ≤ r.nBytesAlreadyRead) : r.nextT.rounds = 0 := by
  unfold ShpReader.nextT
  rw [if_pos h]
  rfl

theorem shpNextT_more (r : ShpReader σ) : r.nextT.rounds ≤ (readPolygonRecordT r.file).rounds := by
  unfold ShpReader.nextT
  split
  · simp
  · refine rounds_bind (l := 0) (Nat.le_refl _) fun a _ => ?_
    rcases a with ⟨_ | ⟨record, n⟩, file'⟩
    · simp
    · dsimp only
      split <;> simp

/-- What one call of `next` asks of the file, and how long it takes. -/
theorem shpNextT_spent (r : ShpReader σ) : ∃ spent, r.nextT.rounds ≤ 3 * spent ∧ spent ≤ longestRecord ∧
    (∀ record r', r.next = .ok (some (.ok record), r') →
      r'.nBytesAlreadyRead = r.nBytesAlreadyRead + spent ∧ recordSize record.rings ≤ spent) ∧
    ∀ size : σ → Nat, HoldsAtMost size → (∀ e r', r.next ≠ .ok (some (.error (.io e)), r')) →
      spent ≤ size r.file ∧ ∀ o r', r.next = .ok (o, r') → size r'.file + spent ≤ size r.file := by
  by_cases hend : r.header.fileNBytes ≤ r.nBytesAlreadyRead
  · refine ⟨0, by rw [shpNextT_end hend], Nat.zero_le _, fun record r' h => ?_, fun size _ _ => ⟨Nat.zero_le _, fun o r' h => ?_⟩⟩
    · rw [shpNext_end hend] at h; cases h
    · rw [shpNext_end hend] at h
      obtain ⟨_, rfl⟩ := Prod.mk.inj (Except.ok.inj h)
      exact Nat.le_refl _
  have hmore := shpNextT_more r
  rcases h1 : Source.readExact r.file 8 with ⟨e | hb, f1⟩
  · have := readPolygonRecordT_failed h1
    have hn : r.next = .ok (some (.error (.io e)), ⟨f1, r.nBytesAlreadyRead, r.header⟩) := by
      rw [shpNext_more (by omega), readPolygonRecord_eq, h1]
      rfl
    refine ⟨8, by omega, by unfold longestRecord; omega, fun record r' h => ?_, fun size _ hio => absurd hn (hio _ _)⟩
    rw [hn] at h; cases h
  · have := readPolygonRecordT_rounds h1
    have hlt := u32be_lt hb 4
    refine ⟨8 + u32be hb 4 * 2, by omega, by unfold longestRecord; omega, fun record r' h => ?_, fun size hs hio => ?_⟩
    · rcases shpNext_cases h with ⟨_, h, _⟩ | ⟨_, _, ⟨_, h, _⟩ | ⟨hb', f1', buf, h1', h2, ⟨_, h, _⟩ | ⟨rec', h3, h4, ⟨_, h⟩ | ⟨_, h⟩⟩⟩⟩
      · cases h
      · cases h
      · cases h
      · cases h
      · rw [h1] at h1'
        cases h1'
        cases h
        have hl := Source.length_of_ok _ _ _ _ h2
        have hsz := isContent_size (parsePolygonRecord_ok.mp h3).2
        omega
    · rcases h2 : Source.readExact f1 (u32be hb 4 * 2) with ⟨e | buf, f2⟩
      · refine absurd ?_ (hio e ⟨f2, r.nBytesAlreadyRead, r.header⟩)
        rw [shpNext_more (by omega), readPolygonRecord_eq, h1]
        simp only [h2]
        rfl
      · have a1 := hs _ _ _ _ h1
        have a2 := hs _ _ _ _ h2
        refine ⟨by omega, fun o r' h => ?_⟩
        rcases shpNext_cases h with ⟨h, _, _⟩ | ⟨_, _, ⟨_, h', _⟩ | ⟨hb', f1', buf', h1', h2', _⟩⟩
        · omega
        · subst h'
          exact absurd h (hio _ _)
        · rw [h1] at h1'
          cases h1'
          rw [h2] at h2'
          cases h2'
          omega

/-! ## The attributes -/

theorem dbfNextT_rounds (r : DbfReader σ) : r.nextT.rounds ≤ 2 * r.dbfMeta.nBytesPerRecord + 1 := by
  unfold DbfReader.nextT
  split
  · simp
  · exact rounds_ticks_bind (l := 0) (by simp)

theorem dbfNext_spent {r r' : DbfReader σ} {o : Option (Except DbfError DbfRecord)} (h : r.next = (o, r')) :
    r'.dbfMeta = r.dbfMeta ∧ ∀ record, o = some (.ok record) → record.bytes.length = r.dbfMeta.nBytesPerRecord ∧
      ∀ size : σ → Nat, HoldsAtMost size → size r'.file + r.dbfMeta.nBytesPerRecord ≤ size r.file := by
  unfold DbfReader.next at h
  split at h
  · cases h
    exact ⟨rfl, fun _ h => by cases h⟩
  · unfold readDbfRecord at h
    rcases h1 : Source.readExact r.file r.dbfMeta.nBytesPerRecord with ⟨e | buf, f⟩
    · rw [h1] at h
      cases h
      exact ⟨rfl, fun _ h => by cases h⟩
    · rw [h1] at h
      cases h
      refine ⟨rfl, fun _ h => ?_⟩
      cases h
      exact ⟨Source.length_of_ok _ _ _ _ h1, fun size hs => hs _ _ _ _ h1⟩

theorem chunksFuel_length {α : Type} (n : Nat) (hn : 0 < n) (fuel : Nat) (l : List α) :
    (chunksFuel n fuel l).length * n ≤ l.length + n - 1 := by
  induction fuel generalizing l with
  | zero => simp [chunksFuel]
  | succ fuel ih =>
    cases l with
    | nil => simp [chunksFuel]
    | cons x l =>
      simp only [chunksFuel, List.length_cons, Nat.add_mul, Nat.one_mul]
      by_cases h : n ≤ l.length + 1
      · have := ih ((x :: l).drop n)
        rw [List.length_drop, List.length_cons] at this
        omega
      · rw [List.drop_of_length_le (by simp; omega)]
        have : (chunksFuel n fuel ([] : List α)) = [] := by cases fuel <;> rfl
        rw [this]
        simp

theorem parseDbfFieldsT_rounds (enc : Encoding) (offset : Nat) (v : List DbfField) (cs : List Bytes) :
    (parseDbfFieldsT enc offset v cs).rounds ≤ 23 * cs.length := by
  induction cs generalizing offset v with
  | nil => simp [parseDbfFieldsT]
  | cons c rest ih =>
    rw [List.length_cons]
    refine Nat.le_trans (rounds_tick_bind (l := 22 + 23 * rest.length) ?_) (by omega)
    split
    · simp
    · refine rounds_ticks_bind (rounds_lift_bind fun r _ => ?_)
      cases r with
      | error e => simp
      | ok next => exact ih _ _

theorem readDbfFieldsT_rounds (m : Build) (file : σ) (enc : Encoding) (h : DbfHeader) :
    (readDbfFieldsT m file enc h).rounds ≤ 3 * (h.nHeaderBytes - 32) + 24 := by
  unfold readDbfFieldsT
  split
  · simp
  · rw [rounds_readExact_bind]
    rcases h1 : Source.readExact file (h.nHeaderBytes - 32) with ⟨e | buf, f⟩
    · simp only [rounds_pure]; omega
    · have hl := Source.length_of_ok _ _ _ _ h1
      have a1 := parseDbfFieldsT_rounds enc 1 [] (chunks 32 buf)
      have a2 := chunksFuel_length 32 (by omega) buf.length buf
      change (chunks 32 buf).length * 32 ≤ _ at a2
      have := rounds_bind a1 (l := 0) (f := fun r => pure (r, f)) fun r _ => by simp
      dsimp only
      omega

theorem leNat_two (l : Bytes) : leNat (l.take 2) ≤ 65535 := by
  match l with
  | [] => simp [leNat]
  | [a] => have := a.toNat_lt; simp [leNat]; omega
  | a :: b :: l => have := a.toNat_lt; have := b.toNat_lt; simp [leNat]; omega

theorem readDbfMetaT_rounds (m : Build) (file : σ) (enc : Encoding) : (readDbfMetaT m file enc).rounds ≤
    65 + (match readDbfHeader file with
      | .ok (.ok h, _) => 3 * (h.nHeaderBytes - 32) + 24
      | _ => 0) := by
  unfold readDbfMetaT
  refine rounds_bind (k := 65) (rounds_ticks_bind (n := 65) (l := 0) (by simp)) fun a ha => ?_
  have ha : readDbfHeader file = .ok a := by
    simpa only [readDbfHeaderT, result_bind, result_ticks, ok_bind', result_lift] using ha
  rw [ha]
  rcases a with ⟨e | h, f1⟩
  · simp
  · refine rounds_bind (l := 0) (readDbfFieldsT_rounds m f1 enc h) fun b _ => ?_
    rcases b with ⟨_ | _, _⟩ <;> simp

/-- What opening asks of the file, and how long it takes. -/
theorem dbfNewT_spent (m : Build) (file : σ) (enc : Encoding) : ∃ spent, (DbfReader.newT m file enc).rounds ≤ 3 * spent ∧
    spent ≤ 65535 ∧ ∀ size : σ → Nat, HoldsAtMost size →
      (∀ e, DbfReader.new m file enc ≠ .ok (.error (.io e))) → spent ≤ size file ∧
        ∀ r, DbfReader.new m file enc = .ok (.ok r) → size r.file + spent ≤ size file ∧ r.dbfMeta.nBytesPerRecord ≤ 65535 := by
  have hnew : (DbfReader.newT m file enc).rounds ≤ (readDbfMetaT m file enc).rounds := by
    refine rounds_bind (l := 0) (Nat.le_refl _) fun a _ => ?_
    rcases a with ⟨_ | _, _⟩ <;> simp
  have hmeta := readDbfMetaT_rounds m file enc
  rw [readDbfHeader_eq] at hmeta
  rw [dbfNew_eq] at *
  rcases h1 : Source.readExact file 32 with ⟨e | buf, f⟩
  · rw [h1] at hmeta
    simp only at hmeta ⊢
    exact ⟨32, by omega, by omega, fun size _ h => absurd rfl (h e)⟩
  · rw [h1] at hmeta
    simp only at hmeta ⊢
    by_cases hd : buf[2]?.getD 0 > 12 ∨ buf[3]?.getD 0 > 31
    · simp only [if_pos hd] at hmeta ⊢
      refine ⟨32, by omega, by omega, fun size hs _ => ⟨?_, fun r h => by cases h⟩⟩
      have := hs _ _ _ _ h1
      omega
    · simp only [if_neg hd] at hmeta ⊢
      have hle : headerLength buf ≤ 65535 := leNat_two (buf.drop 8)
      change _ ≤ 65 + (3 * (headerLength buf - 32) + 24) at hmeta
      by_cases hh : headerLength buf < 32
      · simp only [if_pos hh]
        refine ⟨32, by omega, by omega, fun size hs _ => ⟨?_, fun r h => by cases h⟩⟩
        have := hs _ _ _ _ h1
        omega
      · simp only [if_neg hh]
        refine ⟨headerLength buf, by omega, hle, fun size hs hio => ?_⟩
        rcases h2 : Source.readExact f (headerLength buf - 32) with ⟨e | buf2, f2⟩
        · rw [h2] at hio
          exact absurd rfl (hio e)
        · have a1 := hs _ _ _ _ h1
          have a2 := hs _ _ _ _ h2
          refine ⟨by omega, fun r h => ?_⟩
          simp only at h
          rcases h3 : parseDbfFields enc 1 [] (wholes 32 buf2) with e | r1
          · rw [h3] at h; cases h
          · rw [h3] at h
            rcases r1 with e | fields
            · cases h
            · cases h
              exact ⟨by dsimp only; omega, leNat_two (buf.drop 10)⟩

end TopoGeo
