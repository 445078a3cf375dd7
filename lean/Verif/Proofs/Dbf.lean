import Verif.Proofs.Io
/-!
# Lemmas about the .dbf reader
-/

namespace TopoGeo

open Spec

/-! ## Descriptors -/

theorem take_findIdx? {α : Type} (p : α → Bool) (l : List α) (n : Nat) (h : l.length ≤ n) :
    l.take ((l.findIdx? p).getD n) = l.takeWhile fun x => !p x := by
  induction l generalizing n with
  | nil => simp
  | cons a l ih =>
    rw [List.findIdx?_cons]
    by_cases hp : p a
    · simp [hp]
    · simp only [hp, Bool.false_eq_true, if_false, Bool.not_false, List.takeWhile_cons_of_pos]
      have h' : l.length ≤ n - 1 := by simp at h; omega
      cases hf : l.findIdx? p with
      | none =>
        have := ih (n - 1) h'
        rw [hf] at this
        simp only [Option.getD_none, Option.map_none] at this ⊢
        obtain ⟨k, rfl⟩ : ∃ k, n = k + 1 := ⟨n - 1, by simp at h; omega⟩
        rw [List.take_succ_cons, show k + 1 - 1 = k by omega] at *
        rw [this]
      | some i =>
        have := ih (n - 1) h'
        rw [hf] at this
        simp only [Option.getD_some, Option.map_some] at this ⊢
        rw [List.take_succ_cons, this]

theorem rawName_slice {d : Bytes} (h : d.length = 32) :
    slice d 0 (((d.take 11).findIdx? (fun b => b == 0)).getD 11) = .ok (rawName d) := by
  have hlen : (d.take 11).length = 11 := by simp [h]
  have hle : ((d.take 11).findIdx? (fun b => b == 0)).getD 11 ≤ 11 := by
    cases hf : (d.take 11).findIdx? (fun b => b == 0) with
    | none => simp
    | some i =>
      have := (List.findIdx?_eq_some_iff_getElem.mp hf).1
      simp only [Option.getD_some]
      omega
  rw [slice_ok (by omega) (by omega), Nat.sub_zero, List.drop_zero]
  congr 1
  have h1 := take_findIdx? (fun b => b == (0 : UInt8)) (d.take 11) 11 (by omega)
  rw [List.take_take, Nat.min_eq_left hle] at h1
  rw [h1]
  unfold rawName
  congr 1
  funext x
  by_cases hx : x = 0 <;> simp [hx]

/-- Parsing one descriptor. -/
theorem parseDbfField_eq {d : Bytes} (h : d.length = 32) (enc : Encoding) (offset : Nat) :
    parseDbfField d enc offset = .ok (match enc.decode (rawName d) with
      | .error _ => .error (.parse .badFieldName)
      | .ok name => .ok ⟨name, DbfType.withCode (d[11]'(by omega)) enc, offset, (d[16]'(by omega)).toNat⟩) := by
  unfold parseDbfField
  have h0 : slice d 0 11 = .ok (d.take 11) := by
    rw [slice_ok (by omega) (by omega)]; rfl
  rw [h0, ok_bind]
  simp only
  rw [rawName_slice h, ok_bind, List.getElem?_eq_getElem (show 11 < d.length by omega),
    List.getElem?_eq_getElem (show 16 < d.length by omega)]
  cases enc.decode (rawName d) <;> rfl

theorem isType_withCode (enc : Encoding) (code : UInt8) : IsType enc code (DbfType.withCode code enc) := by
  unfold IsType DbfType.withCode
  split
  all_goals first
    | (rename_i h; rw [h]; simp)
    | (rename_i h1 h2 h3 h4 h5 h6 h7 h8 h9; simp; exact ⟨h1, h2, h3, h4, h5, h6, h7, h8, h9⟩)

theorem describes_of {d : Bytes} (h : d.length = 32) {enc : Encoding} {name : Text} (hn : enc.decode (rawName d) = .ok name)
    (offset : Nat) : Describes enc d ⟨name, DbfType.withCode (d[11]'(by omega)) enc, offset, (d[16]'(by omega)).toNat⟩ := by
  refine ⟨⟨rawName d, (d.take 11).dropWhile (· ≠ 0), ?_, ?_, ?_, hn⟩, ⟨_, List.getElem?_eq_getElem (by omega), isType_withCode _ _⟩,
    ⟨_, List.getElem?_eq_getElem (by omega), rfl⟩⟩
  · unfold rawName; exact List.takeWhile_append_dropWhile.symm
  · intro hm
    have := List.all_takeWhile (l := d.take 11) (p := fun x => decide (x ≠ 0))
    have := List.all_eq_true.mp this 0 hm
    simp at this
  · cases hd : (d.take 11).dropWhile (fun x => decide (x ≠ 0)) with
    | nil => exact Or.inl rfl
    | cons a l =>
      right
      have := List.head_dropWhile_not (fun x : UInt8 => decide (x ≠ 0)) (l := d.take 11) (by rw [hd]; simp)
      simp only [hd, List.head_cons] at this
      simpa using this

theorem parseDbfFields_spec (enc : Encoding) (ds : List Bytes) (hd : ∀ d ∈ ds, d.length = 32) (offset : Nat)
    (v : List DbfField) :
    (∃ fields, parseDbfFields enc offset v ds = .ok (.ok (v ++ fields)) ∧ List.Forall₂ (Describes enc) ds fields ∧
      Tiled offset fields ∧ ∀ d ∈ ds, Encoding.accepts enc (rawName d)) ∨
    (parseDbfFields enc offset v ds = .ok (.error (.parse .badFieldName)) ∧
      ∃ d ∈ ds, ¬ Encoding.accepts enc (rawName d)) := by
  induction ds generalizing offset v with
  | nil => exact Or.inl ⟨[], by simp [parseDbfFields], .nil, trivial, by simp⟩
  | cons d ds ih =>
    have h32 := hd d (by simp)
    unfold parseDbfFields
    rw [if_neg (by omega), parseDbfField_eq h32, ok_bind]
    cases hn : enc.decode (rawName d) with
    | error e =>
      refine Or.inr ⟨rfl, d, by simp, ?_⟩
      rintro ⟨t, ht⟩
      rw [hn] at ht
      cases ht
    | ok name =>
      simp only
      rcases ih (fun x hx => hd x (by simp [hx])) (offset + (d[16]'(by omega)).toNat)
        (v ++ [⟨name, DbfType.withCode (d[11]'(by omega)) enc, offset, (d[16]'(by omega)).toNat⟩]) with
        ⟨fields, h1, h2, h3, h4⟩ | ⟨h1, d', h2, h3⟩
      · refine Or.inl ⟨_ :: fields, ?_, .cons (describes_of h32 hn offset) h2, ⟨rfl, h3⟩, ?_⟩
        · rw [h1, List.append_assoc]; rfl
        · intro x hx
          rcases List.mem_cons.mp hx with rfl | hx
          · exact ⟨name, hn⟩
          · exact h4 x hx
      · exact Or.inr ⟨h1, d', by simp [h2], h3⟩

theorem parseDbfFields_chunks (enc : Encoding) (offset : Nat) (v : List DbfField) (n : Nat) (buf : Bytes)
    (hn : buf.length < n) :
    parseDbfFields enc offset v (chunks 32 buf) = parseDbfFields enc offset v (wholes 32 buf) := by
  induction n generalizing offset v buf with
  | zero => omega
  | succ n ih =>
    by_cases h : 32 ≤ buf.length
    · rw [chunks_cons (by omega) (by intro h0; subst h0; simp at h), wholes_long (by omega) h]
      unfold parseDbfFields
      split
      · rfl
      · rw [parseDbfField_eq (by simp [h])]
        simp only [ok_bind]
        split
        · rfl
        · apply ih
          simp only [List.length_drop]
          omega
    · rw [wholes_short (by omega)]
      by_cases h0 : buf = []
      · subst h0; rfl
      · rw [chunks_cons (by omega) h0]
        unfold parseDbfFields
        rw [if_pos (by simp; omega)]

/-! ## Opening -/

theorem getElem?_lt {α : Type} {l : List α} {i : Nat} (h : i < l.length) : ∃ a, l[i]? = some a :=
  ⟨_, List.getElem?_eq_getElem h⟩

theorem readDbfHeader_eq {σ : Type} [Source σ] (file : σ) :
    readDbfHeader file = .ok (match Source.readExact file 32 with
      | (.error e, f) => (.error (.io e), f)
      | (.ok buf, f) =>
        if buf[2]?.getD 0 > 12 ∨ buf[3]?.getD 0 > 31 then (.error (.parse .badDate), f)
        else (.ok ⟨leNat ((buf.drop 4).take 4), leNat ((buf.drop 8).take 2), leNat ((buf.drop 10).take 2)⟩, f)) := by
  unfold readDbfHeader
  split
  · rename_i e f h; simp only [h]
  · rename_i buf f h
    have hl := Source.length_of_ok _ _ _ _ h
    obtain ⟨a, ha⟩ := getElem?_lt (l := buf) (i := 2) (by omega)
    obtain ⟨b, hb⟩ := getElem?_lt (l := buf) (i := 3) (by omega)
    simp only [h, ha, hb, Option.getD_some]
    split
    · rfl
    · unfold readLE
      rw [if_pos (by simp [hl]), ok_bind, if_pos (by simp [hl]), ok_bind, if_pos (by simp [hl]), ok_bind]

/-- What opening a reader does, step by step. -/
theorem dbfNew_eq {σ : Type} [Source σ] (m : Build) (file : σ) (enc : Encoding) :
    DbfReader.new m file enc = (match Source.readExact file 32 with
      | (.error e, _) => .ok (.error (.io e))
      | (.ok buf, f) =>
        if buf[2]?.getD 0 > 12 ∨ buf[3]?.getD 0 > 31 then .ok (.error (.parse .badDate))
        else if headerLength buf < 32 then .error (match m with | .debug => .overflow | .release => .capacity)
        else match Source.readExact f (headerLength buf - 32) with
          | (.error e, _) => .ok (.error (.io e))
          | (.ok buf2, f2) => (parseDbfFields enc 1 [] (wholes 32 buf2)).bind fun r => .ok (r.map fun fields =>
              ⟨f2, 0, ⟨leNat ((buf.drop 4).take 4), leNat ((buf.drop 10).take 2), fields⟩⟩)) := by
  unfold DbfReader.new readDbfMeta
  rw [readDbfHeader_eq, ok_bind]
  rcases Source.readExact file 32 with ⟨e | buf, f⟩
  · rfl
  · simp only
    by_cases hdate : buf[2]?.getD 0 > 12 ∨ buf[3]?.getD 0 > 31
    · rw [if_pos hdate, if_pos hdate]; rfl
    · rw [if_neg hdate, if_neg hdate]
      simp only
      unfold readDbfFields headerLength
      simp only
      split
      · rfl
      · rcases Source.readExact f (leNat ((buf.drop 8).take 2) - 32) with ⟨e | buf2, f2⟩
        · rfl
        · simp only
          rw [parseDbfFields_chunks enc 1 [] (buf2.length + 1) buf2 (by omega)]
          rcases parseDbfFields enc 1 [] (wholes 32 buf2) with e | r
          · rfl
          · rcases r with e | fields <;> rfl

/-- A reader that was opened. -/
theorem dbfNew_ok {σ : Type} [Source σ] {m : Build} {file : σ} {enc : Encoding} {r : DbfReader σ}
    (h : DbfReader.new m file enc = .ok (.ok r)) :
    ∃ buf f buf2 f2, Source.readExact file 32 = (.ok buf, f) ∧ 32 ≤ headerLength buf ∧
      Source.readExact f (headerLength buf - 32) = (.ok buf2, f2) ∧ r.file = f2 ∧ r.nRecordsAlreadyIterated = 0 ∧
      r.dbfMeta.nRecords = leNat ((buf.drop 4).take 4) ∧ r.dbfMeta.nBytesPerRecord = leNat ((buf.drop 10).take 2) ∧
      List.Forall₂ (Describes enc) (wholes 32 buf2) r.dbfMeta.fields ∧ Tiled 1 r.dbfMeta.fields := by
  rw [dbfNew_eq] at h
  rcases h1 : Source.readExact file 32 with ⟨e | buf, f⟩
  · rw [h1] at h; simp at h
  · rw [h1] at h
    simp only at h
    split at h
    · simp at h
    · split at h
      · simp at h
      · rename_i hh
        rcases h2 : Source.readExact f (headerLength buf - 32) with ⟨e | buf2, f2⟩
        · rw [h2] at h; simp at h
        · rw [h2] at h
          simp only at h
          refine ⟨buf, f, buf2, f2, rfl, by omega, h2, ?_⟩
          rcases parseDbfFields_spec enc (wholes 32 buf2) (fun d hd => wholes_length (by omega) hd) 1 [] with
            ⟨fields, k1, k2, k3, _⟩ | ⟨k1, _⟩
          · rw [k1] at h
            simp only [Except.bind, Except.map, List.nil_append] at h
            obtain rfl := Except.ok.inj (Except.ok.inj h)
            exact ⟨rfl, rfl, rfl, rfl, k2, k3⟩
          · rw [k1] at h
            simp [Except.bind, Except.map] at h

/-! ## Records -/

theorem calls_succ {ι ο : Type} (next : ι → ο × ι) (n : Nat) (it : ι) :
    (calls next (n + 1) it).1 = (next it).1 :: (calls next n (next it).2).1 := rfl

theorem dbfNext_end {σ : Type} [Source σ] {r : DbfReader σ} (h : r.nRecordsAlreadyIterated = r.dbfMeta.nRecords) :
    r.next = (none, r) := by
  unfold DbfReader.next; exact if_pos h

theorem dbfNext_more {σ : Type} [Source σ] {r : DbfReader σ} (h : r.nRecordsAlreadyIterated ≠ r.dbfMeta.nRecords) :
    r.next = (some (readDbfRecord r.file r.dbfMeta).1,
      ⟨(readDbfRecord r.file r.dbfMeta).2, r.nRecordsAlreadyIterated + 1, r.dbfMeta⟩) := by
  unfold DbfReader.next; exact if_neg h

theorem dbfCalls {σ : Type} [Source σ] (r : DbfReader σ) (n : Nat)
    (hr : r.nRecordsAlreadyIterated ≤ r.dbfMeta.nRecords) (i : Nat) (o : Option (Except DbfError DbfRecord))
    (h : (calls DbfReader.next n r).1[i]? = some o) :
    o.isSome = true ↔ i < r.dbfMeta.nRecords - r.nRecordsAlreadyIterated := by
  induction n generalizing r i with
  | zero => simp [calls] at h
  | succ n ih =>
    rw [calls_succ] at h
    by_cases heq : r.nRecordsAlreadyIterated = r.dbfMeta.nRecords
    · rw [dbfNext_end heq] at h
      cases i with
      | zero =>
        simp only [List.getElem?_cons_zero, Option.some.injEq] at h
        subst h
        simp [heq]
      | succ i =>
        rw [List.getElem?_cons_succ] at h
        have := ih r hr i h
        rw [this]
        omega
    · rw [dbfNext_more heq] at h
      cases i with
      | zero =>
        simp only [List.getElem?_cons_zero, Option.some.injEq] at h
        subst h
        simp only [Option.isSome_some, true_iff]
        omega
      | succ i =>
        rw [List.getElem?_cons_succ] at h
        have := ih _ (by simp only; omega) i h
        rw [this]
        simp only
        omega

theorem calls_length {ι ο : Type} (next : ι → ο × ι) (n : Nat) (it : ι) : (calls next n it).1.length = n := by
  induction n generalizing it with
  | zero => rfl
  | succ n ih => simp [calls, ih]

/-- Reading records that are there. -/
theorem dbfCalls_records (dbfMeta : DbfMeta) (records : List Bytes) (tail : Bytes) (k n : Nat)
    (hl : ∀ r ∈ records, r.length = dbfMeta.nBytesPerRecord) (hn : k + records.length = dbfMeta.nRecords) :
    (calls DbfReader.next (records.length + n) (⟨⟨records.flatten ++ tail⟩, k, dbfMeta⟩ : DbfReader MemFile)).1 =
      records.map (fun b => some (.ok ⟨dbfMeta, b⟩)) ++ List.replicate n none := by
  induction records generalizing k with
  | nil =>
    simp only [List.length_nil, Nat.add_zero, Nat.zero_add, List.map_nil, List.nil_append] at hn ⊢
    induction n with
    | zero => rfl
    | succ n ih =>
      rw [calls_succ, dbfNext_end hn, List.replicate_succ, ih]
  | cons b records ih =>
    have hb := hl b (by simp)
    rw [List.length_cons, show records.length + 1 + n = records.length + n + 1 by omega]
    rw [calls_succ]
    have hne : ¬ k = dbfMeta.nRecords := by simp at hn; omega
    have hnext : DbfReader.next (⟨⟨(b :: records).flatten ++ tail⟩, k, dbfMeta⟩ : DbfReader MemFile) =
        (some (.ok ⟨dbfMeta, b⟩), ⟨⟨records.flatten ++ tail⟩, k + 1, dbfMeta⟩) := by
      rw [dbfNext_more hne]
      unfold readDbfRecord
      simp only
      rw [List.flatten_cons, List.append_assoc, memFile_ok (by simp; omega), List.take_left' hb, List.drop_left' hb]
    rw [hnext]
    simp only
    rw [ih (k + 1) (fun r hr => hl r (by simp [hr])) (by simp at hn; omega)]
    rfl

/-! ## Values -/

theorem isDigit_iff (b : UInt8) : isDigit b = true ↔ 0x30 ≤ b.toNat ∧ b.toNat ≤ 0x39 := by
  unfold isDigit; simp

theorem digits_iff (s : Bytes) : Digits s ↔ s.isEmpty = false ∧ s.all isDigit = true := by
  unfold Digits
  rw [List.all_eq_true]
  simp only [isDigit_iff]
  cases s <;> simp

theorem matchFraction_iff (bs : Bytes) :
    matchFraction bs = true ↔ bs = [] ∨ ∃ fs, bs = 0x2e :: fs ∧ Digits fs := by
  cases bs with
  | nil => simp [matchFraction]
  | cons b rest =>
    simp only [matchFraction, Bool.and_eq_true, Bool.not_eq_true', beq_iff_eq, reduceCtorEq, false_or, List.cons.injEq,
      digits_iff]
    constructor
    · rintro ⟨⟨rfl, h1⟩, h2⟩
      exact ⟨rest, ⟨rfl, rfl⟩, h1, h2⟩
    · rintro ⟨fs, ⟨rfl, rfl⟩, h1, h2⟩
      exact ⟨⟨rfl, h1⟩, h2⟩

theorem matchUnsigned_iff (bs : Bytes) : matchUnsigned bs = true ↔
    ∃ ds frac, bs = ds ++ frac ∧ Digits ds ∧ (frac = [] ∨ ∃ fs, frac = 0x2e :: fs ∧ Digits fs) := by
  unfold matchUnsigned
  rw [Bool.and_eq_true, matchFraction_iff, Bool.not_eq_true']
  constructor
  · rintro ⟨h1, h2⟩
    exact ⟨_, _, List.takeWhile_append_dropWhile.symm, (digits_iff _).mpr ⟨h1, List.all_takeWhile⟩, h2⟩
  · rintro ⟨ds, frac, rfl, h1, h2⟩
    obtain ⟨h3, h4⟩ := (digits_iff _).mp h1
    have hf : frac.takeWhile isDigit = [] ∧ frac.dropWhile isDigit = frac := by
      rcases h2 with rfl | ⟨fs, rfl, _⟩
      · exact ⟨rfl, rfl⟩
      · exact ⟨rfl, rfl⟩
    have h4' : ∀ a ∈ ds, isDigit a = true := List.all_eq_true.mp h4
    rw [List.takeWhile_append_of_pos h4', List.dropWhile_append_of_pos h4', hf.1, hf.2, List.append_nil]
    exact ⟨h3, h2⟩

theorem matchNumber_iff (bs : Bytes) : matchNumber bs = true ↔ IsNumber bs := by
  unfold IsNumber
  cases bs with
  | nil =>
    simp only [matchNumber, Bool.false_eq_true, false_iff]
    rintro ⟨sign, ds, frac, h, _, hd, _⟩
    have := hd.1
    simp at h
    exact this h.2.1
  | cons b rest =>
    simp only [matchNumber]
    by_cases hb : b = 0x2d
    · subst hb
      rw [if_pos (by decide), matchUnsigned_iff]
      constructor
      · rintro ⟨ds, frac, rfl, h1, h2⟩
        exact ⟨[0x2d], ds, frac, rfl, Or.inr rfl, h1, h2⟩
      · rintro ⟨sign, ds, frac, h, hs, h1, h2⟩
        rcases hs with rfl | rfl
        · cases ds with
          | nil => exact absurd rfl h1.1
          | cons d ds =>
            simp only [List.nil_append, List.cons_append, List.cons.injEq] at h
            have := (h1.2 d (by simp)).1
            rw [← h.1] at this
            simp at this
        · simp only [List.cons_append, List.nil_append, List.cons.injEq, true_and] at h
          exact ⟨ds, frac, h, h1, h2⟩
    · rw [if_neg (by simpa using hb), matchUnsigned_iff]
      constructor
      · rintro ⟨ds, frac, h, h1, h2⟩
        exact ⟨[], ds, frac, h, Or.inl rfl, h1, h2⟩
      · rintro ⟨sign, ds, frac, h, hs, h1, h2⟩
        rcases hs with rfl | rfl
        · exact ⟨ds, frac, h, h1, h2⟩
        · simp only [List.cons_append, List.nil_append, List.cons.injEq] at h
          exact absurd h.1 hb

theorem isNumber_head {bs : Bytes} (h : IsNumber bs) : bs.dropWhile (· == 0x20) = bs := by
  obtain ⟨sign, ds, frac, rfl, hs, hd, _⟩ := h
  cases ds with
  | nil => exact absurd rfl hd.1
  | cons d ds =>
    rcases hs with rfl | rfl
    · rw [List.nil_append, List.cons_append, List.dropWhile_cons_of_neg]
      have := hd.2 d (by simp)
      intro h
      have : d = 0x20 := by simpa using h
      subst this
      simp at *
    · rfl

theorem numeric_spec (bytes : Bytes) :
    (∀ s, dbfNumericToValidString bytes = .ok s ↔
      ∃ k num, bytes = List.replicate k 0x20 ++ num ∧ IsNumber num ∧ s = num.map fun b => Char.ofNat b.toNat) ∧
    ((¬ ∃ k num, bytes = List.replicate k 0x20 ++ num ∧ IsNumber num) →
      dbfNumericToValidString bytes = .error (.parse .notANumber)) := by
  have hsplit : ∃ k, bytes = List.replicate k 0x20 ++ bytes.dropWhile (· == 0x20) := by
    refine ⟨(bytes.takeWhile (· == 0x20)).length, ?_⟩
    conv_lhs => rw [← List.takeWhile_append_dropWhile (p := (· == 0x20)) (l := bytes)]
    congr 1
    apply List.eq_replicate_of_mem
    intro b hb
    have := List.all_eq_true.mp (List.all_takeWhile (l := bytes) (p := (· == 0x20))) b hb
    simpa using this
  have huniq : ∀ k num, bytes = List.replicate k 0x20 ++ num → IsNumber num → bytes.dropWhile (· == 0x20) = num := by
    rintro k num rfl hn
    rw [List.dropWhile_append_of_pos (by intro a ha; simp [List.eq_of_mem_replicate ha])]
    exact isNumber_head hn
  unfold dbfNumericToValidString
  simp only
  by_cases hm : matchNumber (bytes.dropWhile (· == 0x20)) = true
  · rw [if_pos hm]
    have hn := (matchNumber_iff _).mp hm
    obtain ⟨k, hk⟩ := hsplit
    refine ⟨fun s => ⟨fun h => ⟨k, _, hk, hn, (Except.ok.inj h).symm⟩, ?_⟩, fun h => absurd ⟨k, _, hk, hn⟩ h⟩
    rintro ⟨k', num, h1, h2, rfl⟩
    rw [huniq k' num h1 h2]
  · rw [if_neg hm]
    refine ⟨fun s => ⟨fun h => by simp at h, ?_⟩, fun _ => rfl⟩
    rintro ⟨k', num, h1, h2, rfl⟩
    rw [huniq k' num h1 h2] at hm
    exact absurd ((matchNumber_iff _).mpr h2) hm

theorem trimEndSpaces_spec (bytes : Bytes) :
    (∃ k, bytes = trimEndSpaces bytes ++ List.replicate k 0x20) ∧ (trimEndSpaces bytes).getLast? ≠ some 0x20 := by
  have h1 := take_findIdx? (fun b => b != (0x20 : UInt8)) bytes.reverse bytes.length (by simp)
  generalize hn : (bytes.reverse.findIdx? (fun b => b != 0x20)).getD bytes.length = n at h1
  have h2 : bytes.reverse.drop n = bytes.reverse.dropWhile fun x => !(x != 0x20) := by
    have h3 : bytes.reverse.take n ++ bytes.reverse.drop n = bytes.reverse := List.take_append_drop _ _
    rw [h1] at h3
    have h4 := List.takeWhile_append_dropWhile (p := fun x => !(x != (0x20 : UInt8))) (l := bytes.reverse)
    exact List.append_cancel_left (h3.trans h4.symm)
  have h5 : trimEndSpaces bytes = (bytes.reverse.dropWhile fun x => !(x != 0x20)).reverse := by
    rw [← h2, List.drop_reverse, List.reverse_reverse]
    unfold trimEndSpaces
    simp only
    rw [hn]
  constructor
  · refine ⟨(bytes.reverse.takeWhile fun x => !(x != 0x20)).length, ?_⟩
    rw [h5]
    conv_lhs => rw [← List.reverse_reverse bytes, ← List.takeWhile_append_dropWhile (p := fun x => !(x != (0x20 : UInt8)))
      (l := bytes.reverse), List.reverse_append]
    congr 1
    rw [List.eq_replicate_iff]
    refine ⟨by simp, ?_⟩
    intro b hb
    have := List.all_eq_true.mp (List.all_takeWhile (l := bytes.reverse) (p := fun x => !(x != 0x20))) b (by simpa using hb)
    simpa using this
  · rw [h5, List.getLast?_reverse]
    cases hd : bytes.reverse.dropWhile (fun x => !(x != 0x20)) with
    | nil => simp
    | cons a l =>
      have := List.head_dropWhile_not (fun x : UInt8 => !(x != 0x20)) (l := bytes.reverse) (by rw [hd]; simp)
      simp only [hd, List.head_cons] at this
      simpa using this

theorem slice_fieldBytes {f : DbfField} {record bytes : Bytes} (h : FieldBytes f record bytes) :
    slice record f.offset (f.offset + f.len) = .ok bytes := by
  obtain ⟨before, after, h1, h2, h3⟩ := h
  exact slice_middle h1 h2 (by omega)

theorem slice_outside {f : DbfField} {record : Bytes} (h : ¬ ∃ bytes, FieldBytes f record bytes) :
    slice record f.offset (f.offset + f.len) = .error .index := by
  unfold slice
  rw [if_neg]
  rintro ⟨_, h2⟩
  refine h ⟨(record.drop f.offset).take f.len, record.take f.offset, (record.drop f.offset).drop f.len, ?_, ?_, ?_⟩
  · rw [List.append_assoc, List.take_append_drop, List.take_append_drop]
  · simp; omega
  · simp; omega

theorem isDecimal_toDigits (n : Nat) : IsDecimal (Nat.toDigits 10 n) n := by
  refine ⟨Nat.toDigits_ne_nil, ?_, ?_, ?_⟩
  · intro c hc
    have h := Nat.isDigit_of_mem_toDigits (by omega) (by omega) hc
    unfold Char.isDigit at h
    simp only [Bool.and_eq_true, decide_eq_true_eq, ge_iff_le, UInt32.le_iff_toNat_le] at h
    exact h
  · induction n using Nat.strongRecOn with
    | _ n ih =>
      intro h
      by_cases hn : n < 10
      · rw [Nat.toDigits_of_lt_base hn] at h ⊢
        simpa using h
      · rw [Nat.toDigits_of_base_le (by omega) (by omega)] at h
        rw [List.head?_append_of_ne_nil _ Nat.toDigits_ne_nil] at h
        have h1 := ih (n / 10) (by omega) h
        have h2 : Nat.ofDigitChars 10 (Nat.toDigits 10 (n / 10)) 0 = n / 10 := Nat.ofDigitChars_ten_toDigits
        rw [h1] at h2
        have h3 : (0 : Nat) = n / 10 := h2
        omega
  · exact Nat.ofDigitChars_ten_toDigits

/-! ## Opening -/

theorem wholes_eq_range {k : Nat} (hk : 0 < k) (l : Bytes) :
    wholes k l = (List.range (l.length / k)).map fun i => (l.drop (k * i)).take k := by
  induction hn : l.length using Nat.strongRecOn generalizing l with
  | _ n ih =>
    subst hn
    by_cases h : l.length < k
    · rw [wholes_short h, Nat.div_eq_of_lt h]; rfl
    · rw [wholes_long hk (by omega), ih (l.drop k).length (by simp; omega) (l.drop k) rfl, List.length_drop]
      have : l.length / k = (l.length - k) / k + 1 := by
        rw [← Nat.add_div_right _ hk]; congr 1; omega
      rw [this, List.range_succ_eq_map, List.map_cons, List.map_map]
      simp only [Nat.mul_zero, List.drop_zero, List.cons.injEq, true_and]
      apply List.map_congr_left
      intro i _
      simp only [Function.comp, List.drop_drop]
      congr 2
      rw [Nat.succ_eq_add_one, Nat.mul_add, Nat.mul_one, Nat.add_comm]

theorem descriptors_eq {bs : Bytes} (h : headerLength bs ≤ bs.length) (h32 : 32 ≤ headerLength bs) :
    wholes 32 ((bs.drop 32).take (headerLength bs - 32)) = descriptors bs := by
  rw [wholes_eq_range (by omega)]
  unfold descriptors
  have hl : ((bs.drop 32).take (headerLength bs - 32)).length = headerLength bs - 32 := by simp; omega
  rw [hl]
  apply List.map_congr_left
  intro i hi
  rw [List.mem_range] at hi
  rw [List.drop_take, List.take_take, List.drop_drop]
  congr 1
  have : 32 * i + 32 ≤ headerLength bs - 32 := by
    have := Nat.div_mul_le_self (headerLength bs - 32) 32
    omega
  omega

theorem descriptors_length {bs : Bytes} (h : headerLength bs ≤ bs.length) : ∀ d ∈ descriptors bs, d.length = 32 := by
  intro d hd
  unfold descriptors at hd
  obtain ⟨i, hi, rfl⟩ := List.mem_map.mp hd
  rw [List.mem_range] at hi
  have := Nat.div_mul_le_self (headerLength bs - 32) 32
  simp
  omega

theorem opening_endsAs (m : Build) {enc : Encoding} {bs : Bytes} {v : OpenDbf} (h : Opening enc bs v) :
    EndsAs (DbfReader.new m (⟨bs⟩ : MemFile) enc) v := by
  rw [dbfNew_eq]
  have hhl : headerLength (bs.take 32) = headerLength bs := by
    unfold headerLength
    rw [List.drop_take, List.take_take]
    rfl
  have hget : ∀ {i a}, i < 32 → bs[i]? = some a → (bs.take 32)[i]?.getD 0 = a := by
    intro i a hi ha
    rw [List.getElem?_take_of_lt hi, ha]; rfl
  have hdate : ∀ {month day : UInt8}, bs[2]? = some month → bs[3]? = some day → month ≤ 12 → day ≤ 31 →
      ¬ ((bs.take 32)[2]?.getD 0 > 12 ∨ (bs.take 32)[3]?.getD 0 > 31) := by
    intro month day h1 h2 h3 h4
    rw [hget (by omega) h1, hget (by omega) h2]
    rintro (h5 | h5)
    · exact absurd h3 (UInt8.not_le.mpr h5)
    · exact absurd h4 (UInt8.not_le.mpr h5)
  have hnames := parseDbfFields_spec enc (descriptors bs)
  cases h with
  | short h1 =>
    rw [memFile_error (by simpa using h1)]
    exact ⟨_, rfl⟩
  | badDate month day h1 h2 h3 h4 =>
    rw [memFile_ok (by simpa using h1)]
    simp only
    rw [if_pos (by rw [hget (by omega) h2, hget (by omega) h3]; exact h4)]
    rfl
  | panics month day h1 h2 h3 h4 h5 h6 =>
    rw [memFile_ok (by simpa using h1)]
    simp only
    rw [if_neg (hdate h2 h3 h4 h5), hhl, if_pos h6]
    exact ⟨_, rfl⟩
  | truncated month day h1 h2 h3 h4 h5 h6 h7 =>
    rw [memFile_ok (by simpa using h1)]
    simp only
    rw [if_neg (hdate h2 h3 h4 h5), hhl, if_neg (by omega), memFile_error (by simp; omega)]
    exact ⟨_, rfl⟩
  | badName month day h2 h3 h4 h5 h6 h7 h8 =>
    rw [memFile_ok (by show 32 ≤ bs.length; omega)]
    simp only
    rw [if_neg (hdate h2 h3 h4 h5), hhl, if_neg (by omega), memFile_ok (by simp; omega)]
    simp only
    rw [descriptors_eq h7 h6]
    rcases parseDbfFields_spec enc (descriptors bs) (descriptors_length h7) 1 [] with ⟨fields, _, _, _, k4⟩ | ⟨k1, _⟩
    · obtain ⟨d, hd, h8⟩ := h8
      exact absurd (k4 d hd) h8
    · rw [k1]; rfl
  | opens month day h2 h3 h4 h5 h6 h7 h8 =>
    rw [memFile_ok (by show 32 ≤ bs.length; omega)]
    simp only
    rw [if_neg (hdate h2 h3 h4 h5), hhl, if_neg (by omega), memFile_ok (by simp; omega)]
    simp only
    rw [descriptors_eq h7 h6]
    rcases parseDbfFields_spec enc (descriptors bs) (descriptors_length h7) 1 [] with ⟨fields, k1, _⟩ | ⟨_, d, k2, k3⟩
    · rw [k1]; exact ⟨_, rfl⟩
    · exact absurd (h8 d k2) k3

theorem opening_total (enc : Encoding) (bs : Bytes) : ∃ v, Opening enc bs v := by
  by_cases h1 : bs.length < 32
  · exact ⟨_, .short h1⟩
  · obtain ⟨month, hm⟩ := getElem?_lt (l := bs) (i := 2) (by omega)
    obtain ⟨day, hd⟩ := getElem?_lt (l := bs) (i := 3) (by omega)
    by_cases h2 : 12 < month
    · exact ⟨_, .badDate month day (by omega) hm hd (Or.inl h2)⟩
    by_cases h3 : 31 < day
    · exact ⟨_, .badDate month day (by omega) hm hd (Or.inr h3)⟩
    have h2 := UInt8.not_lt.mp h2
    have h3 := UInt8.not_lt.mp h3
    by_cases h4 : headerLength bs < 32
    · exact ⟨_, .panics month day (by omega) hm hd h2 h3 h4⟩
    by_cases h5 : bs.length < headerLength bs
    · exact ⟨_, .truncated month day (by omega) hm hd h2 h3 (by omega) h5⟩
    by_cases h6 : ∃ d ∈ descriptors bs, ¬ Encoding.accepts enc (rawName d)
    · exact ⟨_, .badName month day hm hd h2 h3 (by omega) (by omega) h6⟩
    · exact ⟨_, .opens month day hm hd h2 h3 (by omega) (by omega) fun d hd => by
        by_contra h; exact h6 ⟨d, hd, h⟩⟩

theorem endsAs_unique {ρ : Type} {x : R (Except DbfError ρ)} {v w : OpenDbf} (hv : EndsAs x v) (hw : EndsAs x w) : v = w := by
  cases v <;> cases w <;> simp only [EndsAs] at hv hw <;>
    first
    | rfl
    | (obtain ⟨_, rfl⟩ := hv; simp at hw)
    | (obtain ⟨_, rfl⟩ := hw; simp at hv)
    | (subst hv; simp at hw)

/-! ## Written files -/

theorem takeWhile_name {raw rest : Bytes} (h0 : 0 ∉ raw) (hr : rest = [] ∨ rest.head? = some 0) :
    (raw ++ rest).takeWhile (· ≠ 0) = raw := by
  rw [List.takeWhile_append_of_pos (by intro a ha; simp; rintro rfl; exact h0 ha)]
  have : rest.takeWhile (· ≠ 0) = [] := by
    rcases hr with rfl | hr
    · rfl
    · cases rest with
      | nil => rfl
      | cons a rest =>
        have : a = 0 := by simpa using hr
        subst this
        simp
  rw [this, List.append_nil]

/-- The first 11 bytes of a descriptor. -/
theorem writeColumn_take {c : Column} (h : c.name.length ≤ 11) :
    (writeColumn c).take 11 = c.name ++ List.replicate (11 - c.name.length) 0 := by
  unfold writeColumn
  rw [List.append_assoc, List.take_left' (by simp; omega)]

theorem writeColumn_length {c : Column} (h : c.name.length ≤ 11) : (writeColumn c).length = 32 := by
  unfold writeColumn
  simp
  omega

theorem writeColumn_get {c : Column} (h : c.name.length ≤ 11) :
    (writeColumn c)[11]? = some c.code ∧ (writeColumn c)[16]? = some (UInt8.ofNat c.len) := by
  unfold writeColumn
  have hl : (c.name ++ List.replicate (11 - c.name.length) (0 : UInt8)).length = 11 := by simp; omega
  rw [List.append_assoc]
  constructor
  · rw [List.getElem?_append_right (by omega), hl]; rfl
  · rw [List.getElem?_append_right (by omega), hl]; rfl

theorem padding (n : Nat) : List.replicate n (0 : UInt8) = [] ∨ (List.replicate n (0 : UInt8)).head? = some 0 := by
  cases n with
  | zero => exact Or.inl rfl
  | succ n => exact Or.inr rfl

theorem rawName_writeColumn {c : Column} (h : c.name.length ≤ 11) (h0 : 0 ∉ c.name) : rawName (writeColumn c) = c.name := by
  unfold rawName
  rw [writeColumn_take h]
  exact takeWhile_name h0 (padding _)

theorem isField_of_describes {enc : Encoding} {c : Column} {f : DbfField} (h : c.name.length ≤ 11) (h0 : 0 ∉ c.name)
    (hl : c.len < 256) (hd : Describes enc (writeColumn c) f) : IsField enc c f := by
  obtain ⟨⟨raw, rest, h1, h2, h3, h4⟩, ⟨code, h5, h6⟩, len, h7, h8⟩ := hd
  obtain ⟨g1, g2⟩ := writeColumn_get h
  rw [g1] at h5
  rw [g2] at h7
  obtain rfl := Option.some.inj h5
  obtain rfl := Option.some.inj h7
  refine ⟨?_, h6, ?_⟩
  · have h9 := takeWhile_name h2 h3
    rw [← h1, writeColumn_take h, takeWhile_name h0 (padding _)] at h9
    rw [h9]
    exact h4
  · rw [h8]
    simp
    omega

theorem writeDbf_open (m : Build) (enc : Encoding) (t : Table) (h : Fits enc t) (tail : Bytes) :
    ∃ fields, DbfReader.new m (⟨writeDbf t ++ tail⟩ : MemFile) enc =
        .ok (.ok ⟨⟨t.records.flatten ++ tail⟩, 0, ⟨t.records.length, t.recordLength, fields⟩⟩) ∧
      List.Forall₂ (IsField enc) t.columns fields ∧ Tiled 1 fields := by
  generalize hH : [t.version, t.year, t.month, t.day] ++ leBytes 4 t.records.length ++
    leBytes 2 (33 + 32 * t.columns.length) ++ leBytes 2 t.recordLength ++ List.replicate 20 0 = H
  have hHl : H.length = 32 := by rw [← hH]; simp [leBytes_length]
  have hbs : writeDbf t ++ tail = H ++ (((t.columns.map writeColumn).flatten ++ [0x0d]) ++ (t.records.flatten ++ tail)) := by
    unfold writeDbf
    rw [hH, List.flatMap_def]
    simp only [List.append_assoc]
  have hcols : ∀ d ∈ t.columns.map writeColumn, d.length = 32 := by
    intro d hd
    obtain ⟨c, hc, rfl⟩ := List.mem_map.mp hd
    exact writeColumn_length (h.columns c hc).1
  have hD : ((t.columns.map writeColumn).flatten ++ [(0x0d : UInt8)]).length = 33 + 32 * t.columns.length - 32 := by
    have : ∀ ds : List Bytes, (∀ d ∈ ds, d.length = 32) → ds.flatten.length = 32 * ds.length := by
      intro ds hds
      induction ds with
      | nil => rfl
      | cons d ds ih =>
        rw [List.flatten_cons, List.length_append, hds d (by simp), ih fun x hx => hds x (by simp [hx]), List.length_cons]
        omega
    rw [List.length_append, this _ hcols, List.length_map, List.length_singleton]
    omega
  rw [hbs, dbfNew_eq, memFile_ok (by simp; omega), List.take_left' hHl, List.drop_left' hHl]
  simp only
  have h2 : H[2]? = some t.month := by rw [← hH]; rfl
  have h3 : H[3]? = some t.day := by rw [← hH]; rfl
  have h4 : (H.drop 4).take 4 = leBytes 4 t.records.length := by rw [← hH]; rfl
  have h8 : (H.drop 8).take 2 = leBytes 2 (33 + 32 * t.columns.length) := by rw [← hH]; rfl
  have h10 : (H.drop 10).take 2 = leBytes 2 t.recordLength := by rw [← hH]; rfl
  have hhl : headerLength H = 33 + 32 * t.columns.length := by
    unfold headerLength
    rw [h8]
    exact leNat_leBytes h.header
  rw [h2, h3, if_neg (by
    simp only [Option.getD_some]
    rintro (h5 | h5)
    · exact absurd h.month (UInt8.not_le.mpr h5)
    · exact absurd h.day (UInt8.not_le.mpr h5)), hhl, if_neg (by omega), memFile_ok (by rw [List.length_append, hD]; omega),
    List.take_left' hD, List.drop_left' hD]
  simp only
  rw [wholes_flatten (by omega) hcols (by simp), h4, h10, leNat_leBytes (k := 4) h.records, leNat_leBytes (k := 2) h.recordLength]
  rcases parseDbfFields_spec enc (t.columns.map writeColumn) hcols 1 [] with ⟨fields, k1, k2, k3, _⟩ | ⟨_, d, k2, k3⟩
  · refine ⟨fields, by rw [k1]; rfl, ?_, k3⟩
    rw [List.forall₂_map_left_iff] at k2
    have : ∀ (cs : List Column) (fs : List DbfField), (∀ c ∈ cs, c ∈ t.columns) →
        List.Forall₂ (fun c f => Describes enc (writeColumn c) f) cs fs → List.Forall₂ (IsField enc) cs fs := by
      intro cs fs hcs hk
      induction hk with
      | nil => exact .nil
      | cons hd _ ih =>
        have hc := h.columns _ (hcs _ List.mem_cons_self)
        exact .cons (isField_of_describes hc.1 hc.2.1 hc.2.2.1 hd) (ih fun x hx => hcs x (by simp [hx]))
    exact this _ _ (fun c hc => hc) k2
  · obtain ⟨c, hc, rfl⟩ := List.mem_map.mp k2
    have hc := h.columns c hc
    rw [rawName_writeColumn hc.1 hc.2.1] at k3
    exact absurd hc.2.2.2 k3

end TopoGeo
