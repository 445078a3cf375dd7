import Verif.Proofs.Basic
import Verif.Proofs.Delivery
/-!
# Readers of two sources of which one gives what the other does, until it fails
-/

namespace TopoGeo
open Spec

/-- The first source gives what the second does, or fails with one of the errors `E`,
and then the second is past some point. -/
structure Follows {σ τ : Type} [Source σ] [Source τ] (E : IoError → Prop) (Past : τ → Prop) (rel : σ → τ → Prop) : Prop where
  step : ∀ s t n, rel s t →
    (∃ r s' t', Source.readExact s n = (r, s') ∧ Source.readExact t n = (r, t') ∧ rel s' t') ∨
    (∃ e s' r t', Source.readExact s n = (.error e, s') ∧ E e ∧ Source.readExact t n = (r, t') ∧ Past t')
  past : ∀ (t : τ) (n : Nat) (r : Except IoError Bytes) (t' : τ), Past t → Source.readExact t n = (r, t') → Past t'

/-- Two outcomes are the same, with related states, or the first is special. -/
inductive StateKept {ο ι κ : Type} (rel : ι → κ → Prop) (Io : ο → Prop) (P : ο → κ → Prop) : R (ο × ι) → R (ο × κ) → Prop
  | panic (p : Panic) : StateKept rel Io P (.error p) (.error p)
  | same (o : ο) (a : ι) (b : κ) (h : rel a b) : StateKept rel Io P (.ok (o, a)) (.ok (o, b))
  | broke (o : ο) (a : ι) (y : R (ο × κ)) (h : Io o) (hp : ∀ o' b, y = .ok (o', b) → P o' b) : StateKept rel Io P (.ok (o, a)) y

/-- Same, for a constructor that may fail. -/
inductive Opened {ε ι κ : Type} (rel : ι → κ → Prop) (Io : ε → Prop) (P : κ → Prop) : R (Except ε ι) → R (Except ε κ) → Prop
  | panic (p : Panic) : Opened rel Io P (.error p) (.error p)
  | error (e : ε) : Opened rel Io P (.ok (.error e)) (.ok (.error e))
  | ok (a : ι) (b : κ) (h : rel a b) : Opened rel Io P (.ok (.ok a)) (.ok (.ok b))
  | broke (e : ε) (y : R (Except ε κ)) (h : Io e) (hp : ∀ b, y = .ok (.ok b) → P b) : Opened rel Io P (.ok (.error e)) y

section
variable {σ τ : Type} [Source σ] [Source τ] {E : IoError → Prop} {Past : τ → Prop} {rel : σ → τ → Prop}

theorem readShpHeader_past (hf : Follows E Past rel) {m : Build} {t t' : τ} {o : Except ShpError ShpHeader} (hp : Past t)
    (h : readShpHeader m t = .ok (o, t')) : Past t' := by
  unfold readShpHeader at h
  split at h
  · next hr => cases h; exact hf.past _ _ _ _ hp hr
  · next hr =>
    rw [bind_ok] at h
    obtain ⟨r, -, h⟩ := h
    cases h
    exact hf.past _ _ _ _ hp hr

theorem readShpHeader_kept (hf : Follows E Past rel) (m : Build) {s : σ} {t : τ} (hr : rel s t) :
    StateKept rel (fun o => ∃ e, E e ∧ o = .error (.io e)) (fun _ t' => Past t') (readShpHeader m s) (readShpHeader m t) := by
  rcases hf.step s t 100 hr with ⟨r, s', t', h1, h2, h3⟩ | ⟨e, s', r, t', h1, he, h2, hp⟩
  · unfold readShpHeader
    rw [h1, h2]
    cases r with
    | error e => exact .same _ _ _ h3
    | ok buf =>
      dsimp only
      cases hh : parseShpHeader m buf with
      | error p => exact .panic p
      | ok r => exact .same _ _ _ h3
  · have : readShpHeader m s = .ok (.error (.io e), s') := by unfold readShpHeader; rw [h1]
    rw [this]
    refine .broke _ _ _ ⟨e, he, rfl⟩ ?_
    intro o' b hb
    unfold readShpHeader at hb
    rw [h2] at hb
    cases r with
    | error e => cases hb; exact hp
    | ok buf =>
      dsimp only at hb
      rw [bind_ok] at hb
      obtain ⟨r, -, hb⟩ := hb
      cases hb
      exact hp

/-- Readers of `.shp` files at the same place. -/
def ShpRel (rel : σ → τ → Prop) (a : ShpReader σ) (b : ShpReader τ) : Prop :=
  rel a.file b.file ∧ a.nBytesAlreadyRead = b.nBytesAlreadyRead ∧ a.header = b.header

theorem shpNew_opened (hf : Follows E Past rel) (m : Build) {s : σ} {t : τ} (hr : rel s t) :
    Opened (ShpRel rel) (fun err => ∃ e, E e ∧ err = ShpError.io e) (fun b => Past b.file) (ShpReader.new m s) (ShpReader.new m t) := by
  unfold ShpReader.new
  generalize hx : readShpHeader m s = x
  generalize hy : readShpHeader m t = y
  have := readShpHeader_kept hf m hr
  rw [hx, hy] at this
  cases this with
  | panic p => exact .panic p
  | same o a b h =>
    cases o with
    | error e => exact .error e
    | ok header => exact .ok _ _ ⟨h, rfl, rfl⟩
  | broke o a y h hp =>
    obtain ⟨e, he, rfl⟩ := h
    refine .broke _ _ ⟨e, he, rfl⟩ ?_
    intro b hb
    rw [bind_ok] at hb
    obtain ⟨⟨o', t'⟩, h1, h2⟩ := hb
    cases o' with
    | error e => cases h2
    | ok header => cases h2; exact hp _ _ h1

theorem readPolygonRecord_past (hf : Follows E Past rel) {t t' : τ} {o : Except ShpError (ShpPolygonRecord × Nat)} (hp : Past t)
    (h : readPolygonRecord t = .ok (o, t')) : Past t' := by
  unfold readPolygonRecord at h
  split at h
  · next hr => cases h; exact hf.past _ _ _ _ hp hr
  · next hr =>
    have hp1 := hf.past _ _ _ _ hp hr
    rw [bind_ok] at h
    obtain ⟨number, -, h⟩ := h
    rw [bind_ok] at h
    obtain ⟨len, -, h⟩ := h
    split at h
    · next hr2 => cases h; exact hf.past _ _ _ _ hp1 hr2
    · next hr2 =>
      have hp2 := hf.past _ _ _ _ hp1 hr2
      rw [bind_ok] at h
      obtain ⟨r, -, h⟩ := h
      split at h <;> (cases h; exact hp2)

theorem readPolygonRecord_kept (hf : Follows E Past rel) {s : σ} {t : τ} (hr : rel s t) :
    StateKept rel (fun o => ∃ e, E e ∧ o = .error (.io e)) (fun _ t' => Past t') (readPolygonRecord s) (readPolygonRecord t) := by
  rcases hf.step s t 8 hr with ⟨r, s', t', h1, h2, h3⟩ | ⟨e, s', r, t', h1, he, h2, hp⟩
  · unfold readPolygonRecord
    rw [h1, h2]
    cases r with
    | error e => exact .same _ _ _ h3
    | ok buf =>
      dsimp only
      cases hn : u32beAt buf 0 4 with
      | error p => exact .panic p
      | ok number =>
        simp only [ok_bind]
        cases hl : u32beAt buf 4 8 with
        | error p => exact .panic p
        | ok len =>
          simp only [ok_bind]
          rcases hf.step s' t' (len * 2) h3 with ⟨r, s2, t2, g1, g2, g3⟩ | ⟨e, s2, r, t2, g1, he, g2, hp⟩
          · rw [g1, g2]
            cases r with
            | error e => exact .same _ _ _ g3
            | ok content =>
              dsimp only
              cases hc : parsePolygonRecord content number with
              | error p => exact .panic p
              | ok r =>
                simp only [ok_bind]
                cases r with
                | error e => exact .same _ _ _ g3
                | ok record => exact .same _ _ _ g3
          · rw [g1, g2]
            refine .broke _ _ _ ⟨e, he, rfl⟩ ?_
            intro o' b hb
            cases r with
            | error e => cases hb; exact hp
            | ok content =>
              dsimp only at hb
              rw [bind_ok] at hb
              obtain ⟨r, -, hb⟩ := hb
              split at hb <;> (cases hb; exact hp)
  · have : readPolygonRecord s = .ok (.error (.io e), s') := by unfold readPolygonRecord; rw [h1]
    rw [this]
    refine .broke _ _ _ ⟨e, he, rfl⟩ ?_
    intro o' b hb
    unfold readPolygonRecord at hb
    rw [h2] at hb
    cases r with
    | error e => cases hb; exact hp
    | ok buf =>
      dsimp only at hb
      rw [bind_ok] at hb
      obtain ⟨number, -, hb⟩ := hb
      rw [bind_ok] at hb
      obtain ⟨len, -, hb⟩ := hb
      split at hb
      · next hr2 => cases hb; exact hf.past _ _ _ _ hp hr2
      · next hr2 =>
        have hp2 := hf.past _ _ _ _ hp hr2
        rw [bind_ok] at hb
        obtain ⟨r, -, hb⟩ := hb
        split at hb <;> (cases hb; exact hp2)

theorem shpNext_past (hf : Follows E Past rel) {r r' : ShpReader τ} {o : Option (Except ShpError ShpPolygonRecord)}
    (hp : Past r.file) (h : r.next = .ok (o, r')) : Past r'.file := by
  unfold ShpReader.next at h
  split at h
  · cases h; exact hp
  · rw [bind_ok] at h
    obtain ⟨⟨res, t'⟩, h1, h⟩ := h
    have hp' := readPolygonRecord_past hf hp h1
    dsimp only at h
    split at h
    · cases h; exact hp'
    · split at h <;> (cases h; exact hp')

theorem shpNext_kept (hf : Follows E Past rel) {a : ShpReader σ} {b : ShpReader τ} (hr : ShpRel rel a b) :
    StateKept (ShpRel rel) (fun o => ∃ e, E e ∧ o = some (.error (.io e))) (fun o' b' => o'.isSome ∧ Past b'.file) a.next b.next := by
  obtain ⟨h1, h2, h3⟩ := hr
  unfold ShpReader.next
  rw [h2, h3]
  by_cases hn : b.nBytesAlreadyRead ≥ b.header.fileNBytes
  · rw [if_pos hn, if_pos hn]
    exact .same _ _ _ ⟨h1, h2, h3⟩
  · rw [if_neg hn, if_neg hn]
    generalize hx : readPolygonRecord a.file = x
    generalize hy : readPolygonRecord b.file = y
    have := readPolygonRecord_kept hf h1
    rw [hx, hy] at this
    cases this with
    | panic p => exact .panic p
    | same o a' b' h =>
      cases o with
      | error e => exact .same _ _ _ ⟨h, rfl, rfl⟩
      | ok rn =>
        simp only [ok_bind]
        by_cases hl : b.nBytesAlreadyRead + rn.2 > b.header.fileNBytes
        · rw [if_pos hl, if_pos hl]
          exact .same _ _ _ ⟨h, rfl, rfl⟩
        · rw [if_neg hl, if_neg hl]
          exact .same _ _ _ ⟨h, rfl, rfl⟩
    | broke o a' y h hp =>
      obtain ⟨e, he, rfl⟩ := h
      refine .broke _ _ _ ⟨e, he, rfl⟩ ?_
      intro o' b' hb
      rw [bind_ok] at hb
      obtain ⟨⟨res, t'⟩, g1, hb⟩ := hb
      have hp' := hp _ _ g1
      dsimp only at hb
      split at hb
      · cases hb; exact ⟨rfl, hp'⟩
      · split at hb <;> (cases hb; exact ⟨rfl, hp'⟩)

/-- Readers of `.dbf` files at the same place. -/
def DbfRel (rel : σ → τ → Prop) (a : DbfReader σ) (b : DbfReader τ) : Prop :=
  rel a.file b.file ∧ a.nRecordsAlreadyIterated = b.nRecordsAlreadyIterated ∧ a.dbfMeta = b.dbfMeta

theorem readDbfHeader_past (hf : Follows E Past rel) {t t' : τ} {o : Except DbfError DbfHeader} (hp : Past t)
    (h : readDbfHeader t = .ok (o, t')) : Past t' := by
  unfold readDbfHeader at h
  split at h
  · next hr => cases h; exact hf.past _ _ _ _ hp hr
  · next hr =>
    have hp' := hf.past _ _ _ _ hp hr
    split at h
    · split at h
      · cases h; exact hp'
      · simp only [bind_ok] at h
        obtain ⟨_, -, _, -, _, -, h⟩ := h
        cases h
        exact hp'
    · cases h

theorem readDbfHeader_kept (hf : Follows E Past rel) {s : σ} {t : τ} (hr : rel s t) :
    StateKept rel (fun o => ∃ e, E e ∧ o = .error (.io e)) (fun _ t' => Past t') (readDbfHeader s) (readDbfHeader t) := by
  rcases hf.step s t 32 hr with ⟨r, s', t', h1, h2, h3⟩ | ⟨e, s', r, t', h1, he, h2, hp⟩
  · unfold readDbfHeader
    rw [h1, h2]
    cases r with
    | error e => exact .same _ _ _ h3
    | ok buf =>
      dsimp only
      split
      · split
        · exact .same _ _ _ h3
        · cases readLE 4 (buf.drop 4) with
          | error p => exact .panic p
          | ok n =>
            cases readLE 2 (buf.drop 8) with
            | error p => exact .panic p
            | ok h =>
              cases readLE 2 (buf.drop 10) with
              | error p => exact .panic p
              | ok r => exact .same _ _ _ h3
      · exact .panic _
  · have : readDbfHeader s = .ok (.error (.io e), s') := by unfold readDbfHeader; rw [h1]
    rw [this]
    refine .broke _ _ _ ⟨e, he, rfl⟩ ?_
    intro o' b hb
    unfold readDbfHeader at hb
    rw [h2] at hb
    cases r with
    | error e => cases hb; exact hp
    | ok buf =>
      dsimp only at hb
      split at hb
      · split at hb
        · cases hb; exact hp
        · simp only [bind_ok] at hb
          obtain ⟨_, -, _, -, _, -, hb⟩ := hb
          cases hb
          exact hp
      · cases hb

theorem readDbfFields_past (hf : Follows E Past rel) {m : Build} {enc : Encoding} {hd : DbfHeader} {t t' : τ}
    {o : Except DbfError (List DbfField)} (hp : Past t) (h : readDbfFields m t enc hd = .ok (o, t')) : Past t' := by
  unfold readDbfFields at h
  split at h
  · cases h
  · split at h
    · next hr => cases h; exact hf.past _ _ _ _ hp hr
    · next hr =>
      have hp' := hf.past _ _ _ _ hp hr
      rw [bind_ok] at h
      obtain ⟨r, -, h⟩ := h
      cases h
      exact hp'

theorem readDbfFields_kept (hf : Follows E Past rel) (m : Build) (enc : Encoding) (hd : DbfHeader) {s : σ} {t : τ} (hr : rel s t) :
    StateKept rel (fun o => ∃ e, E e ∧ o = .error (.io e)) (fun _ t' => Past t') (readDbfFields m s enc hd) (readDbfFields m t enc hd) := by
  unfold readDbfFields
  by_cases hh : hd.nHeaderBytes < 32
  · rw [if_pos hh, if_pos hh]
    exact .panic _
  · rw [if_neg hh, if_neg hh]
    rcases hf.step s t (hd.nHeaderBytes - 32) hr with ⟨r, s', t', h1, h2, h3⟩ | ⟨e, s', r, t', h1, he, h2, hp⟩
    · rw [h1, h2]
      cases r with
      | error e => exact .same _ _ _ h3
      | ok buf =>
        dsimp only
        cases parseDbfFields enc 1 [] (chunks 32 buf) with
        | error p => exact .panic p
        | ok r => exact .same _ _ _ h3
    · rw [h1, h2]
      refine .broke _ _ _ ⟨e, he, rfl⟩ ?_
      intro o' b hb
      cases r with
      | error e => cases hb; exact hp
      | ok buf =>
        dsimp only at hb
        rw [bind_ok] at hb
        obtain ⟨r, -, hb⟩ := hb
        cases hb
        exact hp

theorem dbfNew_opened (hf : Follows E Past rel) (m : Build) (enc : Encoding) {s : σ} {t : τ} (hr : rel s t) :
    Opened (DbfRel rel) (fun err => ∃ e, E e ∧ err = DbfError.io e) (fun b => Past b.file) (DbfReader.new m s enc)
      (DbfReader.new m t enc) := by
  unfold DbfReader.new readDbfMeta
  generalize hx : readDbfHeader s = x
  generalize hy : readDbfHeader t = y
  have := readDbfHeader_kept hf hr
  rw [hx, hy] at this
  cases this with
  | panic p => exact .panic p
  | same o a b h =>
    cases o with
    | error e => exact .error e
    | ok hd =>
      simp only [ok_bind]
      generalize hx : readDbfFields m a enc hd = x
      generalize hy : readDbfFields m b enc hd = y
      have := readDbfFields_kept hf m enc hd h
      rw [hx, hy] at this
      cases this with
      | panic p => exact .panic p
      | same o a b h =>
        cases o with
        | error e => exact .error e
        | ok fields => exact .ok _ _ ⟨h, rfl, rfl⟩
      | broke o a y h hp =>
        obtain ⟨e, he, rfl⟩ := h
        refine .broke _ _ ⟨e, he, rfl⟩ ?_
        intro b hb
        simp only [bind_ok] at hb
        obtain ⟨⟨o1, t1⟩, ⟨⟨o2, t2⟩, h2, h3⟩, h4⟩ := hb
        cases o2 with
        | error e => cases h3; cases h4
        | ok fields => cases h3; cases h4; exact hp _ _ h2
  | broke o a y h hp =>
    obtain ⟨e, he, rfl⟩ := h
    refine .broke _ _ ⟨e, he, rfl⟩ ?_
    intro b hb
    simp only [bind_ok] at hb
    obtain ⟨⟨o1, t1⟩, ⟨⟨o2, t2⟩, h2, h3⟩, h4⟩ := hb
    cases o2 with
    | error e => cases h3; cases h4
    | ok hd =>
      simp only [bind_ok] at h3
      obtain ⟨⟨o3, t3⟩, h5, h3⟩ := h3
      have hp3 := readDbfFields_past hf (hp _ _ h2) h5
      cases o3 with
      | error e => cases h3; cases h4
      | ok fields => cases h3; cases h4; exact hp3

theorem dbfNext_past (hf : Follows E Past rel) (r : DbfReader τ) (hp : Past r.file) : Past r.next.2.file := by
  unfold DbfReader.next
  split
  · exact hp
  · unfold readDbfRecord
    match hr : Source.readExact r.file r.dbfMeta.nBytesPerRecord with
    | (.error e, t') => exact hf.past _ _ _ _ hp hr
    | (.ok buf, t') => exact hf.past _ _ _ _ hp hr

theorem dbfNext_kept (hf : Follows E Past rel) {a : DbfReader σ} {b : DbfReader τ} (hr : DbfRel rel a b) :
    (∃ o a' b', a.next = (o, a') ∧ b.next = (o, b') ∧ DbfRel rel a' b') ∨
    (∃ e a' o' b', a.next = (some (.error (.io e)), a') ∧ E e ∧ b.next = (some o', b') ∧ Past b'.file) := by
  obtain ⟨h1, h2, h3⟩ := hr
  unfold DbfReader.next
  rw [h2, h3]
  by_cases hn : b.nRecordsAlreadyIterated = b.dbfMeta.nRecords
  · rw [if_pos hn, if_pos hn]
    exact .inl ⟨_, _, _, rfl, rfl, h1, h2, h3⟩
  · rw [if_neg hn, if_neg hn]
    unfold readDbfRecord
    rcases hf.step a.file b.file b.dbfMeta.nBytesPerRecord h1 with ⟨r, s', t', g1, g2, g3⟩ | ⟨e, s', r, t', g1, he, g2, hp⟩
    · rw [g1, g2]
      cases r with
      | error e => exact .inl ⟨_, _, _, rfl, rfl, g3, rfl, rfl⟩
      | ok buf => exact .inl ⟨_, _, _, rfl, rfl, g3, rfl, rfl⟩
    · rw [g1, g2]
      cases r with
      | error e' => exact .inr ⟨e, _, _, _, rfl, he, rfl, hp⟩
      | ok buf => exact .inr ⟨e, _, _, _, rfl, he, rfl, hp⟩

end

end TopoGeo
