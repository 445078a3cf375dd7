import Verif.Proofs.DeliveryReaders
/-!
# Shapefiles that arrive only in part
-/

namespace TopoGeo
open Spec

/-! ## Sources -/

section
variable {ρ : Type} {read : ρ → Nat → Except ReadError Bytes × ρ} {ahead : ρ → Bytes} {broken : ρ → Option IoError}
  {waits : ρ → Nat} {Ok : ρ → Prop}

/-- All but `Q` bytes of a file arrive. -/
def AllBut (ahead : ρ → Bytes) (broken : ρ → Option IoError) (Ok : ρ → Prop) (E : IoError → Prop) (Q : Nat) (B : Prop) (f : ρ)
    (t : MemFile) : Prop :=
  Ok f ∧ ∃ q, q.length = Q ∧ t.data = ahead f ++ q ∧
    (broken f = none ∧ q = [] ∨ ∃ e, broken f = some e ∧ E e ∧ (0 < Q ∨ B))

theorem memFile_long {t : MemFile} {n : Nat} (h : n ≤ t.data.length) :
    Source.readExact t n = (.ok (t.data.take n), (⟨t.data.drop n⟩ : MemFile)) := by
  show (if n ≤ t.data.length then _ else _) = _
  rw [if_pos h]

theorem memFile_short {t : MemFile} {n : Nat} (h : ¬ n ≤ t.data.length) :
    Source.readExact t n = (.error .unexpectedEof, (⟨[]⟩ : MemFile)) := by
  show (if n ≤ t.data.length then _ else _) = _
  rw [if_neg h]

theorem memFile_past {Q : Nat} {B : Prop} (t : MemFile) (n : Nat) (r : Except IoError Bytes) (t' : MemFile)
    (hp : t.data.length < Q ∨ B) (h : Source.readExact t n = (r, t')) : t'.data.length < Q ∨ B := by
  rcases hp with hp | hp
  · left
    by_cases hn : n ≤ t.data.length
    · rw [memFile_long hn] at h
      cases h
      simp only [List.length_drop]
      omega
    · rw [memFile_short hn] at h
      cases h
      simp only [List.length_nil]
      omega
  · exact .inr hp

theorem allBut_follows [Source ρ] (law : ReadLaw read ahead broken waits Ok)
    (hs : ∀ f n, Source.readExact f n = readExactOf read (n + waits f + 1) f n) (E : IoError → Prop) (Q : Nat) (B : Prop) :
    Follows E (fun t : MemFile => t.data.length < Q ∨ B) (AllBut ahead broken Ok E Q B) where
  step := by
    rintro f t n ⟨hk, q, hq, ht, hb⟩
    have hlen : t.data.length = (ahead f).length + Q := by rw [ht, List.length_append, hq]
    by_cases hn : n ≤ (ahead f).length
    · obtain ⟨f', h1, h2, h3, h4⟩ := readExactOf_ok law hk hn
      left
      refine ⟨_, f', ⟨t.data.drop n⟩, (hs f n).trans h1, (memFile_long (by omega)).trans ?_, h4, q, hq, ?_, ?_⟩
      · rw [ht, List.take_append_of_le_length hn]
      · simp only
        rw [h2, ht, List.drop_append_of_le_length hn]
      · rw [h3]; exact hb
    · obtain ⟨f', h1, h2⟩ := readExactOf_error law hk (Nat.lt_of_not_le hn)
      rcases hb with ⟨hb, hq0⟩ | ⟨e, hb, he, hB⟩
      · left
        obtain ⟨h3, h4, h5⟩ := h2 hb
        subst hq0
        refine ⟨_, f', ⟨[]⟩, (hs f n).trans h1, ?_, h5, [], hq, ?_, .inl ⟨h4, rfl⟩⟩
        · rw [hb]
          exact memFile_short (by rw [ht, List.append_nil]; exact hn)
        · rw [h3]; rfl
      · right
        rw [hb] at h1
        by_cases hn2 : n ≤ t.data.length
        · refine ⟨e, f', _, _, (hs f n).trans h1, he, memFile_long hn2, ?_⟩
          simp only [List.length_drop]
          left; omega
        · refine ⟨e, f', _, _, (hs f n).trans h1, he, memFile_short hn2, ?_⟩
          simp only [List.length_nil]
          exact hB
  past := memFile_past

end

/-- A file that was cut off, and the whole file. -/
theorem truncated_follows (Q : Nat) (B : Prop) (hB : 0 < Q ∨ B) :
    Follows (fun e => e = .unexpectedEof) (fun t : MemFile => t.data.length < Q ∨ B)
      (fun s t : MemFile => ∃ q, q.length = Q ∧ t.data = s.data ++ q) where
  step := by
    rintro s t n ⟨q, hq, ht⟩
    have hlen : t.data.length = s.data.length + Q := by rw [ht, List.length_append, hq]
    by_cases hn : n ≤ s.data.length
    · left
      refine ⟨_, ⟨s.data.drop n⟩, ⟨t.data.drop n⟩, memFile_long hn, (memFile_long (by omega)).trans ?_, q, hq, ?_⟩
      · rw [ht, List.take_append_of_le_length hn]
      · simp only
        rw [ht, List.drop_append_of_le_length hn]
    · right
      by_cases hn2 : n ≤ t.data.length
      · refine ⟨_, _, _, _, memFile_short hn, rfl, memFile_long hn2, ?_⟩
        simp only [List.length_drop]
        left; omega
      · refine ⟨_, _, _, _, memFile_short hn, rfl, memFile_short hn2, ?_⟩
        simp only [List.length_nil]
        exact hB
  past := memFile_past

/-! ## Readers of two files -/

/-- The outcome of a `next` is the same, or is an error where a file broke off. -/
inductive NextKept {α ι κ : Type} (rel : ι → κ → Prop) (E : IoError → Prop) (P : κ → Prop) :
    R (Option (Except ShapefileError α) × ι) → R (Option (Except ShapefileError α) × κ) → Prop
  | panic (p : Panic) : NextKept rel E P (.error p) (.error p)
  | same (o : Option (Except ShapefileError α)) (a : ι) (b : κ) (h : rel a b) : NextKept rel E P (.ok (o, a)) (.ok (o, b))
  | broke (err : ShapefileError) (a : ι) (y : R (Option (Except ShapefileError α) × κ)) (e : IoError) (he : E e)
      (h : PassedOn err e ∨ (∃ p, y = .error p) ∨ ∃ b, y = .ok (some (.error err), b))
      (hp : ∀ o' b, y = .ok (o', b) → P b) : NextKept rel E P (.ok (some (.error err), a)) y

section
variable {σ τ σ' τ' : Type} [Source σ] [Source τ] [Source σ'] [Source τ'] {E : IoError → Prop} {PastS : σ' → Prop}
  {PastD : τ' → Prop} {relS : σ → σ' → Prop} {relD : τ → τ' → Prop}

/-- Readers of shapefiles at the same place. -/
def ShapefileRel (relS : σ → σ' → Prop) (relD : τ → τ' → Prop) (a : ShapefileReader σ τ) (b : ShapefileReader σ' τ') : Prop :=
  ShpRel relS a.shpReader b.shpReader ∧ DbfRel relD a.dbfReader b.dbfReader

theorem joinResults_shpHasMore {x : Except ShpError ShpPolygonRecord} : joinResults (some x) none = some (.error .shpHasMore) := by
  cases x <;> rfl

theorem shapefileNext_kept (hs : Follows E PastS relS) (hd : Follows E PastD relD) {a : ShapefileReader σ τ}
    {b : ShapefileReader σ' τ'} (hr : ShapefileRel relS relD a b) :
    NextKept (ShapefileRel relS relD) E (fun b => PastS b.shpReader.file ∨ PastD b.dbfReader.file) a.next b.next := by
  unfold ShapefileReader.next
  have h1 := shpNext_kept hs hr.1
  have h2 := dbfNext_kept hd hr.2
  generalize a.shpReader.next = x at h1
  generalize b.shpReader.next = y at h1
  cases h1 with
  | panic p => exact .panic p
  | same o a1 b1 h =>
    simp only [ok_bind]
    rcases h2 with ⟨o2, a2, b2, g1, g2, g3⟩ | ⟨e, a2, o2, b2, g1, he, g2, hp⟩
    · rw [g1, g2]
      exact .same _ _ _ ⟨h, g3⟩
    · rw [g1, g2]
      dsimp only
      match o with
      | none => exact .broke .dbfHasMore _ _ e he (.inr (.inr ⟨_, rfl⟩)) fun o' b hb => by cases hb; exact .inr hp
      | some (.error e1) => exact .broke (.shp e1) _ _ e he (.inr (.inr ⟨_, rfl⟩)) fun o' b hb => by cases hb; exact .inr hp
      | some (.ok r) => exact .broke (.dbf (.io e)) _ _ e he (.inl (.inr rfl)) fun o' b hb => by cases hb; exact .inr hp
  | broke o a1 y h hp =>
    obtain ⟨e, he, rfl⟩ := h
    simp only [ok_bind]
    have hpast : ∀ o' b', (do
        let (a, shp') ← y
        let (b, dbf') := b.dbfReader.next
        .ok (joinResults a b, (⟨shp', dbf'⟩ : ShapefileReader σ' τ'))) = .ok (o', b') →
        PastS b'.shpReader.file ∨ PastD b'.dbfReader.file := by
      intro o' b' hb
      rw [bind_ok] at hb
      obtain ⟨⟨o1, b1⟩, g1, hb⟩ := hb
      cases hb
      exact .inl (hp _ _ g1).2
    rcases h2 with ⟨o2, a2, b2, g1, g2, g3⟩ | ⟨e2, a2, o2, b2, g1, he2, g2, hp2⟩
    · rw [g1]
      dsimp only
      cases o2 with
      | none =>
        refine .broke .shpHasMore _ _ e he (.inr ?_) hpast
        cases y with
        | error p => exact .inl ⟨p, rfl⟩
        | ok z =>
          obtain ⟨o1, b1⟩ := z
          cases o1 with
          | none => simpa using (hp _ _ rfl).1
          | some x =>
            right
            simp only [ok_bind, g2, joinResults_shpHasMore]
            exact ⟨_, rfl⟩
      | some x => exact .broke (.shp (.io e)) _ _ e he (.inl (.inl rfl)) hpast
    · rw [g1]
      dsimp only
      exact .broke (.shp (.io e)) _ _ e he (.inl (.inl rfl)) hpast

theorem geoNext_kept (hs : Follows E PastS relS) (hd : Follows E PastD relD) (m : Build) {a : ShapefileGeoIterator σ τ}
    {b : ShapefileGeoIterator σ' τ'} (hr : ShapefileRel relS relD a.reader b.reader) (hq : a.quantizer = b.quantizer) :
    NextKept (fun a b : ShapefileGeoIterator _ _ => ShapefileRel relS relD a.reader b.reader ∧ a.quantizer = b.quantizer) E
      (fun b => PastS b.reader.shpReader.file ∨ PastD b.reader.dbfReader.file) (a.next m) (b.next m) := by
  unfold ShapefileGeoIterator.next
  have h1 := shapefileNext_kept hs hd hr
  generalize a.reader.next = x at h1
  generalize b.reader.next = y at h1
  cases h1 with
  | panic p => exact .panic p
  | same o a1 b1 h =>
    simp only [ok_bind]
    match o with
    | none => exact .same _ _ _ ⟨h, hq⟩
    | some (.error e) => exact .same _ _ _ ⟨h, hq⟩
    | some (.ok record) =>
      dsimp only
      rw [hq]
      cases partitionRings m b.quantizer [] [] record.rings with
      | error p => exact .panic p
      | ok rs => exact .same _ _ _ ⟨h, rfl⟩
  | broke err a1 y e he h hp =>
    simp only [ok_bind]
    refine .broke err _ _ e he ?_ ?_
    · rcases h with h | ⟨p, rfl⟩ | ⟨b1, rfl⟩
      · exact .inl h
      · exact .inr (.inl ⟨p, rfl⟩)
      · exact .inr (.inr ⟨_, rfl⟩)
    · intro o' b' hb
      rw [bind_ok] at hb
      obtain ⟨⟨o1, b1⟩, g1, hb⟩ := hb
      have hp' := hp _ _ g1
      dsimp only at hb
      split at hb
      · cases hb; exact hp'
      · cases hb; exact hp'
      · rw [bind_ok] at hb
        obtain ⟨⟨o2, i2⟩, g2, hb⟩ := hb
        cases hb
        exact hp'

/-- The outcome of opening is the same, or is an error where a file broke off. -/
inductive OpenKept {ι κ : Type} (rel : ι → κ → Prop) (E : IoError → Prop) (P : κ → Prop) :
    R (Except ShapefileError ι) → R (Except ShapefileError κ) → Prop
  | panic (p : Panic) : OpenKept rel E P (.error p) (.error p)
  | error (err : ShapefileError) : OpenKept rel E P (.ok (.error err)) (.ok (.error err))
  | ok (a : ι) (b : κ) (h : rel a b) : OpenKept rel E P (.ok (.ok a)) (.ok (.ok b))
  | broke (err : ShapefileError) (y : R (Except ShapefileError κ)) (e : IoError) (he : E e)
      (h : PassedOn err e ∨ (∃ p, y = .error p) ∨ y = .ok (.error err))
      (hp : ∀ b, y = .ok (.ok b) → P b) : OpenKept rel E P (.ok (.error err)) y

theorem shapefileNew_kept (hs : Follows E PastS relS) (hd : Follows E PastD relD) (m : Build) (enc : Encoding) {f : σ} {g : τ}
    {f' : σ'} {g' : τ'} (hf : relS f f') (hg : relD g g') :
    OpenKept (ShapefileRel relS relD) E (fun b => PastS b.shpReader.file ∨ PastD b.dbfReader.file)
      (ShapefileReader.new m f g enc) (ShapefileReader.new m f' g' enc) ∨
    (∃ e, E e) ∧ (∃ p, ShapefileReader.new m f g enc = .error p) ∧ ∃ p, ShapefileReader.new m f' g' enc = .error p := by
  unfold ShapefileReader.new
  have h1 := shpNew_opened hs m hf
  have h2 := dbfNew_opened hd m enc hg
  generalize ShpReader.new m f = x at h1
  generalize ShpReader.new m f' = y at h1
  generalize DbfReader.new m g enc = v at h2
  generalize DbfReader.new m g' enc = w at h2
  cases h1 with
  | panic p => exact .inl (.panic p)
  | error e1 =>
    cases h2 with
    | panic p => exact .inl (.panic p)
    | error e2 => exact .inl (.error _)
    | ok a b h => exact .inl (.error _)
    | broke err w h hp =>
      obtain ⟨e, he, rfl⟩ := h
      cases w with
      | error p => exact .inl (.broke _ _ e he (.inr (.inl ⟨p, rfl⟩)) fun b hb => by cases hb)
      | ok z => exact .inl (.broke _ _ e he (.inr (.inr rfl)) fun b hb => by cases hb)
  | ok a b h1 =>
    cases h2 with
    | panic p => exact .inl (.panic p)
    | error e2 => exact .inl (.error _)
    | ok a b h2 => exact .inl (.ok _ _ ⟨h1, h2⟩)
    | broke err w h hp =>
      obtain ⟨e, he, rfl⟩ := h
      refine .inl (.broke _ _ e he (.inl (.inr rfl)) fun b hb => ?_)
      rw [ok_bind, bind_ok] at hb
      obtain ⟨z, g1, g2⟩ := hb
      cases z with
      | error e2 => cases g2
      | ok d => cases g2; exact .inr (hp _ g1)
  | broke err y h hp =>
    obtain ⟨e, he, rfl⟩ := h
    have hpast : ∀ b', (do
        let a ← y
        let b ← w
        .ok (match a, b with
          | .error e, _ => .error (.shp e)
          | _, .error e => .error (.dbf e)
          | .ok shpReader, .ok dbfReader => .ok (⟨shpReader, dbfReader⟩ : ShapefileReader σ' τ'))
        : R (Except ShapefileError (ShapefileReader σ' τ'))) = .ok (.ok b') →
        PastS b'.shpReader.file ∨ PastD b'.dbfReader.file := by
      intro b' hb
      rw [bind_ok] at hb
      obtain ⟨y', g1, hb⟩ := hb
      rw [bind_ok] at hb
      obtain ⟨w', g2, hb⟩ := hb
      cases y' with
      | error e => cases hb
      | ok s =>
        cases w' with
        | error e => cases hb
        | ok d => cases hb; exact .inl (hp _ g1)
    cases h2 with
    | panic p =>
      refine .inr ⟨⟨e, he⟩, ⟨p, rfl⟩, ?_⟩
      cases y with
      | error p' => exact ⟨p', rfl⟩
      | ok z => exact ⟨p, rfl⟩
    | error e2 => exact .inl (.broke _ _ e he (.inl (.inl rfl)) hpast)
    | ok a b h2 => exact .inl (.broke _ _ e he (.inl (.inl rfl)) hpast)
    | broke err2 w h2 hp2 => exact .inl (.broke _ _ e he (.inl (.inl rfl)) hpast)

/-! ## What is seen -/

theorem Spec.BreaksOff.cons {α : Type} {l l' : List (Seen α)} (o : Seen α) (h : BreaksOff E l l') :
    BreaksOff E (o :: l) (o :: l') := by
  cases h with
  | same => exact .same _
  | broken pre rest more err e he h => exact .broken (o :: pre) rest more err e he h
  | hidden pre rest more err o' e he h => exact .hidden (o :: pre) rest more err o' e he h

theorem watch_kept {α ι κ : Type} {rel : ι → κ → Prop} {P : κ → Prop}
    {next : ι → R (Option (Except ShapefileError α) × ι)} {next' : κ → R (Option (Except ShapefileError α) × κ)}
    (hk : ∀ a b, rel a b → NextKept rel E P (next a) (next' b)) :
    ∀ (k : Nat) (a : ι) (b : κ), rel a b → BreaksOff E (watch next' k b) (watch next k a)
  | 0, a, b, hr => .same _
  | k + 1, a, b, hr => by
    unfold watch
    have h := hk a b hr
    generalize next a = x at h
    generalize next' b = y at h
    cases h with
    | panic p => exact .same _
    | same o a1 b1 h => exact .cons _ (watch_kept hk k a1 b1 h)
    | broke err a1 y e he h hp =>
      rcases h with h | ⟨p, rfl⟩ | ⟨b1, rfl⟩
      · exact .broken [] _ _ err e he h
      · exact .hidden [] _ _ err _ e he (.inr ⟨p, rfl⟩)
      · exact .hidden [] _ _ err _ e he (.inl rfl)

/-- As long as the whole file is not past the point where the other breaks off, the same
is seen. -/
theorem watch_complete {α ι κ : Type} {rel : ι → κ → Prop} {P : κ → Prop}
    {next : ι → R (Option (Except ShapefileError α) × ι)} {next' : κ → R (Option (Except ShapefileError α) × κ)}
    (hk : ∀ a b, rel a b → NextKept rel E P (next a) (next' b))
    (hP : ∀ b o b', P b → next' b = .ok (o, b') → P b') :
    ∀ (k : Nat) (a : ι) (b b' : κ) (os : List (Option (Except ShapefileError α))), rel a b →
      callsR next' k b = .ok (os, b') → ¬ P b' → watch next k a = os.map seenItem
  | 0, a, b, b', os, hr, hc, hn => by
    cases hc
    rfl
  | k + 1, a, b, b', os, hr, hc, hn => by
    unfold callsR at hc
    rw [bind_ok] at hc
    obtain ⟨⟨o, b1⟩, h1, hc⟩ := hc
    rw [bind_ok] at hc
    obtain ⟨⟨os', b2⟩, h2, hc⟩ := hc
    cases hc
    have hPk : ∀ (k : Nat) (b b' : κ) os, P b → callsR next' k b = .ok (os, b') → P b' := by
      intro k
      induction k with
      | zero => intro b b' os hp hc; cases hc; exact hp
      | succ k ih =>
        intro b b' os hp hc
        unfold callsR at hc
        rw [bind_ok] at hc
        obtain ⟨⟨o, b1⟩, h1, hc⟩ := hc
        rw [bind_ok] at hc
        obtain ⟨⟨os', b2⟩, h2, hc⟩ := hc
        cases hc
        exact ih _ _ _ (hP _ _ _ hp h1) h2
    unfold watch
    have h := hk a b hr
    rw [h1] at h
    generalize next a = x at h
    cases h with
    | same o a1 b1 h =>
      dsimp only
      rw [watch_complete hk hP k a1 b1 b' os' h h2 hn]
      rfl
    | broke err a1 y e he h hp => exact absurd (hPk _ _ _ _ (hp _ _ rfl) h2) hn

theorem watchOpen_kept {α ι κ : Type} {P : κ → Prop} {PR : ShapefileReader σ' τ' → Prop} {iter : ShapefileReader σ τ → ι}
    {iter' : ShapefileReader σ' τ' → κ} {rel : ι → κ → Prop}
    {next : ι → R (Option (Except ShapefileError α) × ι)} {next' : κ → R (Option (Except ShapefileError α) × κ)}
    {x : R (Except ShapefileError (ShapefileReader σ τ))} {y : R (Except ShapefileError (ShapefileReader σ' τ'))}
    (ho : OpenKept (ShapefileRel relS relD) E PR x y)
    (hi : ∀ a b, ShapefileRel relS relD a b → rel (iter a) (iter' b))
    (hk : ∀ a b, rel a b → NextKept rel E P (next a) (next' b)) (k : Nat) :
    BreaksOff E (watchOpen y iter' next' k) (watchOpen x iter next k) := by
  cases ho with
  | panic p => exact .same _
  | error err => exact .same _
  | ok a b h =>
    unfold watchOpen
    have hb : a.boundingBox = b.boundingBox := by
      unfold ShapefileReader.boundingBox
      rw [h.1.2.2]
    have hf : a.dbfFields = b.dbfFields := by
      unfold ShapefileReader.dbfFields
      rw [h.2.2.2]
    simp only [hb, hf]
    exact .cons _ (watch_kept hk k _ _ (hi a b h))
  | broke err y e he h hp =>
    rcases h with h | ⟨p, rfl⟩ | rfl
    · exact .broken [] _ _ err e he h
    · exact .hidden [] _ _ err _ e he (.inr ⟨p, rfl⟩)
    · exact .same _

theorem watchRecords_kept (hs : Follows E PastS relS) (hd : Follows E PastD relD) (m : Build) (enc : Encoding) {f : σ} {g : τ}
    {f' : σ'} {g' : τ'} (hf : relS f f') (hg : relD g g') (k : Nat) :
    BreaksOff E (watchRecords m enc f' g' k) (watchRecords m enc f g k) ∨
      (∃ e, E e) ∧ Panicked (watchRecords m enc f' g' k) ∧ Panicked (watchRecords m enc f g k) := by
  rcases shapefileNew_kept hs hd m enc hf hg with h | ⟨he, ⟨p, hp⟩, ⟨p', hp'⟩⟩
  · exact .inl (watchOpen_kept h (fun _ _ h => h) (fun _ _ h => shapefileNext_kept hs hd h) k)
  · refine .inr ⟨he, ⟨p', ?_⟩, ⟨p, ?_⟩⟩
    · rw [watchRecords, hp']; rfl
    · rw [watchRecords, hp]; rfl

theorem watchRegions_kept (hs : Follows E PastS relS) (hd : Follows E PastD relD) (m : Build) (enc : Encoding) {f : σ} {g : τ}
    {f' : σ'} {g' : τ'} (hf : relS f f') (hg : relD g g') (k : Nat) :
    BreaksOff E (watchRegions m enc f' g' k) (watchRegions m enc f g k) ∨
      (∃ e, E e) ∧ Panicked (watchRegions m enc f' g' k) ∧ Panicked (watchRegions m enc f g k) := by
  rcases shapefileNew_kept hs hd m enc hf hg with h | ⟨he, ⟨p, hp⟩, ⟨p', hp'⟩⟩
  · exact .inl (watchOpen_kept (rel := fun a b => ShapefileRel relS relD a.reader b.reader ∧ a.quantizer = b.quantizer) h
      (fun a b h => ⟨h, by
        unfold ShapefileGeoIterator.new ShapefileReader.boundingBox
        rw [h.1.2.2]⟩) (fun _ _ h => geoNext_kept hs hd m h.1 h.2) k)
  · refine .inr ⟨he, ⟨p', ?_⟩, ⟨p, ?_⟩⟩
    · rw [watchRegions, hp']; rfl
    · rw [watchRegions, hp]; rfl

theorem shapefileNext_past (hs : Follows E PastS relS) (hd : Follows E PastD relD) {b b' : ShapefileReader σ' τ'}
    {o : Option (Except ShapefileError ShapefileRecord)} (hp : PastS b.shpReader.file ∨ PastD b.dbfReader.file)
    (h : b.next = .ok (o, b')) : PastS b'.shpReader.file ∨ PastD b'.dbfReader.file := by
  unfold ShapefileReader.next at h
  rw [bind_ok] at h
  obtain ⟨⟨o1, b1⟩, g1, h⟩ := h
  cases h
  rcases hp with hp | hp
  · exact .inl (shpNext_past hs hp g1)
  · exact .inr (dbfNext_past hd _ hp)

theorem watchRecords_complete (hs : Follows E PastS relS) (hd : Follows E PastD relD) (m : Build) (enc : Encoding) {f : σ} {g : τ}
    {f' : σ'} {g' : τ'} (hf : relS f f') (hg : relD g g') (k : Nat) {r r' : ShapefileReader σ' τ'}
    {os : List (Option (Except ShapefileError ShapefileRecord))} (ho : ShapefileReader.new m f' g' enc = .ok (.ok r))
    (hc : callsR ShapefileReader.next k r = .ok (os, r')) (h1 : ¬ PastS r'.shpReader.file) (h2 : ¬ PastD r'.dbfReader.file) :
    watchRecords m enc f g k = .opened r.boundingBox r.dbfFields :: os.map seenItem := by
  have hPk : ∀ (k : Nat) (b b' : ShapefileReader σ' τ') os, (PastS b.shpReader.file ∨ PastD b.dbfReader.file) →
      callsR ShapefileReader.next k b = .ok (os, b') → (PastS b'.shpReader.file ∨ PastD b'.dbfReader.file) := by
    intro k
    induction k with
    | zero => intro b b' os hp hc; cases hc; exact hp
    | succ k ih =>
      intro b b' os hp hc
      unfold callsR at hc
      rw [bind_ok] at hc
      obtain ⟨⟨o, b1⟩, h1, hc⟩ := hc
      rw [bind_ok] at hc
      obtain ⟨⟨os', b2⟩, h2, hc⟩ := hc
      cases hc
      exact ih _ _ _ (shapefileNext_past hs hd hp h1) h2
  have h := shapefileNew_kept hs hd m enc hf hg
  unfold watchRecords watchOpen
  rw [ho] at h
  rcases h with h | ⟨-, -, p, hp⟩
  swap
  · cases hp
  generalize ShapefileReader.new m f g enc = x at h
  cases h with
  | ok a b h =>
    have hb : a.boundingBox = r.boundingBox := by
      unfold ShapefileReader.boundingBox
      rw [h.1.2.2]
    have hf : a.dbfFields = r.dbfFields := by
      unfold ShapefileReader.dbfFields
      rw [h.2.2.2]
    simp only [hb, hf, id]
    rw [watch_complete (fun _ _ h => shapefileNext_kept hs hd h) (fun _ _ _ hp h => shapefileNext_past hs hd hp h) k a r r' os h hc
      (not_or.mpr ⟨h1, h2⟩)]
  | broke err y e he h hp => exact absurd (hPk _ _ _ _ (hp _ rfl) hc) (not_or.mpr ⟨h1, h2⟩)

end

end TopoGeo
