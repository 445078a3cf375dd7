import Verif.Model.Word
import Verif.Spec.Word
import Verif.Proofs.Shp
import Verif.Proofs.Dbf
/-!
# The readers on a machine whose addresses have `w` bits: proofs
-/

namespace TopoGeo
open Spec

theorem usize_small (m : Build) {w z : Nat} (h : z < 2 ^ w) : m.usize w z = .ok z := if_pos h
theorem usizeSub_small (m : Build) (w : Nat) {a b : Nat} (h : b ≤ a) : m.usizeSub w a b = .ok (a - b) := if_pos h
theorem allocVec_small {w size n : Nat} (h : size * n < 2 ^ (w - 1)) : allocVec w size n = .ok () := if_pos h
theorem allocVec_large {w size n : Nat} (h : 2 ^ (w - 1) ≤ size * n) : allocVec w size n = .error .capacity :=
  if_neg (by omega)
theorem usize_debug {w z : Nat} (h : 2 ^ w ≤ z) : Build.debug.usize w z = .error .overflow := if_neg (by omega)
theorem usize_release (w z : Nat) : Build.release.usize w z = .ok (z % 2 ^ w) := by
  unfold Build.usize
  split
  · rw [Nat.mod_eq_of_lt (by assumption)]
  · rfl
theorem usizeSub_release (w : Nat) {a b : Nat} (h : a < b) : Build.release.usizeSub w a b = .ok (2 ^ w + a - b) := if_neg (by omega)

/-- An addition or multiplication never fails in another way. -/
theorem usize_cases (m : Build) (w z : Nat) : m.usize w z = .ok z ∨ (2 ^ w ≤ z ∧ m = .debug ∧ m.usize w z = .error .overflow) ∨
    (2 ^ w ≤ z ∧ m = .release ∧ m.usize w z = .ok (z % 2 ^ w)) := by
  by_cases h : z < 2 ^ w
  · exact Or.inl (if_pos h)
  · cases m
    · exact Or.inr (Or.inl ⟨by omega, rfl, if_neg h⟩)
    · exact Or.inr (Or.inr ⟨by omega, rfl, if_neg h⟩)

theorem wCutRings_eq (m : Build) {w : Nat} (number : Nat) (points : List ShpPoint) (h3 : points.length + 3 < 2 ^ w)
    (h16 : 16 * points.length < 2 ^ (w - 1)) (rings : List ShpPolygonRing) (ws : List (Nat × Nat)) :
    wCutRings m w number points rings ws = cutRings number points rings ws := by
  induction ws generalizing rings with
  | nil => rfl
  | cons x rest ih =>
    obtain ⟨a, b⟩ := x
    unfold wCutRings cutRings
    by_cases h1 : a > points.length ∨ b > points.length
    · rw [if_pos h1, if_pos h1]
    · rw [if_neg h1, if_neg h1, usize_small m (by omega), ok_bind]
      by_cases h2 : a + 3 > b
      · rw [if_pos h2, if_pos h2]
      · rw [if_neg h2, if_neg h2, usizeSub_small m w (by omega), ok_bind, allocVec_small (by omega), ok_bind]
        rcases slice points a b with e | ring
        · rfl
        · rw [ok_bind, ok_bind, ih]

theorem wPartsEnd_small (m : Build) {w n : Nat} (h : 44 + 4 * n < 2 ^ w) : wPartsEnd m w n = .ok (44 + 4 * n) := by
  unfold wPartsEnd
  rw [usize_small m (by omega), ok_bind, usize_small m h]

/-- The content after its counts and before its last offset, when nothing overflows. -/
theorem wParse_body (m : Build) {w : Nat} {bs : Bytes} (number : Nat) (h5 : u32le bs 0 = 5) (hp : u32le bs 36 ≠ 0)
    (hl : bs.length = neededLength bs) (hw : neededLength bs < 2 ^ w) (hn : 16 * u32le bs 40 < 2 ^ (w - 1))
    (hq : w / 8 * u32le bs 36 < 2 ^ (w - 1)) :
    ∃ points, points.length = u32le bs 40 ∧ bs.drop (44 + 4 * u32le bs 36) = points.flatMap pointBytes ∧
      ∃ last, (partOffsets bs).getLast? = some last ∧
      parsePolygonRecord bs number = ((cutRings number points [] (tupleWindows (partOffsets bs))).bind fun r =>
        match r with
        | .error e => .ok (.error e)
        | .ok rings =>
          if last + 3 ≥ points.length then .ok (.error (.parse (.lastPart number last (u32le bs 40))))
          else .ok (.ok ⟨number, rings ++ [points.drop last]⟩)) ∧
      wParsePolygonRecord m w bs number = (allocVec w (2 * (w / 8)) (u32le bs 36)).bind fun _ =>
        ((cutRings number points [] (tupleWindows (partOffsets bs))).bind fun r =>
        match r with
        | .error e => .ok (.error e)
        | .ok rings => (m.usize w (last + 3)).bind fun last3 =>
          if last3 ≥ points.length then .ok (.error (.parse (.lastPart number last (u32le bs 40))))
          else (m.usizeSub w (u32le bs 40) last).bind fun n => (allocVec w 16 n).bind fun _ =>
            (slice points last (u32le bs 40)).bind fun lastRing => .ok (.ok ⟨number, rings ++ [lastRing]⟩)) := by
  have hl' := hl
  unfold neededLength at hl' hw
  have hlen : (bs.drop (44 + 4 * u32le bs 36)).length = 16 * u32le bs 40 := by simp; omega
  have hpl : ((chunks 16 (bs.drop (44 + 4 * u32le bs 36))).map pointOf).length = u32le bs 40 := by
    rw [List.length_map, length_chunks (by omega) hlen]
  refine ⟨(chunks 16 (bs.drop (44 + 4 * u32le bs 36))).map pointOf, hpl, (flatMap_pointBytes hlen).symm, ?_⟩
  have hne : partOffsets bs ≠ [] := by
    unfold partOffsets
    simpa using hp
  have hpo : (partOffsets bs).length = u32le bs 36 := by unfold partOffsets; simp
  refine ⟨(partOffsets bs).getLast hne, List.getLast?_eq_getLast_of_ne_nil hne, ?_, ?_⟩
  · unfold parsePolygonRecord
    rw [u32leAt_ok rfl (by omega), ok_bind, if_neg (by simpa using h5), u32leAt_ok rfl (by omega), ok_bind, if_neg hp,
      u32leAt_ok rfl (by omega), ok_bind, if_neg (by omega)]
    unfold sliceFrom
    rw [if_pos (by omega), ok_bind, parsePoints_ok (chunks_all (by omega) hlen), ok_bind, slice_ok (by omega) (by omega),
      ok_bind, Nat.add_sub_cancel_left]
    rw [parseParts_ok (chunks_all (n := u32le bs 36) (by omega) (by simp; omega)), ok_bind, partOffsets_eq (by omega)]
    generalize (chunks 16 (bs.drop (44 + 4 * u32le bs 36))).map pointOf = points at *
    rcases cutRings number points [] (tupleWindows (partOffsets bs)) with e | r
    · rfl
    · rw [ok_bind]
      rcases r with e | rings
      · rfl
      · simp only [Except.bind]
        rw [List.getLast?_eq_getLast_of_ne_nil hne]
        simp only
        split
        · rfl
        · rw [slice_ok (by omega) (by omega), ok_bind, ← hpl, ← List.length_drop, List.take_length]
  · unfold wParsePolygonRecord
    rw [u32leAt_ok rfl (by omega), ok_bind, if_neg (by simpa using h5), u32leAt_ok rfl (by omega), ok_bind, if_neg hp,
      u32leAt_ok rfl (by omega), ok_bind, wPartsEnd_small m (by omega), ok_bind, usize_small m (by omega), ok_bind,
      usize_small m (by omega), ok_bind, if_neg (by omega), allocVec_small hn, ok_bind, ok_bind]
    unfold sliceFrom
    rw [if_pos (by omega), ok_bind, parsePoints_ok (chunks_all (by omega) hlen), ok_bind, ok_bind, slice_ok (by omega) (by omega),
      ok_bind, Nat.add_sub_cancel_left]
    rw [parseParts_ok (chunks_all (n := u32le bs 36) (by omega) (by simp; omega)), ok_bind, partOffsets_eq (by omega), hpo,
      allocVec_small hq, ok_bind]
    generalize (chunks 16 (bs.drop (44 + 4 * u32le bs 36))).map pointOf = points at *
    rcases allocVec w (2 * (w / 8)) (u32le bs 36) with e | u
    · rfl
    rw [ok_bind, wCutRings_eq m number points (by omega) (by omega)]
    simp only [Except.bind]
    rcases cutRings number points [] (tupleWindows (partOffsets bs)) with e | r
    · rfl
    · rw [ok_bind]
      rcases r with e | rings
      · rfl
      · rw [List.getLast?_eq_getLast_of_ne_nil hne]
        rfl

/-- Before the counts are known, the width of addresses plays no role. -/
theorem wParse_early (m : Build) (w : Nat) {bs : Bytes} (number : Nat)
    (h : bs.length < 44 ∨ u32le bs 0 ≠ 5 ∨ u32le bs 36 = 0) :
    wParsePolygonRecord m w bs number = parsePolygonRecord bs number := by
  unfold wParsePolygonRecord parsePolygonRecord
  rcases h1 : u32leAt bs 0 4 with e | t
  · rfl
  rw [ok_bind, ok_bind]
  by_cases ht : t ≠ 5
  · rw [if_pos ht, if_pos ht]
  rw [if_neg ht, if_neg ht]
  rcases h2 : u32leAt bs 36 40 with e | p
  · rfl
  rw [ok_bind, ok_bind]
  by_cases hp : p = 0
  · rw [if_pos hp, if_pos hp]
  rw [if_neg hp, if_neg hp]
  rcases h3 : u32leAt bs 40 44 with e | n
  · rfl
  exfalso
  have hlen : 44 ≤ bs.length := by
    by_contra hlt
    unfold u32leAt slice at h3
    rw [if_neg (by omega)] at h3
    cases h3
  rw [u32leAt_ok rfl (by omega)] at h1 h2
  cases h1
  cases h2
  rcases h with h | h | h
  · omega
  · exact ht h
  · exact hp h

theorem getLast?_chain {n last : Nat} {parts : List Nat} (h : List.IsChain (Follows n) parts) (hl : parts.getLast? = some last)
    (h2 : 2 ≤ parts.length) : last ≤ n := by
  induction parts with
  | nil => simp at h2
  | cons a parts ih =>
    cases parts with
    | nil => simp at h2
    | cons b parts =>
      obtain ⟨h1, h'⟩ := List.isChain_cons_cons.mp h
      cases parts with
      | nil => simp at hl; subst hl; exact h1.2
      | cons c parts => exact ih h' (by simpa using hl) (by simp)

theorem alloc32_points {bs : Bytes} (hlen : bs.length < 2 ^ 31) (hl : bs.length = neededLength bs) :
    16 * u32le bs 40 < 2 ^ (32 - 1) ∧ 32 / 8 * u32le bs 36 < 2 ^ (32 - 1) ∧ neededLength bs < 2 ^ 32 := by
  rw [hl] at hlen
  unfold neededLength at *
  omega

theorem wParse_wrongLength (m : Build) {w : Nat} {bs : Bytes} (number : Nat) (hc : Counted bs)
    (hl : bs.length ≠ neededLength bs) (hw : neededLength bs < 2 ^ w) :
    wParsePolygonRecord m w bs number =
      .ok (.error (.parse (.wrongLength number (neededLength bs) (u32le bs 36) (u32le bs 40) bs.length))) := by
  obtain ⟨h1, h5, hp⟩ := hc
  unfold neededLength at hw hl ⊢
  unfold wParsePolygonRecord
  rw [u32leAt_ok rfl (by omega), ok_bind, if_neg (by simpa using h5), u32leAt_ok rfl (by omega), ok_bind, if_neg hp,
    u32leAt_ok rfl (by omega), ok_bind, wPartsEnd_small m (by omega), ok_bind, usize_small m (by omega), ok_bind,
    usize_small m (by omega), ok_bind, if_pos (by omega)]

theorem wParse_tooLarge {bs : Bytes} (number : Nat) (hc : Counted bs) (w : Nat)
    (hw : 2 ^ w ≤ neededLength bs) : wParsePolygonRecord .debug w bs number = .error .overflow := by
  obtain ⟨h1, h5, hp⟩ := hc
  unfold neededLength at hw
  unfold wParsePolygonRecord wPartsEnd
  rw [u32leAt_ok rfl (by omega), ok_bind, if_neg (by simpa using h5), u32leAt_ok rfl (by omega), ok_bind, if_neg hp,
    u32leAt_ok rfl (by omega), ok_bind]
  by_cases ha : 4 * u32le bs 36 < 2 ^ w
  · rw [usize_small _ ha, ok_bind]
    by_cases hb : 44 + 4 * u32le bs 36 < 2 ^ w
    · rw [usize_small _ hb, ok_bind]
      by_cases hd : 16 * u32le bs 40 < 2 ^ w
      · rw [usize_small _ hd, ok_bind, usize_debug hw]; rfl
      · rw [usize_debug (by omega)]; rfl
    · rw [usize_debug (by omega)]; rfl
  · rw [usize_debug (by omega)]; rfl

theorem wPartsEnd_release (w n : Nat) : wPartsEnd .release w n = .ok ((44 + 4 * n) % 2 ^ w) := by
  unfold wPartsEnd
  rw [usize_release, ok_bind, usize_release, Nat.add_mod_mod]

theorem wParse_wrapped {bs : Bytes} (number : Nat) (hc : Counted bs) (w : Nat) (hl : bs.length ≠ neededLength bs % 2 ^ w) :
    wParsePolygonRecord .release w bs number =
      .ok (.error (.parse (.wrongLength number (neededLength bs % 2 ^ w) (u32le bs 36) (u32le bs 40) bs.length))) := by
  obtain ⟨h1, h5, hp⟩ := hc
  unfold neededLength at hl ⊢
  unfold wParsePolygonRecord
  rw [u32leAt_ok rfl (by omega), ok_bind, if_neg (by simpa using h5), u32leAt_ok rfl (by omega), ok_bind, if_neg hp,
    u32leAt_ok rfl (by omega), ok_bind, wPartsEnd_release, ok_bind, usize_release, ok_bind, usize_release, ok_bind, ← Nat.add_mod,
    if_pos (fun h => hl h.symm)]

theorem wParse_wrappedToRight {bs : Bytes} (number : Nat) (hc : Counted bs) (hw : 2 ^ 32 ≤ neededLength bs)
    (hl : bs.length = neededLength bs % 2 ^ 32) : ∃ e, wParsePolygonRecord .release 32 bs number = .error e := by
  obtain ⟨h1, h5, hp⟩ := hc
  unfold neededLength at hl hw
  unfold wParsePolygonRecord
  rw [u32leAt_ok rfl (by omega), ok_bind, if_neg (by simpa using h5), u32leAt_ok rfl (by omega), ok_bind, if_neg hp,
    u32leAt_ok rfl (by omega), ok_bind, wPartsEnd_release, ok_bind, usize_release, ok_bind, usize_release, ok_bind, ← Nat.add_mod,
    if_neg (by simpa using hl.symm)]
  by_cases hn : 16 * u32le bs 40 < 2 ^ (32 - 1)
  · rw [allocVec_small hn, ok_bind, ok_bind]
    rcases sliceFrom bs ((44 + 4 * u32le bs 36) % 2 ^ 32) with e | x1
    · exact ⟨e, rfl⟩
    rw [ok_bind]
    rcases parsePoints (chunks 16 x1) with e | x2
    · exact ⟨e, rfl⟩
    rw [ok_bind, ok_bind]
    rcases slice bs 44 ((44 + 4 * u32le bs 36) % 2 ^ 32) with e | x3
    · exact ⟨e, rfl⟩
    rw [ok_bind]
    rcases parseParts (chunks 4 x3) with e | x4
    · exact ⟨e, rfl⟩
    rw [ok_bind]
    rcases allocVec 32 (32 / 8) x4.length with e | x5
    · exact ⟨e, rfl⟩
    rw [ok_bind, allocVec_large (by omega)]
    exact ⟨_, rfl⟩
  · rw [allocVec_large (by omega)]
    exact ⟨_, rfl⟩

theorem wParse_manyParts (m : Build) {bs : Bytes} (number : Nat) (hlen : bs.length < 2 ^ 31) (hc : Counted bs)
    (hl : bs.length = neededLength bs) (hp : 2 ^ 28 ≤ u32le bs 36) : wParsePolygonRecord m 32 bs number = .error .capacity := by
  obtain ⟨a1, a2, a3⟩ := alloc32_points hlen hl
  obtain ⟨points, h1, h2, last, h3, h4, h5⟩ := wParse_body m number hc.2.1 hc.2.2 hl a3 a1 a2
  rw [h5, allocVec_large (by omega)]
  rfl

theorem partOffsets_one {bs : Bytes} (h : u32le bs 36 = 1) : partOffsets bs = [u32le bs 44] := by
  unfold partOffsets
  rw [h]
  rfl

theorem wParse_one (m : Build) {bs : Bytes} (number : Nat) (hlen : bs.length < 2 ^ 31) (hc : Counted bs)
    (hl : bs.length = neededLength bs) (hp : u32le bs 36 = 1) (hfar : 2 ^ 32 ≤ u32le bs 44 + 3) :
    (FarPart m bs → ∃ e, wParsePolygonRecord m 32 bs number = .error e) ∧
    (¬ FarPart m bs → wParsePolygonRecord m 32 bs number = parsePolygonRecord bs number) := by
  obtain ⟨a1, a2, a3⟩ := alloc32_points hlen hl
  obtain ⟨points, h1, h2, last, h3, h4, h5⟩ := wParse_body m number hc.2.1 hc.2.2 hl a3 a1 a2
  rw [partOffsets_one hp] at h3 h4 h5
  obtain rfl : u32le bs 44 = last := by simpa using h3
  have hcut : cutRings number points [] (tupleWindows [u32le bs 44]) = .ok (.ok []) := rfl
  rw [hcut] at h4 h5
  rw [allocVec_small (by omega)] at h5
  simp only [Except.bind] at h4 h5
  rw [if_pos (by omega)] at h4
  have hlt := u32le_lt bs 44
  constructor
  · rintro ⟨_, _, hf⟩
    rw [h5]
    cases m with
    | debug => rw [usize_debug hfar]; exact ⟨_, rfl⟩
    | release =>
      rw [usize_release]
      simp only
      have : (u32le bs 44 + 3) % 2 ^ 32 = u32le bs 44 + 3 - 2 ^ 32 := by omega
      rw [this, if_neg (by rcases hf with hf | hf; · cases hf
                           · omega), usizeSub_release 32 (by omega)]
      simp only
      rcases allocVec 32 16 (2 ^ 32 + u32le bs 40 - u32le bs 44) with e | _
      · exact ⟨_, rfl⟩
      · refine ⟨.index, ?_⟩
        unfold slice
        rw [if_neg (by omega)]
  · intro hf
    rw [h4, h5]
    cases m with
    | debug => exact absurd ⟨hp, hfar, Or.inl rfl⟩ hf
    | release =>
      rw [usize_release]
      simp only
      have : (u32le bs 44 + 3) % 2 ^ 32 = u32le bs 44 + 3 - 2 ^ 32 := by omega
      rw [this, if_pos]
      by_contra hx
      exact hf ⟨hp, hfar, Or.inr (by omega)⟩

/-- When nothing overflows, the width plays no role. -/
theorem wParse_same (m : Build) {w : Nat} {bs : Bytes} (number : Nat) (hc : Counted bs) (hl : bs.length = neededLength bs)
    (hw : neededLength bs < 2 ^ w) (hn : 16 * u32le bs 40 < 2 ^ (w - 1)) (hq : 2 * (w / 8) * u32le bs 36 < 2 ^ (w - 1))
    (hlast : u32le bs 36 = 1 → u32le bs 44 + 3 < 2 ^ w) :
    wParsePolygonRecord m w bs number = parsePolygonRecord bs number := by
  have hq' : w / 8 * u32le bs 36 < 2 ^ (w - 1) := by rw [Nat.mul_assoc] at hq; omega
  obtain ⟨points, h1, h2, last, h3, h4, h5⟩ := wParse_body m number hc.2.1 hc.2.2 hl hw hn hq'
  rw [h4, h5, allocVec_small hq]
  simp only [Except.bind]
  rcases chain_or points.length (partOffsets bs) with hch | ⟨before, a, b, after, e1, e2, e3⟩
  · rcases cutRings number points [] (tupleWindows (partOffsets bs)) with e | r
    · rfl
    · rcases r with e | rings
      · rfl
      · have hl3 : last + 3 < 2 ^ w := by
          by_cases h : u32le bs 36 = 1
          · rw [partOffsets_one h] at h3
            obtain rfl : u32le bs 44 = last := by simpa using h3
            exact hlast h
          · have := getLast?_chain hch h3 (by have := hc.2.2; unfold partOffsets; simp; omega)
            unfold neededLength at hw
            omega
        simp only
        rw [usize_small m hl3]
        simp only
        split
        · rfl
        · rw [usizeSub_small m w (by omega)]
          simp only
          rw [allocVec_small (by omega)]
          simp only
          rw [slice_ok (by omega) (by omega), ← h1, ← List.length_drop, List.take_length]
  · have hcut : ∃ e, cutRings number points [] (tupleWindows (partOffsets bs)) = .ok (.error e) := by
      rw [e1, tupleWindows_append]
      obtain ⟨acc', e'⟩ := cutRings_prefix number e2 (tupleWindows (a :: b :: after)) []
      rw [e', tupleWindows, cutRings]
      by_cases hx : a > points.length ∨ b > points.length
      · exact ⟨_, if_pos hx⟩
      · rw [if_neg hx, if_pos (by unfold Follows at e3; omega)]
        exact ⟨_, rfl⟩
    obtain ⟨e, hcut⟩ := hcut
    rw [hcut]

/-! ## Records on a machine with 32-bit addresses -/

theorem reading32_endsAs {m : Build} {number : Nat} {bs : Bytes} {v : Outcome} (hlen : bs.length < 2 ^ 31)
    (h : Reading32 m number bs v) : RecordEndsAs (wParsePolygonRecord m 32 bs number) number v := by
  cases h with
  | tooLarge h1 h2 h3 => subst h3; exact ⟨_, wParse_tooLarge number h1 32 h2⟩
  | wrappedLength h1 h2 h3 h4 => subst h3; exact wParse_wrapped number h1 32 h4
  | wrappedToRight h1 h2 h3 h4 => subst h3; exact wParse_wrappedToRight number h1 h2 h4
  | manyParts h1 h2 h3 => exact ⟨_, wParse_manyParts m number hlen h1 h2 h3⟩
  | farPart h1 h2 h3 => exact (wParse_one m number hlen h1 h2 h3.1 h3.2.1).1 h3
  | same v h1 h2 =>
    have : wParsePolygonRecord m 32 bs number = parsePolygonRecord bs number := by
      by_cases hc : Counted bs
      · have hn : neededLength bs < 2 ^ 32 := by
          by_contra hx
          exact h1 ⟨hc, Or.inl (by omega)⟩
        by_cases hl : bs.length = neededLength bs
        · have hp : u32le bs 36 < 2 ^ 28 := by
            by_contra hx
            exact h1 ⟨hc, Or.inr ⟨hl, Or.inl (by omega)⟩⟩
          have hf : ¬ FarPart m bs := fun hx => h1 ⟨hc, Or.inr ⟨hl, Or.inr hx⟩⟩
          obtain ⟨a1, a2, a3⟩ := alloc32_points hlen hl
          by_cases h1p : u32le bs 36 = 1 ∧ 2 ^ 32 ≤ u32le bs 44 + 3
          · exact (wParse_one m number hlen hc hl h1p.1 h1p.2).2 hf
          · exact wParse_same m number hc hl a3 a1 (by omega) (by omega)
        · rw [wParse_wrongLength m number hc hl hn]
          exact (reading_readsAs (Reading.wrongLength hc.1 hc.2.1 hc.2.2 hl)).symm
      · exact wParse_early m 32 number (by unfold Counted at hc; omega)
    rw [this]
    exact reading_readsAs h2

theorem reading32_total (m : Build) (number : Nat) (bs : Bytes) : ∃ v, Reading32 m number bs v := by
  by_cases h : Differs32 m bs
  · obtain ⟨hc, h | ⟨hl, h | h⟩⟩ := h
    · cases m with
      | debug => exact ⟨_, .tooLarge hc h rfl⟩
      | release =>
        by_cases hx : bs.length = neededLength bs % 2 ^ 32
        · exact ⟨_, .wrappedToRight hc h rfl hx⟩
        · exact ⟨_, .wrappedLength hc h rfl hx⟩
    · exact ⟨_, .manyParts hc hl h⟩
    · exact ⟨_, .farPart hc hl h⟩
  · obtain ⟨v, hv⟩ := reading_total number bs
    exact ⟨v, .same v h hv⟩

theorem reading32_iff (m : Build) (number : Nat) {bs : Bytes} (hlen : bs.length < 2 ^ 31) (v : Outcome) :
    RecordEndsAs (wParsePolygonRecord m 32 bs number) number v ↔ Reading32 m number bs v := by
  constructor
  · intro h
    obtain ⟨w, hw⟩ := reading32_total m number bs
    rw [readsAs_unique h (reading32_endsAs hlen hw)]
    exact hw
  · exact reading32_endsAs hlen

/-- Acceptable contents are not too large for 32-bit addresses. -/
theorem isContent_not_differs (m : Build) {bs : Bytes} {rings : List ShpPolygonRing} (hlen : bs.length < 2 ^ 31)
    (h : IsContent bs rings) : ¬ Differs32 m bs := by
  obtain ⟨h1, h2, h3, points, h4, h5, h6⟩ := isContent_facts h
  obtain ⟨hch, last, e1, e2⟩ := cuts_chain h6
  have h7 : ∀ (parts : List Nat) (a : Nat), List.IsChain (Follows points.length) (a :: parts) → ∀ l, (a :: parts).getLast? = some l →
      a + 3 * parts.length ≤ l := by
    intro parts
    induction parts with
    | nil => intro a _ l hl; simp at hl; simp [hl]
    | cons b parts ih =>
      intro a hc l hl
      obtain ⟨c1, c2⟩ := List.isChain_cons_cons.mp hc
      have := ih b c2 l (by simpa using hl)
      have := c1.1
      simp only [List.length_cons]
      omega
  have hp : (partOffsets bs).length = u32le bs 36 := by unfold partOffsets; simp
  rintro ⟨_, hx | ⟨_, hx | hx⟩⟩
  · omega
  · unfold neededLength at h3
    cases hq : partOffsets bs with
    | nil => rw [hq] at hp; simp at hp; omega
    | cons a parts =>
      rw [hq] at hch e1 hp
      have := h7 parts a hch last e1
      simp only [List.length_cons] at hp
      omega
  · rw [partOffsets_one hx.1] at e1
    obtain rfl : u32le bs 44 = last := by simpa using e1
    have := hx.2.1
    unfold neededLength at h3
    omega

theorem wParse32_accepts (m : Build) {bs : Bytes} {number : Nat} {record : ShpPolygonRecord} (hlen : bs.length < 2 ^ 31) :
    wParsePolygonRecord m 32 bs number = .ok (.ok record) ↔ parsePolygonRecord bs number = .ok (.ok record) := by
  rw [parsePolygonRecord_ok]
  constructor
  · intro h
    obtain ⟨v, hv⟩ := reading32_total m number bs
    have hr := reading32_endsAs hlen hv
    rw [h] at hr
    cases hv with
    | tooLarge => obtain ⟨_, hr⟩ := hr; cases hr
    | wrappedLength => cases hr
    | wrappedToRight => obtain ⟨_, hr⟩ := hr; cases hr
    | manyParts => obtain ⟨_, hr⟩ := hr; cases hr
    | farPart => obtain ⟨_, hr⟩ := hr; cases hr
    | same v h1 h2 =>
      rw [← parsePolygonRecord_ok]
      have h3 := reading_readsAs h2
      cases v with
      | panics => obtain ⟨_, hr⟩ := hr; cases hr
      | error e => cases hr
      | accepts rings =>
        simp only [RecordEndsAs] at hr h3
        rw [h3, hr]
  · rintro ⟨rfl, h⟩
    exact reading32_endsAs hlen (.same _ (isContent_not_differs m hlen h) (.accepts _ h))

/-- A debug build either panics or does what it does with 64-bit addresses. -/
theorem wParse32_debug {bs : Bytes} {number : Nat} {x : Except ShpError ShpPolygonRecord} (hlen : bs.length < 2 ^ 31)
    (h : wParsePolygonRecord .debug 32 bs number = .ok x) : parsePolygonRecord bs number = .ok x := by
  obtain ⟨v, hv⟩ := reading32_total .debug number bs
  have hr := reading32_endsAs hlen hv
  rw [h] at hr
  cases hv with
  | tooLarge => obtain ⟨_, hr⟩ := hr; cases hr
  | wrappedLength _ _ h => cases h
  | wrappedToRight => obtain ⟨_, hr⟩ := hr; cases hr
  | manyParts => obtain ⟨_, hr⟩ := hr; cases hr
  | farPart => obtain ⟨_, hr⟩ := hr; cases hr
  | same v h1 h2 =>
    have h3 := reading_readsAs h2
    cases v with
    | panics => obtain ⟨_, hr⟩ := hr; cases hr
    | error e => simp only [RecordEndsAs] at hr h3; rw [h3, hr]
    | accepts rings => simp only [RecordEndsAs] at hr h3; rw [h3, hr]

/-- With 64-bit addresses nothing overflows. -/
theorem wParse64 (m : Build) (bs : Bytes) (number : Nat) :
    wParsePolygonRecord m 64 bs number = parsePolygonRecord bs number := by
  by_cases hc : Counted bs
  · have b1 := u32le_lt bs 36
    have b2 := u32le_lt bs 40
    have b3 := u32le_lt bs 44
    have hn : neededLength bs < 2 ^ 64 := by unfold neededLength; omega
    by_cases hl : bs.length = neededLength bs
    · exact wParse_same m number hc hl hn (by omega) (by omega) (by omega)
    · rw [wParse_wrongLength m number hc hl hn]
      exact (reading_readsAs (Reading.wrongLength hc.1 hc.2.1 hc.2.2 hl)).symm
  · exact wParse_early m 64 number (by unfold Counted at hc; omega)

/-! ## Iterating -/

theorem wReadPolygonRecord_eq {σ : Type} [Source σ] (m : Build) (w : Nat) (file : σ) :
    wReadPolygonRecord m w file = (match Source.readExact file 8 with
      | (.error e, f1) => .ok (.error (.io e), f1)
      | (.ok hb, f1) => (m.usize w (u32be hb 4 * 2)).bind fun size => (allocVec w 1 size).bind fun _ =>
        match Source.readExact f1 size with
        | (.error e, f2) => .ok (.error (.io e), f2)
        | (.ok buf, f2) => (wParsePolygonRecord m w buf (u32be hb 0)).bind fun r => match r with
          | .error e => .ok (.error e, f2)
          | .ok record => (m.usize w (8 + buf.length)).bind fun n => .ok (.ok (record, n), f2)) := by
  unfold wReadPolygonRecord
  rcases h : Source.readExact file 8 with ⟨e | hb, f1⟩
  · rfl
  · have hl := Source.length_of_ok _ _ _ _ h
    simp only
    rw [u32beAt_ok rfl (by omega), ok_bind, u32beAt_ok rfl (by omega), ok_bind, hl]
    rfl

theorem wNext_end {σ : Type} [Source σ] (m : Build) (w : Nat) {r : ShpReader σ} (h : r.header.fileNBytes ≤ r.nBytesAlreadyRead) :
    r.wNext m w = .ok (none, r) := by
  unfold ShpReader.wNext; exact if_pos h

theorem wNext_more {σ : Type} [Source σ] (m : Build) (w : Nat) {r : ShpReader σ} (h : r.nBytesAlreadyRead < r.header.fileNBytes) :
    r.wNext m w = (wReadPolygonRecord m w r.file).bind fun (res, file') => match res with
      | .error e => .ok (some (.error e), ⟨file', r.nBytesAlreadyRead, r.header⟩)
      | .ok (record, nBytes) => (m.usize w (r.nBytesAlreadyRead + nBytes)).bind fun n =>
        if n > r.header.fileNBytes then
          .ok (some (.error (.parse (.fileTooLong r.header.fileNBytes))), ⟨file', n, r.header⟩)
        else .ok (some (.ok record), ⟨file', n, r.header⟩) := by
  unfold ShpReader.wNext; exact if_neg (by omega)

theorem wNext64 {σ : Type} [Source σ] (m : Build) (r : ShpReader σ) (h : r.header.fileNBytes < 2 ^ 32) :
    r.wNext m 64 = r.next := by
  by_cases hend : r.header.fileNBytes ≤ r.nBytesAlreadyRead
  · rw [wNext_end m 64 hend, shpNext_end hend]
  rw [wNext_more m 64 (by omega), shpNext_more (by omega), wReadPolygonRecord_eq, readPolygonRecord_eq]
  rcases Source.readExact r.file 8 with ⟨e | hb, f1⟩
  · rfl
  have hb4 := u32be_lt hb 4
  simp only
  rw [usize_small m (by omega)]
  simp only [Except.bind]
  rw [allocVec_small (by omega)]
  simp only
  rcases hx : Source.readExact f1 (u32be hb 4 * 2) with ⟨e | buf, f2⟩
  · rfl
  have hl := Source.length_of_ok _ _ _ _ hx
  simp only
  rw [wParse64]
  rcases parsePolygonRecord buf (u32be hb 0) with e | x
  · rfl
  rcases x with e | record
  · rfl
  simp only
  rw [usize_small m (by omega)]
  simp only
  rw [usize_small m (by omega)]

theorem wNext32_debug {σ : Type} [Source σ] {r : ShpReader σ} {x : Option (Except ShpError ShpPolygonRecord) × ShpReader σ}
    (h : r.wNext .debug 32 = .ok x) : r.next = .ok x := by
  by_cases hend : r.header.fileNBytes ≤ r.nBytesAlreadyRead
  · rw [wNext_end .debug 32 hend] at h
    rw [shpNext_end hend, h]
  rw [wNext_more .debug 32 (by omega), wReadPolygonRecord_eq] at h
  rw [shpNext_more (by omega), readPolygonRecord_eq]
  rcases h8 : Source.readExact r.file 8 with ⟨e | hb, f1⟩
  · rw [h8] at h; exact h
  rw [h8] at h
  simp only at h ⊢
  by_cases h1 : u32be hb 4 * 2 < 2 ^ 32
  swap
  · rw [usize_debug (by omega)] at h; cases h
  rw [usize_small _ h1] at h
  simp only [Except.bind] at h ⊢
  by_cases h2 : 1 * (u32be hb 4 * 2) < 2 ^ (32 - 1)
  swap
  · rw [allocVec_large (by omega)] at h; cases h
  rw [allocVec_small h2] at h
  simp only at h
  rcases hx : Source.readExact f1 (u32be hb 4 * 2) with ⟨e | buf, f2⟩
  · rw [hx] at h; exact h
  have hl := Source.length_of_ok _ _ _ _ hx
  rw [hx] at h
  simp only at h ⊢
  rcases hy : wParsePolygonRecord .debug 32 buf (u32be hb 0) with e | y
  · rw [hy] at h; cases h
  rw [wParse32_debug (by omega) hy]
  rw [hy] at h
  rcases y with e | record
  · exact h
  simp only at h ⊢
  rw [usize_small _ (by omega)] at h
  simp only at h
  by_cases h3 : r.nBytesAlreadyRead + (8 + buf.length) < 2 ^ 32
  · rw [usize_small _ h3] at h; exact h
  · rw [usize_debug (by omega)] at h; cases h

/-- What becomes of a record that is yielded with 64-bit addresses. -/
theorem wNext32_record {σ : Type} [Source σ] (m : Build) {r r' : ShpReader σ} {record : ShpPolygonRecord}
    (hf : r.header.fileNBytes < 2 ^ 32) (h : r.next = .ok (some (.ok record), r')) :
    r.wNext m 32 = if r'.nBytesAlreadyRead < r.nBytesAlreadyRead + 8 + 2 ^ 31 then .ok (some (.ok record), r') else .error .capacity := by
  rcases shpNext_cases h with ⟨_, h1, _⟩ | ⟨h1, h2, h3⟩
  · cases h1
  rcases h3 with ⟨e, h3, _⟩ | ⟨hb, f1, buf, e1, e2, h3⟩
  · cases h3
  rcases h3 with ⟨e, h3, _⟩ | ⟨record', e3, e4, h3⟩
  · cases h3
  rcases h3 with ⟨_, h3⟩ | ⟨e5, e6⟩
  · cases h3
  obtain rfl : record = record' := by simpa using e6
  rw [shpNext_more h1, readPolygonRecord_eq, e1] at h
  simp only [e2, e3, Except.bind] at h
  have hl := Source.length_of_ok _ _ _ _ e2
  rw [wNext_more m 32 h1, wReadPolygonRecord_eq, e1]
  simp only
  rw [usize_small m (by omega)]
  simp only [Except.bind]
  by_cases hs : r'.nBytesAlreadyRead < r.nBytesAlreadyRead + 8 + 2 ^ 31
  · rw [if_pos hs, allocVec_small (by omega), e2]
    simp only
    rw [(wParse32_accepts m (by omega)).mpr e3]
    simp only
    rw [usize_small m (by omega)]
    simp only
    rw [usize_small m (by omega)]
    exact h
  · rw [if_neg hs, allocVec_large (by omega)]

/-! ## .dbf files -/

theorem chunks_count (l : Bytes) : (chunks 32 l).length ≤ l.length := by
  unfold chunks
  have : ∀ (fuel : Nat) (l : Bytes), (chunksFuel 32 fuel l).length ≤ fuel := by
    intro fuel
    induction fuel with
    | zero => intro l; simp [chunksFuel]
    | succ fuel ih =>
      intro l
      cases l with
      | nil => simp [chunksFuel]
      | cons a l => simp only [chunksFuel, List.length_cons]; have := ih ((a :: l).drop 32); omega
  exact this _ _

theorem wParseDbfFields_eq (m : Build) {w : Nat} (enc : Encoding) (ds : List Bytes) (offset : Nat) (v : List DbfField)
    (h : offset + 255 * ds.length < 2 ^ w) : wParseDbfFields m w enc offset v ds = parseDbfFields enc offset v ds := by
  induction ds generalizing offset v with
  | nil => rfl
  | cons d ds ih =>
    unfold wParseDbfFields parseDbfFields
    by_cases hd : d.length ≠ 32
    · rw [if_pos hd, if_pos hd]
    · rw [if_neg hd, if_neg hd, parseDbfField_eq (by omega), ok_bind, ok_bind]
      rcases enc.decode (rawName d) with e | name
      · rfl
      · have hlt := (d[16]'(by omega)).toNat_lt
        simp only [List.length_cons] at h
        simp only
        rw [usize_small m (by omega), ok_bind]
        exact ih _ _ (by omega)

theorem leNat_take2 (l : Bytes) : leNat (l.take 2) < 65536 := by
  calc leNat (l.take 2) < 256 ^ (l.take 2).length := leNat_lt _
    _ ≤ 256 ^ 2 := Nat.pow_le_pow_right (by omega) (by simp)

theorem leNat_take4 (l : Bytes) : leNat (l.take 4) < 2 ^ 32 := by
  calc leNat (l.take 4) < 256 ^ (l.take 4).length := leNat_lt _
    _ ≤ 256 ^ 4 := Nat.pow_le_pow_right (by omega) (by simp)

theorem wDbfNew_eq {σ : Type} [Source σ] (m : Build) {w fieldSize : Nat} (hw : 32 ≤ w) (hs : fieldSize < 2 ^ 16) (file : σ) (enc : Encoding) :
    DbfReader.wNew m w fieldSize file enc = DbfReader.new m file enc := by
  have hp : 2 ^ 31 ≤ 2 ^ (w - 1) := Nat.pow_le_pow_right (by omega) (by omega)
  have hp2 : 2 ^ w = 2 * 2 ^ (w - 1) := by rw [← Nat.pow_succ']; congr 1; omega
  unfold DbfReader.wNew DbfReader.new wReadDbfMeta readDbfMeta
  rw [readDbfHeader_eq, ok_bind, ok_bind]
  rcases Source.readExact file 32 with ⟨e | buf, f⟩
  · rfl
  simp only
  by_cases hdate : buf[2]?.getD 0 > 12 ∨ buf[3]?.getD 0 > 31
  · rw [if_pos hdate]; rfl
  rw [if_neg hdate]
  simp only
  unfold wReadDbfFields readDbfFields
  simp only
  have hh := leNat_take2 (buf.drop 8)
  generalize leNat ((buf.drop 8).take 2) = k at *
  by_cases hk : k < 32
  · rw [if_pos hk]
    cases m with
    | debug =>
      unfold Build.usizeSub
      rw [if_neg (by omega)]
      rfl
    | release =>
      rw [usizeSub_release w hk, ok_bind, allocVec_large (by omega)]
      rfl
  · rw [if_neg hk, usizeSub_small m w (by omega), ok_bind, allocVec_small (by omega), ok_bind]
    rcases hx : Source.readExact f (k - 32) with ⟨e | buf2, f2⟩
    · rfl
    have hl := Source.length_of_ok _ _ _ _ hx
    have hc := chunks_count buf2
    have hmul : fieldSize * (buf2.length / 32) ≤ 2 ^ 16 * 2 ^ 11 := Nat.mul_le_mul (by omega) (by omega)
    simp only
    rw [allocVec_small (by omega), ok_bind, wParseDbfFields_eq m enc _ _ _ (by omega)]
    rcases parseDbfFields enc 1 [] (chunks 32 buf2) with e | r
    · rfl
    · rcases r with e | fields <;> rfl

/-- What every .dbf reader that was opened satisfies. -/
def DbfReader.Within {σ : Type} (r : DbfReader σ) : Prop :=
  r.nRecordsAlreadyIterated ≤ r.dbfMeta.nRecords ∧ r.dbfMeta.nRecords < 2 ^ 32 ∧ r.dbfMeta.nBytesPerRecord < 2 ^ 16

theorem dbfNew_within {σ : Type} [Source σ] {m : Build} {file : σ} {enc : Encoding} {r : DbfReader σ}
    (h : DbfReader.new m file enc = .ok (.ok r)) : r.Within := by
  obtain ⟨buf, f, buf2, f2, _, _, _, _, h1, h2, h3, _, _⟩ := dbfNew_ok h
  refine ⟨by omega, ?_, ?_⟩
  · rw [h2]; exact leNat_take4 _
  · rw [h3]; exact leNat_take2 _

theorem dbfNext_within {σ : Type} [Source σ] {r : DbfReader σ} (h : r.Within) : r.next.2.Within := by
  by_cases he : r.nRecordsAlreadyIterated = r.dbfMeta.nRecords
  · rw [dbfNext_end he]; exact h
  · rw [dbfNext_more he]
    obtain ⟨h1, h2, h3⟩ := h
    exact ⟨by simp only; omega, h2, h3⟩

theorem wDbfNext_eq {σ : Type} [Source σ] (m : Build) {w : Nat} (hw : 32 ≤ w) {r : DbfReader σ} (h : r.Within) :
    r.wNext m w = .ok r.next := by
  obtain ⟨h1, h2, h3⟩ := h
  have hp : 2 ^ 31 ≤ 2 ^ (w - 1) := Nat.pow_le_pow_right (by omega) (by omega)
  have hp2 : 2 ^ w = 2 * 2 ^ (w - 1) := by rw [← Nat.pow_succ']; congr 1; omega
  unfold DbfReader.wNext DbfReader.next wReadDbfRecord readDbfRecord
  by_cases he : r.nRecordsAlreadyIterated = r.dbfMeta.nRecords
  · rw [if_pos he, if_pos he]
  · rw [if_neg he, if_neg he, allocVec_small (by omega), ok_bind]
    rcases Source.readExact r.file r.dbfMeta.nBytesPerRecord with ⟨e | buf, f⟩
    · simp only [ok_bind]
      rw [usize_small m (by omega), ok_bind]
    · simp only [ok_bind]
      rw [usize_small m (by omega), ok_bind]

theorem wDbfCalls {σ : Type} [Source σ] (m : Build) {w : Nat} (hw : 32 ≤ w) (n : Nat) {r : DbfReader σ} (h : r.Within) :
    callsR (DbfReader.wNext m w) n r = .ok (calls DbfReader.next n r) := by
  induction n generalizing r with
  | zero => rfl
  | succ n ih =>
    simp only [callsR, calls]
    rw [wDbfNext_eq m hw h, ok_bind]
    rw [ih (dbfNext_within h), ok_bind]

/-! ## Runs -/

theorem shpNext_header {σ : Type} [Source σ] {r r' : ShpReader σ} {o : Option (Except ShpError ShpPolygonRecord)}
    (h : r.next = .ok (o, r')) : r'.header = r.header := by
  rcases shpNext_cases h with ⟨_, _, rfl⟩ | ⟨_, h, _⟩
  · rfl
  · exact h

theorem shpNew_small {σ : Type} [Source σ] {m : Build} {file : σ} {r : ShpReader σ} (h : ShpReader.new m file = .ok (.ok r)) :
    r.header.fileNBytes < 2 ^ 32 := by
  unfold ShpReader.new readShpHeader at h
  rcases hx : Source.readExact file 100 with ⟨e | buf, f⟩
  · rw [hx] at h; cases h
  rw [hx] at h
  simp only at h
  rw [parseShpHeader_eq m (Source.length_of_ok _ _ _ _ hx)] at h
  split at h
  · cases h
  split at h
  · cases h
  split at h
  · split at h
    · unfold Build.u32 at h
      split at h
      · obtain rfl := Except.ok.inj (Except.ok.inj h)
        assumption
      · cases m
        · cases h
        · obtain rfl := Except.ok.inj (Except.ok.inj h)
          exact Nat.mod_lt _ (by omega)
    · cases h
  · cases h

theorem wShpCalls64 {σ : Type} [Source σ] (m : Build) (n : Nat) {r : ShpReader σ} (h : r.header.fileNBytes < 2 ^ 32) :
    callsR (ShpReader.wNext m 64) n r = callsR ShpReader.next n r := by
  induction n generalizing r with
  | zero => rfl
  | succ n ih =>
    simp only [callsR]
    rw [wNext64 m r h]
    rcases hx : r.next with e | ⟨o, r1⟩
    · rfl
    · rw [ok_bind, ok_bind]
      simp only
      rw [ih (by rw [shpNext_header hx]; exact h)]

theorem wShpCalls32_debug {σ : Type} [Source σ] (n : Nat) {r : ShpReader σ}
    {x : List (Option (Except ShpError ShpPolygonRecord)) × ShpReader σ} (h : callsR (ShpReader.wNext .debug 32) n r = .ok x) :
    callsR ShpReader.next n r = .ok x := by
  induction n generalizing r x with
  | zero => exact h
  | succ n ih =>
    obtain ⟨os, r'⟩ := x
    obtain ⟨o, r1, os', h1, h2, rfl⟩ := callsR_succ h
    exact callsR_cons (wNext32_debug h1) (ih h2)

theorem wShpCalls32_good {σ : Type} [Source σ] (m : Build) (n : Nat) {r r' : ShpReader σ}
    {os : List (Option (Except ShpError ShpPolygonRecord))} (hf : r.header.fileNBytes < 2 ^ 31 + 108) (h100 : 100 ≤ r.nBytesAlreadyRead)
    (h : callsR ShpReader.next n r = .ok (os, r')) (hg : ∀ e, some (.error e) ∉ os) :
    callsR (ShpReader.wNext m 32) n r = .ok (os, r') := by
  induction n generalizing r os with
  | zero => exact h
  | succ n ih =>
    obtain ⟨o, r1, os', h1, h2, rfl⟩ := callsR_succ h
    have hh := shpNext_header h1
    refine callsR_cons (it1 := r1) ?_ (ih (by rw [hh]; exact hf) ?_ h2 (fun e he => hg e (by simp [he])))
    · rcases o with _ | e | record
      · rcases shpNext_cases h1 with ⟨h3, _, rfl⟩ | ⟨_, _, h4⟩
        · exact wNext_end m 32 h3
        · rcases h4 with ⟨_, h4, _⟩ | ⟨_, _, _, _, _, h4⟩
          · cases h4
          · rcases h4 with ⟨_, h4, _⟩ | ⟨_, _, _, h4⟩
            · cases h4
            · rcases h4 with ⟨_, h4⟩ | ⟨_, h4⟩ <;> cases h4
      · exact absurd (by simp) (hg e)
      · rw [wNext32_record m (by omega) h1, if_pos]
        rcases shpNext_cases h1 with ⟨_, h3, _⟩ | ⟨_, _, h4⟩
        · cases h3
        · rcases h4 with ⟨_, h4, _⟩ | ⟨_, _, _, _, _, h4⟩
          · cases h4
          · rcases h4 with ⟨_, h4, _⟩ | ⟨_, _, _, h4⟩
            · cases h4
            · rcases h4 with ⟨_, h4⟩ | ⟨h4, _⟩
              · cases h4
              · omega
    · rcases shpNext_cases h1 with ⟨_, _, rfl⟩ | ⟨_, _, h4⟩
      · exact h100
      · rcases h4 with ⟨_, _, h4, _⟩ | ⟨_, _, _, _, _, h4⟩
        · omega
        · rcases h4 with ⟨_, _, _, h4⟩ | ⟨_, _, h4, _⟩ <;> omega

theorem shpNew_position {σ : Type} [Source σ] {m : Build} {file : σ} {r : ShpReader σ} (h : ShpReader.new m file = .ok (.ok r)) :
    r.nBytesAlreadyRead = 100 := by
  unfold ShpReader.new at h
  rcases hx : readShpHeader m file with e | ⟨x, f⟩
  · rw [hx] at h; cases h
  · rw [hx, ok_bind] at h
    rcases x with e | header
    · cases h
    · obtain rfl := Except.ok.inj (Except.ok.inj h)
      rfl

/-- The joint reader's calls are those of the two readers, side by side. -/
theorem wShapefileCalls {σ τ : Type} [Source σ] [Source τ] (m : Build) {w : Nat} (hw : 32 ≤ w) (n : Nat) (r : ShapefileReader σ τ)
    (h : r.dbfReader.Within) :
    callsR (ShapefileReader.wNext m w) n r = (callsR (ShpReader.wNext m w) n r.shpReader).map fun x =>
      (List.zipWith joinResults x.1 (calls DbfReader.next n r.dbfReader).1,
        ⟨x.2, (calls DbfReader.next n r.dbfReader).2⟩) := by
  induction n generalizing r with
  | zero => rfl
  | succ n ih =>
    simp only [callsR]
    have hnext : r.wNext m w = (r.shpReader.wNext m w).bind fun x => .ok (joinResults x.1 (DbfReader.next r.dbfReader).1,
        ⟨x.2, (DbfReader.next r.dbfReader).2⟩) := by
      unfold ShapefileReader.wNext
      rcases r.shpReader.wNext m w with e | ⟨o, s1⟩
      · rfl
      · rw [ok_bind]
        simp only
        rw [wDbfNext_eq m hw h]
        rfl
    rw [hnext]
    rcases r.shpReader.wNext m w with e | ⟨o, s1⟩
    · rfl
    · simp only [Except.bind]
      rw [ok_bind, ok_bind]
      simp only
      rw [ih _ (dbfNext_within h)]
      simp only
      rcases callsR (ShpReader.wNext m w) n s1 with e | ⟨os, s2⟩
      · rfl
      · rfl

end TopoGeo
