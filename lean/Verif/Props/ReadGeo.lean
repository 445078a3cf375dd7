import Verif.Proofs.ReadGeo
import Verif.Proofs.Geo
import Verif.Props.Shapefile
/-!
# Properties of `src/read/shapefile/geo.rs`: C58, C59, C62, C63
-/

namespace TopoGeo
open Spec

/-! ## C58 -/

/-- C58: the sides of the box. West and north become 0, east and south become
2^32 - 1. -/
theorem C58_sides {b : ShpBoundingBox} {west south east north : Rat} (hb : IsBox b west south east north)
    {p : ShpPoint} {x y : Rat} (hp : IsAt p x y) :
    (x = west → ((ShapefileQuantizer.new b).quantize p).x = 0) ∧
    (x = east → ((ShapefileQuantizer.new b).quantize p).x.toNat = 2 ^ 32 - 1) ∧
    (y = north → ((ShapefileQuantizer.new b).quantize p).y = 0) ∧
    (y = south → ((ShapefileQuantizer.new b).quantize p).y.toNat = 2 ^ 32 - 1) := by
  obtain ⟨h, hE, hF⟩ := quantize_eq hb hp
  have hw := hb.wide
  have hh := hb.high
  have hX : ((ShapefileQuantizer.new b).quantize p).x = _ := congrArg Point.x h
  have hY : ((ShapefileQuantizer.new b).quantize p).y = _ := congrArg Point.y h
  dsimp only at hX hY
  rw [hX, hY]
  refine ⟨?_, ?_, ?_, ?_⟩
  · rintro rfl
    rw [sub_self, max_self, scaled_zero, satU32_zero]
  · rintro rfl
    rw [max_eq_left (by linarith), scaled_self hE, satU32_max (le_refl _)]; rfl
  · rintro rfl
    rw [sub_self, max_self, scaled_zero, satU32_zero]
  · rintro rfl
    rw [max_eq_left (by linarith), scaled_self hF, satU32_max (le_refl _)]; rfl

/-- C58: monotone in x and antitone in y, for all points, in the box or not. -/
theorem C58_monotone {b : ShpBoundingBox} {west south east north : Rat} (hb : IsBox b west south east north)
    {p q : ShpPoint} {x y x' y' : Rat} (hp : IsAt p x y) (hq : IsAt q x' y') :
    (x ≤ x' → ((ShapefileQuantizer.new b).quantize p).x ≤ ((ShapefileQuantizer.new b).quantize q).x) ∧
    (y ≤ y' → ((ShapefileQuantizer.new b).quantize q).y ≤ ((ShapefileQuantizer.new b).quantize p).y) := by
  obtain ⟨h, hE, hF⟩ := quantize_eq hb hp
  obtain ⟨h', _, _⟩ := quantize_eq hb hq
  rw [h, h']
  constructor
  · intro hx
    have h1 : max (x - west) 0 ≤ max (x' - west) 0 := max_le_max (by linarith) (le_refl _)
    exact satU32_mono (scaled_nonneg (le_max_right _ _) hE) (scaled_mono hE (le_max_right _ _) h1)
  · intro hy
    have h1 : max (north - y') 0 ≤ max (north - y) 0 := max_le_max (by linarith) (le_refl _)
    exact satU32_mono (scaled_nonneg (le_max_right _ _) hF) (scaled_mono hF (le_max_right _ _) h1)

/-- C58: points outside the box are moved to its nearest side. -/
theorem C58_outside {b : ShpBoundingBox} {west south east north : Rat} (hb : IsBox b west south east north)
    {p : ShpPoint} {x y : Rat} (hp : IsAt p x y) :
    (x ≤ west → ((ShapefileQuantizer.new b).quantize p).x = 0) ∧
    (east ≤ x → ((ShapefileQuantizer.new b).quantize p).x.toNat = 2 ^ 32 - 1) ∧
    (north ≤ y → ((ShapefileQuantizer.new b).quantize p).y = 0) ∧
    (y ≤ south → ((ShapefileQuantizer.new b).quantize p).y.toNat = 2 ^ 32 - 1) := by
  obtain ⟨h, hE, hF⟩ := quantize_eq hb hp
  have hw := hb.wide
  have hh := hb.high
  have hX : ((ShapefileQuantizer.new b).quantize p).x = _ := congrArg Point.x h
  have hY : ((ShapefileQuantizer.new b).quantize p).y = _ := congrArg Point.y h
  dsimp only at hX hY
  rw [hX, hY]
  refine ⟨fun hx => ?_, fun hx => ?_, fun hy => ?_, fun hy => ?_⟩
  · rw [max_eq_right (by linarith), scaled_zero, satU32_zero]
  · rw [max_eq_left (by linarith), satU32_max (scaled_big hE (roundMag_mono (by linarith) (by linarith)))]; rfl
  · rw [max_eq_right (by linarith), scaled_zero, satU32_zero]
  · rw [max_eq_left (by linarith), satU32_max (scaled_big hF (roundMag_mono (by linarith) (by linarith)))]; rfl

/-- C58: inside the box nothing saturates: the number that is cast to `u32` is a
finite double between 0 and 2^32 - 1, and the cast only drops its fraction. -/
theorem C58_inside {b : ShpBoundingBox} {west south east north : Rat} (hb : IsBox b west south east north)
    {p : ShpPoint} {x y : Rat} (hp : IsAt p x y) (hx : west ≤ x ∧ x ≤ east) (hy : south ≤ y ∧ y ≤ north) :
    (∃ v : Rat, 0 ≤ v ∧ v ≤ 2 ^ 32 - 1 ∧ (((ShapefileQuantizer.new b).quantize p).x.toNat : Int) = ⌊v⌋ ∧
      |v - (x - west) / (east - west) * (2 ^ 32 - 1)| < 1 / 2 ^ 18) ∧
    (∃ v : Rat, 0 ≤ v ∧ v ≤ 2 ^ 32 - 1 ∧ (((ShapefileQuantizer.new b).quantize p).y.toNat : Int) = ⌊v⌋ ∧
      |v - (north - y) / (north - south) * (2 ^ 32 - 1)| < 1 / 2 ^ 18) := by
  obtain ⟨h, hE, hF⟩ := quantize_eq hb hp
  have hw := hb.wide
  have hh := hb.high
  rw [h, max_eq_left (by linarith), max_eq_left (by linarith)]
  have m : (2 ^ 32 - 1 : Rat) = 4294967295 := by norm_num
  rw [m]
  have key : ∀ d D : Rat, 0 ≤ d → d ≤ D → 0 < D → Grid d → Grid D → 0 < roundMag D →
      ∃ v : Rat, 0 ≤ v ∧ v ≤ 4294967295 ∧ ((satU32 (scaled d (roundMag D))).toNat : Int) = ⌊v⌋ ∧
        |v - d / D * 4294967295| < 1 / 2 ^ 18 := by
    intro d D hd hdD hD gd gD hE
    have h0 := scaled_nonneg hd hE
    have h1 := scaled_mono hE hd hdD
    rw [scaled_self hE] at h1
    refine ⟨scaled d (roundMag D), h0, h1, ?_, scaled_err hd hdD hD gd gD⟩
    rw [satU32_toNat h0, min_eq_left]
    · rfl
    · have : ⌊scaled d (roundMag D)⌋ ≤ ⌊((4294967295 : Int) : Rat)⌋ := Int.floor_mono (by exact_mod_cast h1)
      rw [Int.floor_intCast] at this
      exact this
  exact ⟨key _ _ (by linarith) (by linarith) (by linarith) ((doubleVal_grid hp.x).sub (doubleVal_grid hb.westSide))
      ((doubleVal_grid hb.eastSide).sub (doubleVal_grid hb.westSide)) hE,
    key _ _ (by linarith) (by linarith) (by linarith) ((doubleVal_grid hb.northSide).sub (doubleVal_grid hp.y))
      ((doubleVal_grid hb.northSide).sub (doubleVal_grid hb.southSide)) hF⟩

/-- The square from (0, 0) to (1, 1). -/
def unitBox : ShpBoundingBox := ⟨0, 0, 0x3ff0000000000000, 0x3ff0000000000000⟩

/-- Non-vacuity: the unit square is a box, (1/2, 1/4) is in it, and it is mapped to
the middle, at three quarters from the top. -/
theorem unitBox_isBox : IsBox unitBox 0 0 1 1 where
  westSide := by decide +kernel
  southSide := by decide +kernel
  eastSide := by decide +kernel
  northSide := by decide +kernel
  wide := by norm_num
  high := by norm_num
  width := by decide +kernel
  height := by decide +kernel

example : IsAt ⟨0x3fe0000000000000, 0x3fd0000000000000⟩ (1 / 2) (1 / 4) ∧
    (ShapefileQuantizer.new unitBox).quantize ⟨0x3fe0000000000000, 0x3fd0000000000000⟩ = ⟨2147483647, 3221225471⟩ :=
  ⟨⟨by decide +kernel, by decide +kernel⟩, by decide +kernel⟩

/-- C58: the condition on the width is needed. In a box from -2^1023 to 2^1023
the width is infinite, and the east side is mapped to 0 (a NaN). -/
theorem C58_overflow :
    let b : ShpBoundingBox := ⟨0xffe0000000000000, 0, 0x7fe0000000000000, 0x3ff0000000000000⟩
    doubleVal b.b0 = some (-2 ^ 1023) ∧ doubleVal b.b2 = some (2 ^ 1023) ∧
    (ShapefileQuantizer.new b).quantize ⟨b.b2, 0⟩ = ⟨0, 4294967295⟩ := by
  decide +kernel

/-! ## C62 -/

/-- C62: the quantized coordinates are within one unit of the exact affine image of
the point (up to 2^-18). -/
theorem C62_accuracy {b : ShpBoundingBox} {west south east north : Rat} (hb : IsBox b west south east north)
    {p : ShpPoint} {x y : Rat} (hp : IsAt p x y) (hx : west ≤ x ∧ x ≤ east) (hy : south ≤ y ∧ y ≤ north) :
    (let exact : Rat := (x - west) / (east - west) * (2 ^ 32 - 1)
     exact - 1 - 1 / 2 ^ 18 < (((ShapefileQuantizer.new b).quantize p).x.toNat : Rat) ∧
     (((ShapefileQuantizer.new b).quantize p).x.toNat : Rat) < exact + 1 / 2 ^ 18) ∧
    (let exact : Rat := (north - y) / (north - south) * (2 ^ 32 - 1)
     exact - 1 - 1 / 2 ^ 18 < (((ShapefileQuantizer.new b).quantize p).y.toNat : Rat) ∧
     (((ShapefileQuantizer.new b).quantize p).y.toNat : Rat) < exact + 1 / 2 ^ 18) := by
  obtain ⟨⟨v, _, _, hv1, hv2⟩, ⟨w, _, _, hw1, hw2⟩⟩ := C58_inside hb hp hx hy
  have key : ∀ (n : Nat) (v e : Rat), (n : Int) = ⌊v⌋ → |v - e| < 1 / 2 ^ 18 →
      e - 1 - 1 / 2 ^ 18 < n ∧ (n : Rat) < e + 1 / 2 ^ 18 := by
    intro n v e h1 h2
    have h3 := Int.floor_le v
    have h4 := Int.lt_floor_add_one v
    rw [← h1] at h3 h4
    push_cast at h3 h4
    obtain ⟨h5, h6⟩ := abs_lt.mp h2
    constructor <;> linarith
  exact ⟨key _ _ _ hv1 hv2, key _ _ _ hw1 hw2⟩

/-- C62: hence points whose exact images are 1 + 2^-17 units apart stay apart, in the
same order. -/
theorem C62_distinct {b : ShpBoundingBox} {west south east north : Rat} (hb : IsBox b west south east north)
    {p q : ShpPoint} {x y x' y' : Rat} (hp : IsAt p x y) (hq : IsAt q x' y')
    (hx : west ≤ x ∧ x ≤ east) (hy : south ≤ y ∧ y ≤ north) (hx' : west ≤ x' ∧ x' ≤ east)
    (hy' : south ≤ y' ∧ y' ≤ north) :
    ((1 + 1 / 2 ^ 17 : Rat) ≤ (x' - x) / (east - west) * (2 ^ 32 - 1) →
      ((ShapefileQuantizer.new b).quantize p).x < ((ShapefileQuantizer.new b).quantize q).x) ∧
    ((1 + 1 / 2 ^ 17 : Rat) ≤ (y' - y) / (north - south) * (2 ^ 32 - 1) →
      ((ShapefileQuantizer.new b).quantize q).y < ((ShapefileQuantizer.new b).quantize p).y) := by
  obtain ⟨⟨_, h1⟩, ⟨h2, _⟩⟩ := C62_accuracy hb hp hx hy
  obtain ⟨⟨h3, _⟩, ⟨_, h4⟩⟩ := C62_accuracy hb hq hx' hy'
  have key : ∀ (m n : Nat) (e e' : Rat), (m : Rat) < e + 1 / 2 ^ 18 → e' - 1 - 1 / 2 ^ 18 < n →
      1 + 1 / 2 ^ 17 ≤ e' - e → m < n := by
    intro m n e e' k1 k2 k3
    have : (m : Rat) < n := by
      norm_num at k1 k2 k3
      linarith
    exact_mod_cast this
  rw [UInt32.lt_iff_toNat_lt, UInt32.lt_iff_toNat_lt]
  constructor
  · intro h
    have e : (x' - x) / (east - west) * (2 ^ 32 - 1) =
      (x' - west) / (east - west) * (2 ^ 32 - 1) - (x - west) / (east - west) * (2 ^ 32 - 1) := by ring
    rw [e] at h
    exact key _ _ _ _ h1 h3 h
  · intro h
    have e : (y' - y) / (north - south) * (2 ^ 32 - 1) =
      (north - y) / (north - south) * (2 ^ 32 - 1) - (north - y') / (north - south) * (2 ^ 32 - 1) := by ring
    rw [e] at h
    exact key _ _ _ _ h4 h2 h

/-- Non-vacuity: (1/2, 1/4) and (3/4, 1/4) in the unit square are far enough apart. -/
example : IsAt ⟨0x3fe8000000000000, 0x3fd0000000000000⟩ (3 / 4) (1 / 4) ∧
    (1 + 1 / 2 ^ 17 : Rat) ≤ (3 / 4 - 1 / 2) / (1 - 0) * (2 ^ 32 - 1) :=
  ⟨⟨by decide +kernel, by decide +kernel⟩, by norm_num⟩

/-! ## C59 -/

theorem windingOrder_points {m : Build} {ps : List Point} {o : WindingOrder}
    (h : (Ring.points ps).windingOrder m = .ok o) : o = .clockwise ↔ CountsAsOuter m (.points ps) := by
  have e : (Ring.points ps).windingOrder m = (do let x ← area2AndWindingOrder m ps; .ok x.2) := rfl
  rw [e] at h
  cases m with
  | release =>
    rw [area2AndWindingOrder_release, ok_bind] at h
    obtain rfl := Except.ok.inj h
    show _ ↔ 0 ≤ wrap64 (shoelace ps)
    by_cases h0 : 0 ≤ wrap64 (shoelace ps) <;> simp [h0]
  | debug =>
    rw [area2AndWindingOrder] at h
    cases hs : signedArea2 .debug ps with
    | error e => rw [hs] at h; cases h
    | ok a =>
      rw [hs, ok_bind] at h
      have := signedArea2_debug hs
      subst this
      show _ ↔ 0 ≤ shoelace ps
      unfold splitSign at h
      by_cases h0 : shoelace ps ≥ 0
      · rw [if_pos h0, ok_bind] at h
        obtain rfl := Except.ok.inj h
        simp [h0]
      · rw [if_neg h0] at h
        cases hn : Build.debug.i64 (-shoelace ps) with
        | error e => rw [hn] at h; cases h
        | ok n =>
          rw [hn] at h
          obtain rfl := Except.ok.inj h
          simp [h0]

theorem Spec.Split.snoc_left {α : Type} {left : α → Prop} {as ls rs : List α} (h : Split left as ls rs) {a : α} (ha : left a) :
    Split left (as ++ [a]) (ls ++ [a]) rs := by
  induction h with
  | nil => exact .left ha .nil
  | left h1 _ ih => exact .left h1 ih
  | right h1 _ ih => exact .right h1 ih

theorem Spec.Split.snoc_right {α : Type} {left : α → Prop} {as ls rs : List α} (h : Split left as ls rs) {a : α}
    (ha : ¬ left a) : Split left (as ++ [a]) ls (rs ++ [a]) := by
  induction h with
  | nil => exact .right ha .nil
  | left h1 _ ih => exact .left h1 ih
  | right h1 _ ih => exact .right h1 ih

theorem partitionRings_ok {m : Build} {q : ShapefileQuantizer} (rings : List ShpPolygonRing) {done outer inner : List Ring}
    (hs : Split (CountsAsOuter m) done outer inner) {r : List Ring × List Ring}
    (h : partitionRings m q outer inner rings = .ok r) :
    Split (CountsAsOuter m) (done ++ rings.map fun s => Ring.points (s.map q.quantize)) r.1 r.2 := by
  induction rings generalizing done outer inner with
  | nil =>
    obtain rfl := Except.ok.inj h
    simpa using hs
  | cons s rest ih =>
    rw [partitionRings] at h
    cases ho : (shpPolygonRingToRing q s).windingOrder m with
    | error e => rw [ho] at h; cases h
    | ok o =>
      rw [ho, ok_bind] at h
      have hw := windingOrder_points ho
      by_cases hc : o = .clockwise
      · rw [if_pos hc] at h
        have := ih (hs.snoc_left (hw.mp hc)) h
        simpa using this
      · rw [if_neg hc] at h
        have := ih (hs.snoc_right (fun hl => hc (hw.mpr hl))) h
        simpa using this

theorem partitionRings_error {m : Build} {q : ShapefileQuantizer} (rings : List ShpPolygonRing) {outer inner : List Ring}
    {e : Panic} : partitionRings m q outer inner rings = .error e →
      e = .overflow ∧ m = .debug ∧ ∃ s ∈ rings, (Ring.points (s.map q.quantize)).windingOrder m = .error .overflow := by
  induction rings generalizing outer inner with
  | nil => intro h; cases h
  | cons s rest ih =>
    intro h
    rw [partitionRings] at h
    cases ho : (shpPolygonRingToRing q s).windingOrder m with
    | error e' =>
      rw [ho] at h
      obtain rfl : e' = e := Except.error.inj h
      have hh : (Ring.points (s.map q.quantize)).windingOrder m = .error e' := ho
      cases m with
      | release =>
        have e1 : (Ring.points (s.map q.quantize)).windingOrder .release =
          (do let x ← area2AndWindingOrder .release (s.map q.quantize); .ok x.2) := rfl
        rw [e1, area2AndWindingOrder_release] at hh
        cases hh
      | debug =>
        have e1 : (Ring.points (s.map q.quantize)).windingOrder .debug =
          (do let x ← area2AndWindingOrder .debug (s.map q.quantize); .ok x.2) := rfl
        have : e' = .overflow := by
          rw [e1, area2AndWindingOrder] at hh
          cases hs : signedArea2 .debug (s.map q.quantize) with
          | error e2 =>
            rw [hs] at hh
            have h2 := (signedArea2_error hs).2
            obtain rfl := Except.error.inj hh
            exact h2
          | ok a =>
            rw [hs, ok_bind] at hh
            unfold splitSign at hh
            by_cases h0 : a ≥ 0
            · rw [if_pos h0] at hh; cases hh
            · rw [if_neg h0] at hh
              unfold Build.i64 at hh
              split at hh
              · cases hh
              · obtain rfl := Except.error.inj hh; rfl
        subst this
        exact ⟨rfl, rfl, s, by simp, hh⟩
    | ok o =>
      rw [ho, ok_bind] at h
      split at h <;>
      · obtain ⟨h1, h2, t, ht, h3⟩ := ih h
        exact ⟨h1, h2, t, by simp [ht], h3⟩

/-- C59: a yielded region belongs to one record of the reader: it has that record's
data, and the record's quantized rings are split into outer and inner ones, both
in file order. -/
theorem C59_region {σ τ : Type} [Source σ] [Source τ] (m : Build) (it it' : ShapefileGeoIterator σ τ)
    (region : Region DbfRecord) (h : it.next m = .ok (some (.ok region), it')) :
    ∃ record reader', it.reader.next = .ok (some (.ok record), reader') ∧
      it' = ⟨reader', it.quantizer⟩ ∧ region.data = record.data ∧
      Split (CountsAsOuter m) (record.rings.map fun s => Ring.points (s.map it.quantizer.quantize))
        region.outerRings region.innerRings := by
  unfold ShapefileGeoIterator.next at h
  cases hr : it.reader.next with
  | error e => rw [hr] at h; cases h
  | ok x =>
    obtain ⟨res, reader'⟩ := x
    rw [hr, ok_bind] at h
    dsimp only at h
    cases res with
    | none => cases h
    | some res =>
      cases res with
      | error e => cases h
      | ok record =>
        dsimp only at h
        cases hp : partitionRings m it.quantizer [] [] record.rings with
        | error e => rw [hp] at h; cases h
        | ok oi =>
          rw [hp, ok_bind] at h
          have h1 := Except.ok.inj h
          simp only [Prod.mk.injEq, Option.some.injEq] at h1
          obtain ⟨h1, rfl⟩ := h1
          obtain rfl := Except.ok.inj h1
          exact ⟨record, reader', rfl, rfl, rfl, by simpa using partitionRings_ok record.rings .nil hp⟩

/-- C59: the iterator yields what the reader yields: nothing and errors are passed on,
a record becomes a region unless the program panics, and it only panics when the
reader does or when the area of a ring overflows in a checked build. -/
theorem C59_passes {σ τ : Type} [Source σ] [Source τ] (m : Build) (it : ShapefileGeoIterator σ τ) :
    (∀ reader', it.reader.next = .ok (none, reader') → it.next m = .ok (none, ⟨reader', it.quantizer⟩)) ∧
    (∀ e reader', it.reader.next = .ok (some (.error e), reader') →
      it.next m = .ok (some (.error e), ⟨reader', it.quantizer⟩)) ∧
    (∀ e, it.reader.next = .error e → it.next m = .error e) ∧
    (∀ record reader', it.reader.next = .ok (some (.ok record), reader') →
      (∃ region, it.next m = .ok (some (.ok region), ⟨reader', it.quantizer⟩)) ∨
      (m = .debug ∧ it.next m = .error .overflow ∧
        ∃ s ∈ record.rings, (Ring.points (s.map it.quantizer.quantize)).windingOrder m = .error .overflow)) := by
  unfold ShapefileGeoIterator.next
  refine ⟨fun reader' h => ?_, fun e reader' h => ?_, fun e h => ?_, fun record reader' h => ?_⟩
  · rw [h]; rfl
  · rw [h]; rfl
  · rw [h]; rfl
  · rw [h, ok_bind]
    dsimp only
    cases hp : partitionRings m it.quantizer [] [] record.rings with
    | error e =>
      obtain ⟨rfl, rfl, h3⟩ := partitionRings_error _ hp
      exact .inr ⟨rfl, rfl, h3⟩
    | ok oi => exact .inl ⟨_, rfl⟩

/-- C59: no ring is lost or duplicated. -/
theorem C59_permutation {α : Type} {left : α → Prop} {as ls rs : List α} (h : Split left as ls rs) :
    (ls ++ rs).Perm as ∧ ls.Sublist as ∧ rs.Sublist as ∧ (∀ a ∈ ls, left a) ∧ (∀ a ∈ rs, ¬ left a) := by
  induction h with
  | nil => simp
  | left h1 _ ih =>
    obtain ⟨i1, i2, i3, i4, i5⟩ := ih
    exact ⟨i1.cons _, i2.cons_cons _, i3.cons _, by simpa using ⟨h1, i4⟩, i5⟩
  | right h1 _ ih =>
    obtain ⟨i1, i2, i3, i4, i5⟩ := ih
    exact ⟨List.perm_middle.trans (i1.cons _), i2.cons _, i3.cons_cons _, i4, by simpa using ⟨h1, i5⟩⟩

/-- C59: the test is the true winding whenever twice the signed area fits `i64`; in
particular a checked build never puts a ring on the wrong side. -/
theorem C59_true_winding (r : Ring) :
    (CountsAsOuter .debug r ↔ 0 ≤ ringShoelace r) ∧
    (InI64 (ringShoelace r) → (CountsAsOuter .release r ↔ 0 ≤ ringShoelace r)) := by
  refine ⟨Iff.rfl, fun h => ?_⟩
  show 0 ≤ wrap64 _ ↔ _
  rw [wrap64_of_inI64 h]

/-- Non-vacuity: a region with an outer ring and a hole, from a file in memory. -/
def holeRecord : OutRecord :=
  { number := 1
    box := unitBox
    rings :=
      [[⟨0, 0⟩, ⟨0, 0x3fe0000000000000⟩, ⟨0x3fe0000000000000, 0x3fe0000000000000⟩, ⟨0, 0⟩],
       [⟨0, 0⟩, ⟨0x3fd0000000000000, 0x3fd0000000000000⟩, ⟨0, 0x3fd0000000000000⟩, ⟨0, 0⟩]] }

example : (match ShapefileReader.new .release (⟨writeShp unitBox [holeRecord]⟩ : MemFile)
      (⟨writeDbf { dbfTable with records := dbfTable.records.take 1 }⟩ : MemFile) Encoding.ascii with
    | .ok (.ok r) => match (ShapefileGeoIterator.new r).next .release with
      | .ok (some (.ok region), _) => some (region.outerRings, region.innerRings, region.data.bytes)
      | _ => none
    | _ => none) =
    some ([.points [⟨0, 4294967295⟩, ⟨0, 2147483647⟩, ⟨2147483647, 2147483647⟩, ⟨0, 4294967295⟩]],
      [.points [⟨0, 4294967295⟩, ⟨1073741823, 3221225471⟩, ⟨0, 3221225471⟩, ⟨0, 4294967295⟩]],
      (dbfTable.records.take 1).flatten) := by
  decide +kernel

/-! ## C63 -/

/-- C63: the frame of the box is a clockwise ring, but its area overflows: a release
build counts it as a hole, a checked build panics. -/
theorem C63_frame {b : ShpBoundingBox} {west south east north : Rat} (hb : IsBox b west south east north)
    {ring : ShpPolygonRing} (hr : IsFrame ring west south east north) :
    let quantized := Ring.points (ring.map (ShapefileQuantizer.new b).quantize)
    0 < ringShoelace quantized ∧ ¬ CountsAsOuter .release quantized ∧
    quantized.windingOrder .release = .ok .counterClockwise ∧
    quantized.windingOrder .debug = .error .overflow := by
  obtain ⟨p, q, r, s, rfl, hp, hq, hr, hs⟩ := hr
  obtain ⟨p1, _, p3, _⟩ := C58_sides hb hp
  obtain ⟨_, q2, q3, _⟩ := C58_sides hb hq
  obtain ⟨_, r2, _, r4⟩ := C58_sides hb hr
  obtain ⟨s1, _, _, s4⟩ := C58_sides hb hs
  set Q := (ShapefileQuantizer.new b).quantize with hQ
  have ep : Q p = ⟨0, 0⟩ := by
    rw [show Q p = ⟨(Q p).x, (Q p).y⟩ from rfl, p1 rfl, p3 rfl]
  have eq : Q q = ⟨4294967295, 0⟩ := by
    have : (Q q).x = 4294967295 := UInt32.toNat_inj.mp (q2 rfl)
    rw [show Q q = ⟨(Q q).x, (Q q).y⟩ from rfl, this, q3 rfl]
  have er : Q r = ⟨4294967295, 4294967295⟩ := by
    have h1 : (Q r).x = 4294967295 := UInt32.toNat_inj.mp (r2 rfl)
    have h2 : (Q r).y = 4294967295 := UInt32.toNat_inj.mp (r4 rfl)
    rw [show Q r = ⟨(Q r).x, (Q r).y⟩ from rfl, h1, h2]
  have es : Q s = ⟨0, 4294967295⟩ := by
    have : (Q s).y = 4294967295 := UInt32.toNat_inj.mp (s4 rfl)
    rw [show Q s = ⟨(Q s).x, (Q s).y⟩ from rfl, this, s1 rfl]
  simp only [List.map_cons, List.map_nil, ep, eq, er, es]
  unfold CountsAsOuter
  decide +kernel

/-- C63: so the region of a record with just that ring has no outer ring. -/
theorem C63_region {σ τ : Type} [Source σ] [Source τ] {west south east north : Rat} (it it' : ShapefileGeoIterator σ τ)
    {b : ShpBoundingBox} (hb : IsBox b west south east north) (hq : it.quantizer = ShapefileQuantizer.new b)
    (record : ShapefileRecord) (reader' : ShapefileReader σ τ) (ring : ShpPolygonRing)
    (hr : IsFrame ring west south east north) (h1 : record.rings = [ring])
    (h : it.reader.next = .ok (some (.ok record), reader')) :
    it.next .debug = .error .overflow ∧
    it.next .release = .ok (some (.ok ⟨record.data, [], [.points (ring.map (ShapefileQuantizer.new b).quantize)]⟩),
      ⟨reader', it.quantizer⟩) := by
  obtain ⟨_, _, f3, f4⟩ := C63_frame hb hr
  unfold ShapefileGeoIterator.next
  rw [h, ok_bind, ok_bind]
  dsimp only
  have e : shpPolygonRingToRing it.quantizer ring = .points (ring.map (ShapefileQuantizer.new b).quantize) := by rw [hq]; rfl
  constructor
  · rw [h1, partitionRings, e, f4]; rfl
  · rw [h1, partitionRings, e, f3]; rfl

/-- Non-vacuity: the frame of the unit square, from a file in memory. -/
example : IsFrame [⟨0, unitBox.b3⟩, ⟨unitBox.b2, unitBox.b3⟩, ⟨unitBox.b2, 0⟩, ⟨0, 0⟩, ⟨0, unitBox.b3⟩] 0 0 1 1 :=
  ⟨_, _, _, _, rfl, ⟨by decide +kernel, by decide +kernel⟩, ⟨by decide +kernel, by decide +kernel⟩,
    ⟨by decide +kernel, by decide +kernel⟩, ⟨by decide +kernel, by decide +kernel⟩⟩

end TopoGeo
