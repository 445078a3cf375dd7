import Verif.Proofs.F64
import Verif.Spec.ReadGeo
/-!
# Quantizing one coordinate
-/

namespace TopoGeo
open Spec

/-- `q as u32` for a non-negative `q`. -/
def satU32 (q : Rat) : UInt32 :=
  if q.floor ≥ 4294967295 then 4294967295 else UInt32.ofNat q.floor.toNat

theorem satU32_toNat {q : Rat} (h : 0 ≤ q) : ((satU32 q).toNat : Int) = min q.floor 4294967295 := by
  have h0 : 0 ≤ q.floor := by rw [ratFloor_eq]; exact Int.floor_nonneg.mpr h
  unfold satU32
  split
  · rename_i h1
    rw [min_eq_right h1]; rfl
  · rename_i h1
    rw [min_eq_left (by omega), UInt32.toNat_ofNat']
    have : q.floor.toNat % 2 ^ 32 = q.floor.toNat := Nat.mod_eq_of_lt (by omega)
    rw [this]; omega

theorem satU32_max {q : Rat} (h : 4294967295 ≤ q) : satU32 q = 4294967295 := by
  unfold satU32
  rw [if_pos]
  rw [ratFloor_eq]
  exact Int.le_floor.mpr (by exact_mod_cast h)

theorem satU32_zero : satU32 0 = 0 := by decide +kernel

theorem satU32_mono {p q : Rat} (hp : 0 ≤ p) (h : p ≤ q) : satU32 p ≤ satU32 q := by
  rw [UInt32.le_iff_toNat_le]
  have h1 := satU32_toNat hp
  have h2 := satU32_toNat (le_trans hp h)
  have h3 : p.floor ≤ q.floor := by rw [ratFloor_eq, ratFloor_eq]; exact Int.floor_mono h
  omega

/-- The product before the cast, for an offset `d` and a rounded extent `E`. -/
def scaled (d E : Rat) : Rat := roundMag (roundMag (roundMag d / E) * 4294967295)

theorem scaled_nonneg {d E : Rat} (hd : 0 ≤ d) (hE : 0 < E) : 0 ≤ scaled d E :=
  roundMag_nonneg (mul_nonneg (roundMag_nonneg (div_nonneg (roundMag_nonneg hd) hE.le)) (by norm_num))

theorem scaled_mono {d d' E : Rat} (hE : 0 < E) (hd : 0 ≤ d) (h : d ≤ d') : scaled d E ≤ scaled d' E := by
  have h1 := roundMag_mono hd h
  have h0 := roundMag_nonneg hd
  have h2 := roundMag_mono (div_nonneg h0 hE.le) (div_le_div_of_nonneg_right h1 hE.le)
  exact roundMag_mono (mul_nonneg (roundMag_nonneg (div_nonneg h0 hE.le)) (by norm_num))
    (mul_le_mul_of_nonneg_right h2 (by norm_num))

theorem scaled_zero (E : Rat) : scaled 0 E = 0 := by simp [scaled, roundMag_zero]

theorem scaled_self {D : Rat} (hD : 0 < roundMag D) : scaled D (roundMag D) = 4294967295 := by
  unfold scaled
  rw [div_self hD.ne', roundMag_one, one_mul, roundMag_u32Max]

theorem scaled_big {d E : Rat} (hE : 0 < E) (h : E ≤ roundMag d) : 4294967295 ≤ scaled d E := by
  unfold scaled
  have h1 : (1 : Rat) ≤ roundMag d / E := (one_le_div₀ hE).mpr h
  have h2 := roundMag_mono (by norm_num) h1
  rw [roundMag_one] at h2
  have h3 : (4294967295 : Rat) ≤ roundMag (roundMag d / E) * 4294967295 := by linarith
  have h4 := roundMag_mono (by norm_num) h3
  rwa [roundMag_u32Max] at h4

theorem roundSigned_ok {neg : Bool} {q : Rat} (h : roundMag q < pow2 1024) :
    F64.roundSigned neg q = .fin neg (roundMag q) := if_pos h

theorem roundSigned_inf {neg : Bool} {q : Rat} (h : ¬ roundMag q < pow2 1024) :
    F64.roundSigned neg q = .inf neg := if_neg h

theorem asU32_neg_roundSigned (q : Rat) : (F64.roundSigned true q).asU32 = 0 := by
  by_cases h : roundMag q < pow2 1024
  · rw [roundSigned_ok h]; rfl
  · rw [roundSigned_inf h]; rfl

/-- An offset in the direction of the extent. -/
theorem scale_pos {s : Bool} {d E : Rat} (hE : 0 < E) (hE2 : E < pow2 1024) :
    (((F64.roundSigned s d).div (.fin s E)).mul F64.u32Max).asU32 = satU32 (scaled d E) := by
  by_cases h1 : roundMag d < pow2 1024
  · rw [roundSigned_ok h1]
    have e1 : (F64.fin s (roundMag d)).div (.fin s E) = F64.roundSigned false (roundMag d / E) := by
      show (if E = 0 then _ else F64.roundSigned (s != s) (roundMag d / E)) = _
      rw [if_neg hE.ne', bne_self_eq_false]
    rw [e1]
    by_cases h2 : roundMag (roundMag d / E) < pow2 1024
    · rw [roundSigned_ok h2]
      have e2 : (F64.fin false (roundMag (roundMag d / E))).mul F64.u32Max =
          F64.roundSigned false (roundMag (roundMag d / E) * 4294967295) := rfl
      rw [e2]
      by_cases h3 : roundMag (roundMag (roundMag d / E) * 4294967295) < pow2 1024
      · rw [roundSigned_ok h3]; rfl
      · rw [roundSigned_inf h3, satU32_max]
        · rfl
        · exact le_trans u32Max_lt_pow2.le (not_lt.mp h3)
    · rw [roundSigned_inf h2, satU32_max]
      · decide +kernel
      · have h3 : (1 : Rat) ≤ roundMag (roundMag d / E) := by
          have := u32Max_lt_pow2
          linarith [not_lt.mp h2]
        have h4 : (4294967295 : Rat) ≤ roundMag (roundMag d / E) * 4294967295 := by linarith
        have h5 := roundMag_mono (by norm_num) h4
        rwa [roundMag_u32Max] at h5
  · rw [roundSigned_inf h1, satU32_max (scaled_big hE (le_trans hE2.le (not_lt.mp h1)))]
    cases s <;> simp [F64.div, F64.mul, F64.u32Max, F64.asU32]

/-- An offset against the direction of the extent. -/
theorem scale_neg {s : Bool} {d E : Rat} (hE : 0 < E) :
    (((F64.roundSigned (!s) d).div (.fin s E)).mul F64.u32Max).asU32 = 0 := by
  by_cases h1 : roundMag d < pow2 1024
  · rw [roundSigned_ok h1]
    have e1 : (F64.fin (!s) (roundMag d)).div (.fin s E) = F64.roundSigned true (roundMag d / E) := by
      show (if E = 0 then _ else F64.roundSigned ((!s) != s) (roundMag d / E)) = _
      rw [if_neg hE.ne']; cases s <;> rfl
    rw [e1]
    by_cases h2 : roundMag (roundMag d / E) < pow2 1024
    · rw [roundSigned_ok h2]
      exact asU32_neg_roundSigned _
    · rw [roundSigned_inf h2]; simp [F64.mul, F64.u32Max, F64.asU32]
  · rw [roundSigned_inf h1]
    cases s <;> simp [F64.div, F64.mul, F64.u32Max, F64.asU32]

theorem scale_zero {s t : Bool} {E : Rat} (hE : 0 < E) :
    (((F64.fin t 0).div (.fin s E)).mul F64.u32Max).asU32 = 0 := by
  have e1 : (F64.fin t 0).div (.fin s E) = F64.roundSigned (t != s) (0 / E) := by
    show (if E = 0 then _ else F64.roundSigned (t != s) (0 / E)) = _
    rw [if_neg hE.ne']
  have h : roundMag (0 / E) < pow2 1024 := by rw [zero_div, roundMag_zero]; exact pow2_pos _
  rw [e1, roundSigned_ok h, zero_div, roundMag_zero]
  have e2 : (F64.fin (t != s) 0).mul F64.u32Max = F64.roundSigned ((t != s) != false) (0 * 4294967295) := rfl
  rw [e2, zero_mul, roundSigned_ok (by rw [roundMag_zero]; exact pow2_pos _), roundMag_zero]
  cases (t != s) <;> decide +kernel

theorem doubleVal_iff {bits : UInt64} {v : Rat} :
    doubleVal bits = some v ↔ ∃ neg q, F64.ofBits bits = .fin neg q ∧ signedVal neg q = v := by
  unfold doubleVal
  cases F64.ofBits bits with
  | nan => simp
  | inf n => simp
  | fin neg q => simp [signedVal]

theorem doubleVal_grid {bits : UInt64} {v : Rat} (h : doubleVal bits = some v) : Grid v := by
  obtain ⟨neg, q, h1, rfl⟩ := doubleVal_iff.mp h
  have h2 := (grid_ofBits h1).2
  unfold signedVal
  split
  · exact h2.neg
  · exact h2

theorem sub_bits {a b : UInt64} {x y : Rat} (ha : doubleVal a = some x) (hb : doubleVal b = some y) :
    (y < x → (F64.ofBits a).sub (F64.ofBits b) = F64.roundSigned false (x - y)) ∧
    (x < y → (F64.ofBits a).sub (F64.ofBits b) = F64.roundSigned true (y - x)) ∧
    (x = y → ∃ t, (F64.ofBits a).sub (F64.ofBits b) = .fin t 0) := by
  obtain ⟨n1, q1, h1, rfl⟩ := doubleVal_iff.mp ha
  obtain ⟨n2, q2, h2, rfl⟩ := doubleVal_iff.mp hb
  rw [h1, h2]
  unfold F64.sub; dsimp only
  refine ⟨fun h => ?_, fun h => ?_, fun h => ?_⟩
  · rw [if_neg (by linarith), if_neg (by linarith)]
  · rw [if_neg (by linarith), if_pos (by linarith), neg_sub]
  · rw [if_pos (by linarith)]
    exact ⟨_, rfl⟩

theorem pow2_limit : pow2 1024 - pow2 970 = 2 ^ 1024 - 2 ^ 970 := by
  rw [pow2_eq, pow2_eq]; rfl

/-- What is needed of one axis: extent and rounded extent. -/
theorem extent {a b : UInt64} {x y : Rat} (ha : doubleVal a = some x) (hb : doubleVal b = some y)
    (h : x ≠ y) (hlt : |x - y| < 2 ^ 1024 - 2 ^ 970) :
    (F64.ofBits a).sub (F64.ofBits b) = .fin (decide (x < y)) (roundMag |x - y|) ∧
    0 < roundMag |x - y| ∧ roundMag |x - y| < pow2 1024 := by
  rw [← pow2_limit] at hlt
  have h3 := roundMag_lt (abs_nonneg _) hlt
  have hg := (doubleVal_grid ha).sub (doubleVal_grid hb)
  obtain ⟨s1, s2, _⟩ := sub_bits ha hb
  rcases lt_or_gt_of_ne h with hl | hl
  · have e : |x - y| = y - x := by rw [abs_of_neg (by linarith)]; ring
    rw [e] at h3 ⊢
    refine ⟨?_, roundMag_grid_pos ?_ (by linarith), h3⟩
    · rw [s2 hl, roundSigned_ok h3, decide_eq_true hl]
    · rw [← neg_sub]; exact hg.neg
  · have e : |x - y| = x - y := abs_of_pos (by linarith)
    rw [e] at h3 ⊢
    refine ⟨?_, roundMag_grid_pos hg (by linarith), h3⟩
    rw [s1 hl, roundSigned_ok h3, decide_eq_false (by linarith)]

/-- One coordinate when the extent is positive. -/
theorem quantizeCoord_up {p o : UInt64} {x y E : Rat} (hp : doubleVal p = some x) (ho : doubleVal o = some y)
    (hE : 0 < E) (hE2 : E < pow2 1024) :
    quantizeCoord (F64.ofBits p) (F64.ofBits o) (.fin false E) = satU32 (scaled (max (x - y) 0) E) := by
  obtain ⟨s1, s2, s3⟩ := sub_bits hp ho
  unfold quantizeCoord
  rcases lt_trichotomy x y with hl | rfl | hl
  · rw [s2 hl, max_eq_right (by linarith), scaled_zero, satU32_zero]
    exact scale_neg (s := false) hE
  · obtain ⟨t, ht⟩ := s3 rfl
    rw [ht, sub_self, max_self, scaled_zero, satU32_zero]
    exact scale_zero hE
  · rw [s1 hl, max_eq_left (by linarith)]
    exact scale_pos hE hE2

/-- One coordinate when the extent is negative. -/
theorem quantizeCoord_down {p o : UInt64} {x y E : Rat} (hp : doubleVal p = some x) (ho : doubleVal o = some y)
    (hE : 0 < E) (hE2 : E < pow2 1024) :
    quantizeCoord (F64.ofBits p) (F64.ofBits o) (.fin true E) = satU32 (scaled (max (y - x) 0) E) := by
  obtain ⟨s1, s2, s3⟩ := sub_bits hp ho
  unfold quantizeCoord
  rcases lt_trichotomy x y with hl | rfl | hl
  · rw [s2 hl, max_eq_left (by linarith)]
    exact scale_pos hE hE2
  · obtain ⟨t, ht⟩ := s3 rfl
    rw [ht, sub_self, max_self, scaled_zero, satU32_zero]
    exact scale_zero hE
  · rw [s1 hl, max_eq_right (by linarith), scaled_zero, satU32_zero]
    exact scale_neg (s := true) hE

/-- The whole quantizer in terms of `scaled`. -/
theorem quantize_eq {b : ShpBoundingBox} {west south east north : Rat} (hb : IsBox b west south east north)
    {p : ShpPoint} {x y : Rat} (hp : IsAt p x y) :
    (ShapefileQuantizer.new b).quantize p =
      ⟨satU32 (scaled (max (x - west) 0) (roundMag (east - west))),
       satU32 (scaled (max (north - y) 0) (roundMag (north - south)))⟩ ∧
    0 < roundMag (east - west) ∧ 0 < roundMag (north - south) := by
  have hw := hb.wide
  have hh := hb.high
  have aw : |east - west| = east - west := abs_of_pos (by linarith)
  have ah : |south - north| = north - south := by rw [abs_of_neg (by linarith)]; ring
  obtain ⟨e1, e2, e3⟩ := extent hb.eastSide hb.westSide hw.ne' (by rw [aw]; exact hb.width)
  obtain ⟨f1, f2, f3⟩ := extent hb.southSide hb.northSide hh.ne (by rw [ah]; exact hb.height)
  rw [aw, decide_eq_false (by linarith)] at e1
  rw [ah, decide_eq_true hh] at f1
  rw [aw] at e2 e3
  rw [ah] at f2 f3
  refine ⟨?_, e2, f2⟩
  unfold ShapefileQuantizer.quantize ShapefileQuantizer.new; dsimp only
  rw [e1, f1, quantizeCoord_up hp.x hb.westSide e2 e3, quantizeCoord_down hp.y hb.northSide f2 f3]

/-! ## Accuracy -/

theorem scaled_err {d D : Rat} (hd : 0 ≤ d) (h : d ≤ D) (hD : 0 < D) (gd : Grid d) (gD : Grid D) :
    |scaled d (roundMag D) - d / D * 4294967295| < 1 / 2 ^ 18 := by
  set u : Rat := pow2 (-53) with hu
  have hu' : u = 1 / 2 ^ 53 := by rw [hu, pow2_eq]; norm_num
  have ht : pow2 (-1075) ≤ u := pow2_mono (by norm_num)
  have ht0 := pow2_pos (-1075)
  have ed := roundMag_err_grid gd hd
  have eD := roundMag_err_grid gD hD.le
  have pE := roundMag_grid_pos gD hD
  have hle := roundMag_mono hd h
  have h0 := roundMag_nonneg hd
  set rd := roundMag d
  set rD := roundMag D
  set r := d / D with hr
  set ρ := rd / rD with hρ
  have hr0 : 0 ≤ r := div_nonneg hd hD.le
  have hr1 : r ≤ 1 := (div_le_one hD).mpr h
  have hrD : r * D = d := div_mul_cancel₀ _ hD.ne'
  have hρ0 : 0 ≤ ρ := div_nonneg h0 pE.le
  have hρ1 : ρ ≤ 1 := (div_le_one pE).mpr hle
  have hρD : ρ * rD = rd := div_mul_cancel₀ _ pE.ne'
  have h1 : |ρ - r| ≤ 3 * u := by
    have e : (ρ - r) * rD = (rd - d) - r * (rD - D) := by rw [sub_mul, hρD, mul_sub, hrD]; ring
    have a1 : |(ρ - r) * rD| ≤ 2 * (u * D) := by
      rw [e]
      have b1 : |r * (rD - D)| ≤ D * u := by
        rw [abs_mul, abs_of_nonneg hr0]
        calc r * |rD - D| ≤ 1 * |rD - D| := mul_le_mul_of_nonneg_right hr1 (abs_nonneg _)
          _ ≤ D * u := by rw [one_mul]; exact eD
      have b2 : d * u ≤ D * u := mul_le_mul_of_nonneg_right h (pow2_pos _).le
      have := abs_sub (rd - d) (r * (rD - D))
      linarith
    rw [abs_mul, abs_of_pos pE] at a1
    have a2 : (1 - u) * D ≤ rD := by
      have := (abs_le.mp eD).1
      linarith
    have a3 : |ρ - r| * ((1 - u) * D) ≤ 2 * (u * D) :=
      le_trans (mul_le_mul_of_nonneg_left a2 (abs_nonneg _)) a1
    have a4 : |ρ - r| * (1 - u) ≤ 2 * u := by
      have : (|ρ - r| * (1 - u)) * D ≤ (2 * u) * D := by linarith
      exact le_of_mul_le_mul_right this hD
    have a5 : (0 : Rat) ≤ |ρ - r| := abs_nonneg _
    rw [hu'] at a4 ⊢
    norm_num at a4 ⊢
    linarith
  have h2 := roundMag_err hρ0
  have t1 := roundMag_mono hρ0 hρ1
  rw [roundMag_one] at t1
  have t0 := roundMag_nonneg hρ0
  set t := roundMag ρ with htt
  have h2' : |t - ρ| ≤ 2 * u := by
    have : ρ * u ≤ 1 * u := mul_le_mul_of_nonneg_right hρ1 (pow2_pos _).le
    linarith
  have h3 := roundMag_err (q := t * 4294967295) (by positivity)
  have h3' : |roundMag (t * 4294967295) - t * 4294967295| ≤ 4294967296 * u := by
    have : t * 4294967295 * u ≤ 1 * 4294967295 * u :=
      mul_le_mul_of_nonneg_right (by linarith) (pow2_pos _).le
    linarith
  have hs : scaled d rD = roundMag (t * 4294967295) := rfl
  rw [hs]
  rw [hu'] at h1 h2' h3'
  rw [abs_lt]
  rw [abs_le] at h1 h2' h3'
  norm_num at h1 h2' h3' ⊢
  constructor <;> linarith [h1.1, h1.2, h2'.1, h2'.2, h3'.1, h3'.2]

end TopoGeo
