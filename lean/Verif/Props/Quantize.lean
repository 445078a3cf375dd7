import Verif.Spec.Quantize
import Verif.Props.ReadGeo
/-!
# C83: quantization is total
-/

namespace TopoGeo
open Spec

theorem ofBits_nan {b : UInt64} : IsNaN b ↔ F64.ofBits b = .nan := by
  have hb := b.toNat_lt
  unfold IsNaN F64.ofBits
  dsimp only
  by_cases h1 : b.toNat / 2 ^ 52 % 2048 = 2047
  · rw [if_pos h1]
    by_cases h2 : b.toNat % 2 ^ 52 = 0
    · rw [if_pos h2]
      simp only [reduceCtorEq, iff_false]
      omega
    · rw [if_neg h2]
      simp only [iff_true]
      omega
  · rw [if_neg h1]
    have : ¬ 2047 * 2 ^ 52 < b.toNat % 2 ^ 63 := by omega
    split <;> simp only [this, reduceCtorEq]

theorem ofBits_inf {b : UInt64} : IsInfinite b ↔ ∃ s, F64.ofBits b = .inf s := by
  have hb := b.toNat_lt
  unfold IsInfinite F64.ofBits
  dsimp only
  by_cases h1 : b.toNat / 2 ^ 52 % 2048 = 2047
  · rw [if_pos h1]
    by_cases h2 : b.toNat % 2 ^ 52 = 0
    · rw [if_pos h2]
      refine ⟨fun _ => ⟨_, rfl⟩, fun _ => by omega⟩
    · rw [if_neg h2]
      simp only [reduceCtorEq, exists_const, iff_false]
      omega
  · rw [if_neg h1]
    have : ¬ b.toNat % 2 ^ 63 = 2047 * 2 ^ 52 := by omega
    split <;> simp only [this, reduceCtorEq, exists_const]

theorem ofBits_inf_bits {b : UInt64} {s : Bool} (h : F64.ofBits b = .inf s) :
    b = if s then minusInfinity else plusInfinity := by
  have hb := b.toNat_lt
  unfold F64.ofBits at h
  dsimp only at h
  by_cases h1 : b.toNat / 2 ^ 52 % 2048 = 2047
  · rw [if_pos h1] at h
    by_cases h2 : b.toNat % 2 ^ 52 = 0
    · rw [if_pos h2] at h
      injection h with h
      apply UInt64.toNat_inj.mp
      by_cases h3 : b.toNat / 2 ^ 63 = 1
      · rw [decide_eq_true h3] at h
        subst h
        show b.toNat = 18442240474082181120
        omega
      · rw [decide_eq_false h3] at h
        subst h
        show b.toNat = 9218868437227405312
        omega
    · rw [if_neg h2] at h; simp at h
  · rw [if_neg h1] at h
    split at h <;> simp at h

/-- The three kinds of doubles. -/
theorem double_cases (b : UInt64) :
    F64.ofBits b = .nan ∨ (F64.ofBits b = .inf true ∧ b = minusInfinity) ∨
    (F64.ofBits b = .inf false ∧ b = plusInfinity) ∨ ∃ x, doubleVal b = some x := by
  cases h : F64.ofBits b with
  | nan => exact .inl rfl
  | inf s =>
    have := ofBits_inf_bits h
    cases s
    · exact .inr (.inr (.inl ⟨rfl, this⟩))
    · exact .inr (.inl ⟨rfl, this⟩)
  | fin n q => exact .inr (.inr (.inr ⟨_, doubleVal_iff.mpr ⟨n, q, h, rfl⟩⟩))

/-- One axis of the quantizer. -/
def axis (p start stop : UInt64) : UInt32 :=
  quantizeCoord (F64.ofBits p) (F64.ofBits start) ((F64.ofBits stop).sub (F64.ofBits start))

theorem roundMag_top : roundMag (pow2 1024 - pow2 970) = pow2 1024 := by decide +kernel

theorem measurable_iff {a b : Rat} : Measurable a b ↔ |b - a| < 2 ^ 1024 - 2 ^ 970 := by
  unfold Measurable
  rw [abs_lt]
  constructor <;> rintro ⟨h1, h2⟩ <;> constructor <;> linarith

theorem extent_far {a b : UInt64} {x y : Rat} (ha : doubleVal a = some x) (hb : doubleVal b = some y)
    (h : ¬ Measurable y x) : ∃ s, (F64.ofBits a).sub (F64.ofBits b) = .inf s := by
  rw [measurable_iff, ← pow2_limit, not_lt] at h
  have hpos : (0 : Rat) ≤ pow2 1024 - pow2 970 := by
    have : pow2 970 ≤ pow2 1024 := pow2_mono (by norm_num)
    linarith
  have hpos' : (0 : Rat) < pow2 1024 - pow2 970 := by decide +kernel
  have h1 := roundMag_mono hpos h
  rw [roundMag_top] at h1
  obtain ⟨s1, s2, _⟩ := sub_bits ha hb
  rcases lt_trichotomy x y with hl | rfl | hl
  · have e : |x - y| = y - x := by rw [abs_of_neg (by linarith)]; ring
    rw [e] at h1
    exact ⟨_, (s2 hl).trans (roundSigned_inf (not_lt.mpr h1))⟩
  · rw [sub_self, abs_zero] at h; linarith
  · rw [abs_of_pos (by linarith)] at h1
    exact ⟨_, (s1 hl).trans (roundSigned_inf (not_lt.mpr h1))⟩

/-- Nothing survives an infinite extent. -/
theorem coord_inf (d : F64) (s : Bool) : ((d.div (.inf s)).mul F64.u32Max).asU32 = 0 := by
  cases d with
  | nan => rfl
  | inf t => rfl
  | fin t q =>
    have e : ((F64.fin t q).div (.inf s)).mul F64.u32Max = F64.roundSigned ((t != s) != false) (0 * 4294967295) := rfl
    rw [e, zero_mul, roundSigned_ok (by rw [roundMag_zero]; exact pow2_pos _), roundMag_zero]
    cases (t != s) <;> decide +kernel

theorem coord_nan (d : F64) : ((d.div .nan).mul F64.u32Max).asU32 = 0 := by
  cases d <;> rfl

theorem coord_nan_left (e : F64) : ((F64.div .nan e).mul F64.u32Max).asU32 = 0 := by
  cases e <;> rfl

/-- Dividing by a zero. -/
theorem coord_zero (d : F64) (s : Bool) :
    ((d.div (.fin s 0)).mul F64.u32Max).asU32 =
      match d with
      | .nan => 0
      | .inf t => if t = s then 4294967295 else 0
      | .fin t q => if q = 0 then 0 else if t = s then 4294967295 else 0 := by
  cases d with
  | nan => rfl
  | inf t =>
    cases t <;> cases s <;> simp [F64.div, F64.mul, F64.u32Max, F64.asU32]
  | fin t q =>
    have e : (F64.fin t q).div (.fin s 0) = if q = 0 then .nan else .inf (t != s) := by
      unfold F64.div; dsimp only; rw [if_pos rfl]
    rw [e]
    by_cases hq : q = 0
    · rw [if_pos hq]; dsimp only; rw [if_pos hq]; rfl
    · rw [if_neg hq]; dsimp only; rw [if_neg hq]
      cases t <;> cases s <;> simp [F64.mul, F64.u32Max, F64.asU32]

theorem sub_nan (a : F64) : a.sub .nan = .nan := by cases a <;> rfl

/-- The offset from a finite start. -/
theorem offset_sign {p o : UInt64} {a : Rat} (ho : doubleVal o = some a) (s : Bool) :
    ((((F64.ofBits p).sub (F64.ofBits o)).div (.fin s 0)).mul F64.u32Max).asU32.toNat =
      if (if s then decide (p = minusInfinity ∨ ∃ x, doubleVal p = some x ∧ x < a)
        else decide (p = plusInfinity ∨ ∃ x, doubleVal p = some x ∧ a < x)) then 2 ^ 32 - 1 else 0 := by
  classical
  obtain ⟨n, q, h1, h2⟩ := doubleVal_iff.mp ho
  rw [coord_zero]
  rcases double_cases p with h | ⟨h, hp⟩ | ⟨h, hp⟩ | ⟨x, hx⟩
  · have hd : doubleVal p = none := by unfold doubleVal; rw [h]
    have n1 : p ≠ minusInfinity := by rintro rfl; revert h; decide +kernel
    have n2 : p ≠ plusInfinity := by rintro rfl; revert h; decide +kernel
    have e : (F64.ofBits p).sub (F64.ofBits o) = .nan := by rw [h, h1]; rfl
    rw [e]
    cases s <;> simp [hd, n1, n2]
  · have hd : doubleVal p = none := by unfold doubleVal; rw [h]
    have n2 : p ≠ plusInfinity := by rintro rfl; revert h; decide +kernel
    have e : (F64.ofBits p).sub (F64.ofBits o) = .inf true := by rw [h, h1]; rfl
    rw [e]
    cases s
    · simp [hd, n2]
    · simp [hp]
  · have hd : doubleVal p = none := by unfold doubleVal; rw [h]
    have n1 : p ≠ minusInfinity := by rintro rfl; revert h; decide +kernel
    have e : (F64.ofBits p).sub (F64.ofBits o) = .inf false := by rw [h, h1]; rfl
    rw [e]
    cases s
    · simp [hp]
    · simp [hd, n1]
  · have n1 : p ≠ minusInfinity := by rintro rfl; revert hx; unfold doubleVal; rw [show F64.ofBits minusInfinity = .inf true by decide +kernel]; simp
    have n2 : p ≠ plusInfinity := by rintro rfl; revert hx; unfold doubleVal; rw [show F64.ofBits plusInfinity = .inf false by decide +kernel]; simp
    obtain ⟨s1, s2, s3⟩ := sub_bits hx ho
    have gr := (doubleVal_grid hx).sub (doubleVal_grid ho)
    rcases lt_trichotomy x a with hl | rfl | hl
    · have hpos : 0 < roundMag (a - x) := roundMag_grid_pos (by rw [← neg_sub]; exact gr.neg) (by linarith)
      rw [s2 hl]
      have g1 : ¬ a < x := by linarith
      by_cases hr : roundMag (a - x) < pow2 1024
      · rw [roundSigned_ok hr]
        cases s <;> simp [hx, n1, n2, hl, g1, hpos.ne']
      · rw [roundSigned_inf hr]
        cases s <;> simp [hx, n1, n2, hl, g1]
    · obtain ⟨t, ht⟩ := s3 rfl
      rw [ht]
      cases s <;> simp [hx, n1, n2]
    · have hpos : 0 < roundMag (x - a) := roundMag_grid_pos gr (by linarith)
      rw [s1 hl]
      have g1 : ¬ x < a := by linarith
      by_cases hr : roundMag (x - a) < pow2 1024
      · rw [roundSigned_ok hr]
        cases s <;> simp [hx, n1, n2, hl, g1, hpos.ne']
      · rw [roundSigned_inf hr]
        cases s <;> simp [hx, n1, n2, hl, g1]

theorem ofBits_zero {b : UInt64} {s : Bool} (h : F64.ofBits b = .fin s 0) : b = if s then minusZero else 0 := by
  have hb := b.toNat_lt
  unfold F64.ofBits at h
  dsimp only at h
  by_cases h1 : b.toNat / 2 ^ 52 % 2048 = 2047
  · rw [if_pos h1] at h
    split at h <;> simp at h
  · rw [if_neg h1] at h
    by_cases h2 : b.toNat / 2 ^ 52 % 2048 = 0
    · rw [if_pos h2] at h
      injection h with h3 h4
      have h5 : b.toNat % 2 ^ 52 = 0 := by
        rcases mul_eq_zero.mp h4 with h | h
        · exact_mod_cast h
        · exact absurd h (pow2_pos _).ne'
      apply UInt64.toNat_inj.mp
      by_cases h6 : b.toNat / 2 ^ 63 = 1
      · rw [decide_eq_true h6] at h3
        subst h3
        show b.toNat = 9223372036854775808
        omega
      · rw [decide_eq_false h6] at h3
        subst h3
        show b.toNat = 0
        omega
    · rw [if_neg h2] at h
      injection h with h3 h4
      rcases mul_eq_zero.mp h4 with h | h
      · have : 2 ^ 52 + b.toNat % 2 ^ 52 = 0 := by exact_mod_cast h
        omega
      · exact absurd h (pow2_pos _).ne'

/-- The extent between two sides at the same place. -/
theorem extent_flat {start stop : UInt64} {a : Rat} (h1 : doubleVal start = some a) (h2 : doubleVal stop = some a) :
    (F64.ofBits stop).sub (F64.ofBits start) = .fin (decide (start = 0 ∧ stop = minusZero)) 0 := by
  obtain ⟨n1, q1, e1, v1⟩ := doubleVal_iff.mp h1
  obtain ⟨n2, q2, e2, v2⟩ := doubleVal_iff.mp h2
  rw [e1, e2]
  unfold F64.sub; dsimp only
  rw [if_pos (by rw [v1, v2, sub_self])]
  congr 1
  by_cases h : start = 0 ∧ stop = minusZero
  · rw [decide_eq_true h]
    obtain ⟨rfl, rfl⟩ := h
    have f1 : F64.ofBits 0 = .fin false 0 := by decide +kernel
    have f2 : F64.ofBits minusZero = .fin true 0 := by decide +kernel
    rw [f1] at e1
    rw [f2] at e2
    injection e1 with g1 g2
    injection e2 with g3 g4
    subst g1; subst g2; subst g3; subst g4
    rfl
  · rw [decide_eq_false h]
    by_contra hc
    rw [Bool.not_eq_false] at hc
    simp only [Bool.and_eq_true, Bool.not_eq_true', beq_iff_eq] at hc
    obtain ⟨⟨rfl, rfl⟩, rfl⟩ := hc
    have hz : q1 = 0 := by
      rw [← v2] at v1
      simpa [signedVal] using v1
    subst hz
    exact h ⟨ofBits_zero e1, ofBits_zero e2⟩

theorem scaled_cases {d D : Rat} (hD : 0 < D) (gd : Grid d) (gD : Grid D) :
    let exact : Rat := d / D * (2 ^ 32 - 1)
    let r := satU32 (scaled (max d 0) (roundMag D))
    (exact ≤ 0 → r = 0) ∧ (2 ^ 32 - 1 ≤ exact → r.toNat = 2 ^ 32 - 1) ∧
    (0 ≤ exact → exact ≤ 2 ^ 32 - 1 → exact - 1 - 1 / 2 ^ 18 < (r.toNat : Rat) ∧ (r.toNat : Rat) < exact + 1 / 2 ^ 18) := by
  have hE := roundMag_grid_pos gD hD
  have m : (2 ^ 32 - 1 : Rat) = 4294967295 := by norm_num
  rw [m]
  dsimp only
  refine ⟨fun h => ?_, fun h => ?_, fun h0 h1 => ?_⟩
  · have : d ≤ 0 := by
      by_contra hc
      have : 0 < d / D := div_pos (not_le.mp hc) hD
      linarith
    rw [max_eq_right this, scaled_zero, satU32_zero]
  · have h2 : (1 : Rat) ≤ d / D := by linarith
    have h3 : D ≤ d := (one_le_div₀ hD).mp h2
    rw [max_eq_left (by linarith), satU32_max (scaled_big hE (roundMag_mono hD.le h3))]; rfl
  · have hd : 0 ≤ d := by
      by_contra hc
      have : d / D < 0 := div_neg_of_neg_of_pos (not_le.mp hc) hD
      linarith
    have hdD : d ≤ D := (div_le_one hD).mp (by linarith)
    rw [max_eq_left hd]
    have k0 := scaled_nonneg hd hE
    have k1 := scaled_mono hE hd hdD
    rw [scaled_self hE] at k1
    have err := scaled_err hd hdD hD gd gD
    set v := scaled d (roundMag D)
    have k2 : ⌊v⌋ ≤ 4294967295 := by
      have : ⌊v⌋ ≤ ⌊((4294967295 : Int) : Rat)⌋ := Int.floor_mono (by exact_mod_cast k1)
      rwa [Int.floor_intCast] at this
    have k3 : (((satU32 v).toNat : Int)) = ⌊v⌋ := by
      rw [satU32_toNat k0, min_eq_left]
      · rfl
      · exact k2
    have k4 : (((satU32 v).toNat : Rat)) = (⌊v⌋ : Rat) := by exact_mod_cast k3
    rw [k4]
    have h3 := Int.floor_le v
    have h4 := Int.lt_floor_add_one v
    have h5 := abs_lt.mp err
    constructor <;> linarith [h5.1, h5.2]

theorem doubleVal_none_of_nan {b : UInt64} (h : F64.ofBits b = .nan) : doubleVal b = none := by
  unfold doubleVal; rw [h]

/-- One axis obeys the rules. -/
theorem axis_rule (p start stop : UInt64) : AxisRule p start stop (axis p start stop) where
  nan := by
    rintro (h | h | h)
    · have := ofBits_nan.mp h
      unfold axis quantizeCoord
      rw [this]
      exact coord_nan_left _
    · have := ofBits_nan.mp h
      unfold axis quantizeCoord
      rw [this, sub_nan]
      exact coord_nan_left _
    · have := ofBits_nan.mp h
      unfold axis quantizeCoord
      rw [this]
      exact coord_nan _
  infiniteSide := by
    intro h
    have key : (F64.ofBits stop).sub (F64.ofBits start) = .nan ∨
        ∃ s, (F64.ofBits stop).sub (F64.ofBits start) = .inf s := by
      rcases h with h | h
      · obtain ⟨s, hs⟩ := ofBits_inf.mp h
        rw [hs]
        cases F64.ofBits stop with
        | nan => exact .inl rfl
        | inf t => cases s <;> cases t <;> simp [F64.sub]
        | fin t q => exact .inr ⟨_, rfl⟩
      · obtain ⟨s, hs⟩ := ofBits_inf.mp h
        rw [hs]
        cases F64.ofBits start with
        | nan => exact .inl rfl
        | inf t => cases s <;> cases t <;> simp [F64.sub]
        | fin t q => exact .inr ⟨_, rfl⟩
    unfold axis quantizeCoord
    rcases key with h | ⟨s, h⟩
    · rw [h]; exact coord_nan _
    · rw [h]; exact coord_inf _ _
  tooFar := by
    intro a b h1 h2 h
    obtain ⟨s, hs⟩ := extent_far h2 h1 h
    unfold axis quantizeCoord
    rw [hs]; exact coord_inf _ _
  infiniteCoord := by
    intro a b h1 h2 hne hm
    obtain ⟨e1, e2, e3⟩ := extent h2 h1 hne.symm (measurable_iff.mp hm)
    obtain ⟨n, q, f1, f2⟩ := doubleVal_iff.mp h1
    have i1 : F64.ofBits plusInfinity = .inf false := by decide +kernel
    have i2 : F64.ofBits minusInfinity = .inf true := by decide +kernel
    unfold axis quantizeCoord
    rw [e1, f1]
    constructor
    · rintro rfl
      rw [i1]
      rcases lt_or_gt_of_ne hne with hl | hl
      · rw [if_pos hl, decide_eq_false (by linarith)]
        simp [F64.sub, F64.div, F64.mul, F64.u32Max, F64.asU32]
      · rw [if_neg (by linarith), decide_eq_true hl]
        simp [F64.sub, F64.div, F64.mul, F64.u32Max, F64.asU32]
    · rintro rfl
      rw [i2]
      rcases lt_or_gt_of_ne hne with hl | hl
      · rw [if_pos hl, decide_eq_false (by linarith)]
        simp [F64.sub, F64.div, F64.mul, F64.u32Max, F64.asU32]
      · rw [if_neg (by linarith), decide_eq_true hl]
        simp [F64.sub, F64.div, F64.mul, F64.u32Max, F64.asU32]
  flat := by
    intro a h1 h2 h
    have e := offset_sign (p := p) h1 false
    unfold axis quantizeCoord
    rw [extent_flat h1 h2, decide_eq_false h]
    constructor
    · intro ha
      rw [e, if_pos]
      simpa [Above] using ha
    · intro ha
      apply UInt32.toNat_inj.mp
      rw [e, if_neg]
      · rfl
      · simpa [Above] using ha
  flatMinus := by
    rintro rfl rfl
    have h1 : doubleVal 0 = some 0 := by decide +kernel
    have h2 : doubleVal minusZero = some 0 := by decide +kernel
    have e := offset_sign (p := p) h1 true
    unfold axis quantizeCoord
    rw [extent_flat h1 h2, decide_eq_true ⟨rfl, rfl⟩]
    constructor
    · intro ha
      rw [e, if_pos]
      simpa [Below] using ha
    · intro ha
      apply UInt32.toNat_inj.mp
      rw [e, if_neg]
      · rfl
      · simpa [Below] using ha
  scaled := by
    intro a b x h1 h2 hp hne hm
    obtain ⟨e1, e2, e3⟩ := extent h2 h1 hne.symm (measurable_iff.mp hm)
    unfold axis
    rcases lt_or_gt_of_ne hne with hl | hl
    · have e : |b - a| = b - a := abs_of_pos (by linarith)
      rw [e] at e1 e2 e3
      rw [e1, decide_eq_false (by linarith), quantizeCoord_up hp h1 e2 e3]
      exact scaled_cases (by linarith) ((doubleVal_grid hp).sub (doubleVal_grid h1))
        ((doubleVal_grid h2).sub (doubleVal_grid h1))
    · have e : |b - a| = a - b := by rw [abs_of_neg (by linarith)]; ring
      rw [e] at e1 e2 e3
      rw [e1, decide_eq_true hl, quantizeCoord_down hp h1 e2 e3]
      have : (x - a) / (b - a) = (a - x) / (a - b) := by
        rw [← neg_sub a x, ← neg_sub a b, neg_div_neg_eq]
      rw [this]
      exact scaled_cases (by linarith) ((doubleVal_grid h1).sub (doubleVal_grid hp))
        ((doubleVal_grid h1).sub (doubleVal_grid h2))

/-- C83: both coordinates follow the rules, whatever the bits of the box and of
the point are. -/
theorem C83_rules (b : ShpBoundingBox) (p : ShpPoint) :
    AxisRule p.x b.b0 b.b2 ((ShapefileQuantizer.new b).quantize p).x ∧
    AxisRule p.y b.b3 b.b1 ((ShapefileQuantizer.new b).quantize p).y :=
  ⟨axis_rule _ _ _, axis_rule _ _ _⟩

/-- C83: the rules leave no case out: they determine both coordinates of every
point in every box, up to one unit where the coordinate is scaled. -/
theorem C83_complete (p start stop : UInt64) (r s : UInt32) (hr : AxisRule p start stop r)
    (hs : AxisRule p start stop s) :
    r = s ∨ ∃ a b x, doubleVal start = some a ∧ doubleVal stop = some b ∧ doubleVal p = some x ∧
      a ≠ b ∧ Measurable a b ∧ (min a b < x ∧ x < max a b) ∧ r.toNat ≤ s.toNat + 1 ∧ s.toNat ≤ r.toNat + 1 := by
  classical
  have fin : ∀ {c : UInt64}, ¬ IsNaN c → ¬ IsInfinite c → ∃ x, doubleVal c = some x := by
    intro c h1 h2
    rcases double_cases c with h | ⟨h, _⟩ | ⟨h, _⟩ | h
    · exact absurd (ofBits_nan.mpr h) h1
    · exact absurd (ofBits_inf.mpr ⟨_, h⟩) h2
    · exact absurd (ofBits_inf.mpr ⟨_, h⟩) h2
    · exact h
  by_cases hn : IsNaN p ∨ IsNaN start ∨ IsNaN stop
  · exact .inl ((hr.nan hn).trans (hs.nan hn).symm)
  by_cases hi : IsInfinite start ∨ IsInfinite stop
  · exact .inl ((hr.infiniteSide hi).trans (hs.infiniteSide hi).symm)
  rw [not_or, not_or] at hn
  rw [not_or] at hi
  obtain ⟨a, ha⟩ := fin hn.2.1 hi.1
  obtain ⟨b, hb⟩ := fin hn.2.2 hi.2
  by_cases hm : Measurable a b
  swap
  · exact .inl ((hr.tooFar a b ha hb hm).trans (hs.tooFar a b ha hb hm).symm)
  by_cases hab : a = b
  · subst hab
    left
    by_cases hz : start = 0 ∧ stop = minusZero
    · by_cases hc : Below p 0
      · exact UInt32.toNat_inj.mp (((hr.flatMinus hz.1 hz.2).1 hc).trans ((hs.flatMinus hz.1 hz.2).1 hc).symm)
      · exact ((hr.flatMinus hz.1 hz.2).2 hc).trans ((hs.flatMinus hz.1 hz.2).2 hc).symm
    · by_cases hc : Above p a
      · exact UInt32.toNat_inj.mp (((hr.flat a ha hb hz).1 hc).trans ((hs.flat a ha hb hz).1 hc).symm)
      · exact ((hr.flat a ha hb hz).2 hc).trans ((hs.flat a ha hb hz).2 hc).symm
  rcases double_cases p with h | ⟨_, h⟩ | ⟨_, h⟩ | ⟨x, hx⟩
  · exact absurd (ofBits_nan.mpr h) hn.1
  · exact .inl (UInt32.toNat_inj.mp (((hr.infiniteCoord a b ha hb hab hm).2 h).trans
      ((hs.infiniteCoord a b ha hb hab hm).2 h).symm))
  · exact .inl (UInt32.toNat_inj.mp (((hr.infiniteCoord a b ha hb hab hm).1 h).trans
      ((hs.infiniteCoord a b ha hb hab hm).1 h).symm))
  obtain ⟨r1, r2, r3⟩ := hr.scaled a b x ha hb hx hab hm
  obtain ⟨s1, s2, s3⟩ := hs.scaled a b x ha hb hx hab hm
  set exact' : Rat := (x - a) / (b - a) * (2 ^ 32 - 1) with hex
  by_cases c1 : exact' ≤ 0
  · exact .inl ((r1 c1).trans (s1 c1).symm)
  by_cases c2 : 2 ^ 32 - 1 ≤ exact'
  · exact .inl (UInt32.toNat_inj.mp ((r2 c2).trans (s2 c2).symm))
  rw [not_le] at c1 c2
  obtain ⟨t1, t2⟩ := r3 c1.le c2.le
  obtain ⟨u1, u2⟩ := s3 c1.le c2.le
  have m : (2 ^ 32 - 1 : Rat) = 4294967295 := by norm_num
  rw [m] at hex c2
  refine .inr ⟨a, b, x, ha, hb, hx, hab, hm, ?_, ?_, ?_⟩
  · have q1 : 0 < (x - a) / (b - a) := by linarith
    have q2 : (x - a) / (b - a) < 1 := by linarith
    rcases lt_or_gt_of_ne hab with hl | hl
    · rw [min_eq_left hl.le, max_eq_right hl.le]
      have h0 : 0 < b - a := by linarith
      rw [div_lt_one h0] at q2
      have := (div_pos_iff_of_pos_right h0).mp q1
      constructor <;> linarith
    · rw [min_eq_right hl.le, max_eq_left hl.le]
      have h0 : 0 < a - b := by linarith
      have e : (x - a) / (b - a) = (a - x) / (a - b) := by
        rw [← neg_sub a x, ← neg_sub a b, neg_div_neg_eq]
      rw [e] at q1 q2
      rw [div_lt_one h0] at q2
      have := (div_pos_iff_of_pos_right h0).mp q1
      constructor <;> linarith
  · have : (r.toNat : Rat) < ((s.toNat + 2 : Nat) : Rat) := by
      push_cast
      norm_num at t1 t2 u1 u2
      linarith
    have := Nat.cast_lt.mp this
    omega
  · have : (s.toNat : Rat) < ((r.toNat + 2 : Nat) : Rat) := by
      push_cast
      norm_num at t1 t2 u1 u2
      linarith
    have := Nat.cast_lt.mp this
    omega

/-- C83: a box turned over mirrors the map: each axis only looks at its own two
sides and its own coordinate, and the rule for y is that for x. -/
theorem C83_axes (b c : ShpBoundingBox) (p q : ShpPoint) :
    (p.x = q.x → b.b0 = c.b0 → b.b2 = c.b2 →
      ((ShapefileQuantizer.new b).quantize p).x = ((ShapefileQuantizer.new c).quantize q).x) ∧
    (p.x = q.y → b.b0 = c.b3 → b.b2 = c.b1 →
      ((ShapefileQuantizer.new b).quantize p).x = ((ShapefileQuantizer.new c).quantize q).y) := by
  refine ⟨fun h1 h2 h3 => ?_, fun h1 h2 h3 => ?_⟩ <;>
  · show axis p.x b.b0 b.b2 = axis _ _ _
    rw [h1, h2, h3]

/-- Non-vacuity: a box of width zero at 1, and a point to the east of it. -/
example : doubleVal 0x3ff0000000000000 = some 1 ∧ Above 0x4000000000000000 1 ∧
    ((ShapefileQuantizer.new ⟨0x3ff0000000000000, 0, 0x3ff0000000000000, 0⟩).quantize
      ⟨0x4000000000000000, 0xbff0000000000000⟩) = ⟨4294967295, 0⟩ :=
  ⟨by decide +kernel, .inr ⟨2, by decide +kernel, by norm_num⟩, by decide +kernel⟩

/-- Non-vacuity: an infinite side, an infinite point, a NaN, a box turned over. -/
example : IsInfinite plusInfinity ∧ IsInfinite minusInfinity ∧ IsNaN 0x7ff8000000000000 ∧
    (ShapefileQuantizer.new ⟨0, 0, plusInfinity, 0x3ff0000000000000⟩).quantize ⟨0x3ff0000000000000, minusInfinity⟩ =
      ⟨0, 4294967295⟩ ∧
    (ShapefileQuantizer.new ⟨0x3ff0000000000000, 0, 0, 0x3ff0000000000000⟩).quantize
      ⟨0x3fd0000000000000, 0x7ff8000000000000⟩ = ⟨3221225471, 0⟩ ∧
    (ShapefileQuantizer.new ⟨0, 0, minusZero, 0⟩).quantize ⟨0xbff0000000000000, 0x3ff0000000000000⟩ =
      ⟨4294967295, 4294967295⟩ := by
  unfold IsInfinite IsNaN
  decide +kernel

end TopoGeo
