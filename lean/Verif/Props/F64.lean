import Verif.Proofs.F64Round
import Verif.Props.Quantize
/-!
# C90: quantization computes as IEEE 754 says
-/

namespace TopoGeo

open Spec

theorem signBit_fin {b : UInt64} {s : Bool} {q : Rat} (h : F64.ofBits b = .fin s q) : signBit b = s := by
  have hb := b.toNat_lt
  have h1 := double_sign h
  unfold signBit
  cases s
  · exact decide_eq_false (by simp only [reduceCtorEq, iff_false] at h1; omega)
  · exact decide_eq_true (by simp only [iff_true] at h1; omega)

theorem signBit_inf {b : UInt64} {s : Bool} (h : F64.ofBits b = .inf s) : signBit b = s := by
  rw [ofBits_inf_bits h]
  cases s <;> decide

/-- What the bit pattern of a NaN is not. -/
theorem nan_facts {b : UInt64} (h : F64.ofBits b = .nan) : IsNaN b ∧ ¬ IsInfinite b ∧ ∀ x, doubleVal b ≠ some x := by
  refine ⟨ofBits_nan.mpr h, fun hi => ?_, fun x hx => ?_⟩
  · obtain ⟨s, hs⟩ := ofBits_inf.mp hi
    rw [h] at hs; cases hs
  · obtain ⟨n, q, hq, _⟩ := doubleVal_iff.mp hx
    rw [h] at hq; cases hq

theorem inf_facts {b : UInt64} {s : Bool} (h : F64.ofBits b = .inf s) :
    ¬ IsNaN b ∧ IsInfinite b ∧ (∀ x, doubleVal b ≠ some x) ∧ b = infinity s ∧ signBit b = s := by
  refine ⟨fun hn => ?_, ofBits_inf.mpr ⟨s, h⟩, fun x hx => ?_, ofBits_inf_bits h, signBit_inf h⟩
  · rw [ofBits_nan.mp hn] at h; cases h
  · obtain ⟨n, q, hq, _⟩ := doubleVal_iff.mp hx
    rw [h] at hq; cases hq

theorem fin_facts {b : UInt64} {s : Bool} {q : Rat} (h : F64.ofBits b = .fin s q) :
    ¬ IsNaN b ∧ ¬ IsInfinite b ∧ doubleVal b = some (signedVal s q) ∧ 0 ≤ q ∧ signBit b = s := by
  refine ⟨fun hn => ?_, fun hi => ?_, doubleVal_iff.mpr ⟨s, q, h, rfl⟩, (grid_ofBits h).1, signBit_fin h⟩
  · rw [ofBits_nan.mp hn] at h; cases h
  · obtain ⟨s, hs⟩ := ofBits_inf.mp hi
    rw [h] at hs; cases hs

theorem ofBits_infinity (s : Bool) : F64.ofBits (infinity s) = .inf s := by cases s <;> decide +kernel

theorem ofBits_szero (s : Bool) : F64.ofBits (zero s) = .fin s 0 := by cases s <;> decide +kernel

theorem exists_nan : ∃ b : UInt64, F64.ofBits b = .nan ∧ IsNaN b := ⟨0x7ff8000000000000, by decide +kernel, by unfold IsNaN; decide⟩

theorem infinity_inj {s t : Bool} (h : infinity s = infinity t) : s = t := by
  cases s <;> cases t <;> first | rfl | (revert h; decide)

theorem signedVal_mul (a b : Bool) (p q : Rat) : signedVal a p * signedVal b q = signedVal (a != b) (p * q) := by
  cases a <;> cases b <;> simp [signedVal]

theorem signedVal_div (a b : Bool) (p q : Rat) : signedVal a p / signedVal b q = signedVal (a != b) (p / q) := by
  cases a <;> cases b <;> simp [signedVal, div_neg, neg_div]

theorem signedVal_eq_zero {a : Bool} {p : Rat} : signedVal a p = 0 ↔ p = 0 := by
  cases a <;> simp [signedVal]

theorem signBit_roundSigned {c : UInt64} {s : Bool} {q : Rat} (h : F64.ofBits c = F64.roundSigned s q) : signBit c = s := by
  unfold F64.roundSigned at h
  dsimp only at h
  split at h
  · exact signBit_fin h
  · exact signBit_inf h

/-- The subtraction of the model. -/
theorem sub_rule (a b : UInt64) : ∃ c, F64.ofBits c = (F64.ofBits a).sub (F64.ofBits b) ∧ SubRule a b c := by
  obtain ⟨n, hn, hn'⟩ := exists_nan
  cases ha : F64.ofBits a with
  | nan =>
    obtain ⟨a1, a2, a3⟩ := nan_facts ha
    exact ⟨n, by rw [hn]; rfl, ⟨fun _ => hn', fun h => absurd h a2, fun _ h => absurd h a2, fun _ h => absurd h (a3 _),
      fun _ _ h => absurd h (a3 _), fun _ h => absurd h (a3 _)⟩⟩
  | inf s =>
    obtain ⟨a1, a2, a3, a4, a5⟩ := inf_facts ha
    cases hb : F64.ofBits b with
    | nan =>
      obtain ⟨b1, b2, b3⟩ := nan_facts hb
      exact ⟨n, by rw [hn]; rfl, ⟨fun _ => hn', fun _ h => absurd h b2, fun _ _ h => absurd h (b3 _),
        fun _ h => absurd h (a3 _), fun _ _ h => absurd h (a3 _), fun _ h => absurd h (a3 _)⟩⟩
    | inf t =>
      obtain ⟨b1, b2, b3, b4, b5⟩ := inf_facts hb
      have hnn : ¬ (IsNaN a ∨ IsNaN b) := fun h => h.elim a1 b1
      by_cases hst : s = t
      · refine ⟨n, ?_, ⟨fun _ => hn', fun _ _ => ⟨fun _ => hn', fun h => absurd ?_ h⟩, fun _ _ h => absurd h (b3 _),
          fun _ h => absurd h (a3 _), fun _ _ h => absurd h (a3 _), fun _ h => absurd h (a3 _)⟩⟩
        · rw [hn]; unfold F64.sub; simp only [hst, if_true]
        · rw [a4, b4, hst]
      · refine ⟨a, ?_, ⟨fun h => absurd h hnn, fun _ _ => ⟨fun h => absurd ?_ hst, fun _ => rfl⟩,
          fun _ _ h => absurd h (b3 _), fun _ h => absurd h (a3 _), fun _ _ h => absurd h (a3 _), fun _ h => absurd h (a3 _)⟩⟩
        · rw [ha]; unfold F64.sub; simp only [hst, if_false]
        · rw [a4, b4] at h; exact infinity_inj h
    | fin t q =>
      obtain ⟨b1, b2, b3, b4, b5⟩ := fin_facts hb
      have hnn : ¬ (IsNaN a ∨ IsNaN b) := fun h => h.elim a1 b1
      exact ⟨a, by rw [ha]; rfl, ⟨fun h => absurd h hnn, fun _ h => absurd h b2, fun _ _ _ => rfl,
        fun _ h => absurd h (a3 _), fun _ _ h => absurd h (a3 _), fun _ h => absurd h (a3 _)⟩⟩
  | fin s p =>
    obtain ⟨a1, a2, a3, a4, a5⟩ := fin_facts ha
    cases hb : F64.ofBits b with
    | nan =>
      obtain ⟨b1, b2, b3⟩ := nan_facts hb
      exact ⟨n, by rw [hn]; rfl, ⟨fun _ => hn', fun h => absurd h a2, fun _ h => absurd h a2, fun _ _ h => absurd h b2,
        fun _ _ _ h => absurd h (b3 _), fun _ _ h => absurd h (b3 _)⟩⟩
    | inf t =>
      obtain ⟨b1, b2, b3, b4, b5⟩ := inf_facts hb
      have hnn : ¬ (IsNaN a ∨ IsNaN b) := fun h => h.elim a1 b1
      exact ⟨infinity (!t), by rw [ofBits_infinity]; rfl, ⟨fun h => absurd h hnn, fun h => absurd h a2,
        fun _ h => absurd h a2, fun _ _ _ => by rw [b5], fun _ _ _ h => absurd h (b3 _), fun _ _ h => absurd h (b3 _)⟩⟩
    | fin t q =>
      obtain ⟨b1, b2, b3, b4, b5⟩ := fin_facts hb
      have hnn : ¬ (IsNaN a ∨ IsNaN b) := fun h => h.elim a1 b1
      have hz : ∀ x, doubleVal a = some x → doubleVal b = some x → signedVal s p - signedVal t q = 0 := by
        intro x h1 h2
        rw [a3] at h1; rw [b3] at h2
        rw [Option.some.inj h1, Option.some.inj h2, sub_self]
      have main : ∃ c, F64.ofBits c = (F64.fin s p).sub (.fin t q) ∧ Rounds (signedVal s p - signedVal t q) c ∧
          (signedVal s p - signedVal t q = 0 → c = zero (decide (a = minusZero ∧ b = 0))) := by
        by_cases hd0 : signedVal s p - signedVal t q = 0
        · have hs : doubleVal b = some (signedVal s p) := by rw [b3, show signedVal s p = signedVal t q by linarith]
          have e := extent_flat hs a3
          rw [ha, hb] at e
          obtain ⟨c, h1, h2⟩ := rounds_zero (decide (b = 0 ∧ a = minusZero))
          refine ⟨c, by rw [h1, e], by rw [hd0]; exact h2, fun _ => ?_⟩
          rw [ofBits_zero h1]
          unfold zero
          simp only [and_comm]
        · rcases lt_or_gt_of_ne hd0 with hlt | hgt
          · obtain ⟨c, h1, h2⟩ := rounds_roundSigned (q := -(signedVal s p - signedVal t q)) (by linarith) true
            refine ⟨c, ?_, ?_, fun h => absurd h hd0⟩
            · rw [h1]; unfold F64.sub; dsimp only; rw [if_neg hd0, if_pos hlt]
            · have : signedVal true (-(signedVal s p - signedVal t q)) = signedVal s p - signedVal t q := neg_neg _
              rw [this] at h2; exact h2
          · obtain ⟨c, h1, h2⟩ := rounds_roundSigned (q := signedVal s p - signedVal t q) (by linarith) false
            refine ⟨c, ?_, h2, fun h => absurd h hd0⟩
            rw [h1]; unfold F64.sub; dsimp only; rw [if_neg hd0, if_neg (by linarith)]
      obtain ⟨c, h1, h2, h3⟩ := main
      refine ⟨c, h1, ⟨fun h => absurd h hnn, fun h => absurd h a2, fun _ h => absurd h a2, fun _ _ h => absurd h b2, ?_, ?_⟩⟩
      · intro x y hx hy
        rw [a3] at hx; rw [b3] at hy
        rw [← Option.some.inj hx, ← Option.some.inj hy]
        exact h2
      · intro x hx hy
        exact h3 (hz x hx hy)

/-- The multiplication of the model. -/
theorem mul_rule (a b : UInt64) : ∃ c, F64.ofBits c = (F64.ofBits a).mul (F64.ofBits b) ∧ MulRule a b c := by
  obtain ⟨n, hn, hn'⟩ := exists_nan
  cases ha : F64.ofBits a with
  | nan =>
    obtain ⟨a1, a2, a3⟩ := nan_facts ha
    exact ⟨n, by rw [hn]; rfl, ⟨fun _ => hn', fun h => absurd h a2, fun _ h => absurd h a2, fun _ h => absurd h (a3 _),
      fun _ _ h => absurd h (a3 _)⟩⟩
  | inf s =>
    obtain ⟨a1, a2, a3, a4, a5⟩ := inf_facts ha
    cases hb : F64.ofBits b with
    | nan =>
      obtain ⟨b1, b2, b3⟩ := nan_facts hb
      exact ⟨n, by rw [hn]; rfl, ⟨fun _ => hn', fun _ h => absurd h b2, fun _ _ h => absurd h (b3 _),
        fun _ h => absurd h (a3 _), fun _ _ h => absurd h (a3 _)⟩⟩
    | inf t =>
      obtain ⟨b1, b2, b3, b4, b5⟩ := inf_facts hb
      have hnn : ¬ (IsNaN a ∨ IsNaN b) := fun h => h.elim a1 b1
      exact ⟨infinity (s != t), by rw [ofBits_infinity]; rfl, ⟨fun h => absurd h hnn, fun _ _ => by rw [a5, b5],
        fun _ _ h => absurd h (b3 _), fun _ h => absurd h (a3 _), fun _ _ h => absurd h (a3 _)⟩⟩
    | fin t q =>
      obtain ⟨b1, b2, b3, b4, b5⟩ := fin_facts hb
      have hnn : ¬ (IsNaN a ∨ IsNaN b) := fun h => h.elim a1 b1
      have hy0 : ∀ y, doubleVal b = some y → (y = 0 ↔ q = 0) := by
        intro y hy
        rw [b3] at hy
        rw [← Option.some.inj hy, signedVal_eq_zero]
      by_cases hq : q = 0
      · refine ⟨n, ?_, ⟨fun _ => hn', fun _ h => absurd h b2, fun y _ hy => ⟨fun _ => hn', fun h => absurd ((hy0 y hy).mpr hq) h⟩,
          fun _ h => absurd h (a3 _), fun _ _ h => absurd h (a3 _)⟩⟩
        rw [hn]; unfold F64.mul; simp only [hq, if_true]
      · refine ⟨infinity (s != t), ?_, ⟨fun h => absurd h hnn, fun _ h => absurd h b2,
          fun y _ hy => ⟨fun h => absurd ((hy0 y hy).mp h) hq, fun _ => by rw [a5, b5]⟩,
          fun _ h => absurd h (a3 _), fun _ _ h => absurd h (a3 _)⟩⟩
        rw [ofBits_infinity]; unfold F64.mul; simp only [hq, if_false]
  | fin s p =>
    obtain ⟨a1, a2, a3, a4, a5⟩ := fin_facts ha
    have hx0 : ∀ x, doubleVal a = some x → (x = 0 ↔ p = 0) := by
      intro x hx
      rw [a3] at hx
      rw [← Option.some.inj hx, signedVal_eq_zero]
    cases hb : F64.ofBits b with
    | nan =>
      obtain ⟨b1, b2, b3⟩ := nan_facts hb
      exact ⟨n, by rw [hn]; rfl, ⟨fun _ => hn', fun h => absurd h a2, fun _ h => absurd h a2, fun _ _ h => absurd h b2,
        fun _ _ _ h => absurd h (b3 _)⟩⟩
    | inf t =>
      obtain ⟨b1, b2, b3, b4, b5⟩ := inf_facts hb
      have hnn : ¬ (IsNaN a ∨ IsNaN b) := fun h => h.elim a1 b1
      by_cases hp : p = 0
      · refine ⟨n, ?_, ⟨fun _ => hn', fun h => absurd h a2, fun _ h => absurd h a2,
          fun x hx _ => ⟨fun _ => hn', fun h => absurd ((hx0 x hx).mpr hp) h⟩, fun _ _ _ h => absurd h (b3 _)⟩⟩
        rw [hn]; unfold F64.mul; simp only [hp, if_true]
      · refine ⟨infinity (s != t), ?_, ⟨fun h => absurd h hnn, fun h => absurd h a2, fun _ h => absurd h a2,
          fun x hx _ => ⟨fun h => absurd ((hx0 x hx).mp h) hp, fun _ => by rw [a5, b5]⟩, fun _ _ _ h => absurd h (b3 _)⟩⟩
        rw [ofBits_infinity]; unfold F64.mul; simp only [hp, if_false]
    | fin t q =>
      obtain ⟨b1, b2, b3, b4, b5⟩ := fin_facts hb
      have hnn : ¬ (IsNaN a ∨ IsNaN b) := fun h => h.elim a1 b1
      obtain ⟨c, h1, h2⟩ := rounds_roundSigned (mul_nonneg a4 b4) (s != t)
      refine ⟨c, h1, ⟨fun h => absurd h hnn, fun h => absurd h a2, fun _ h => absurd h a2, fun _ _ h => absurd h b2, ?_⟩⟩
      intro x y hx hy
      rw [a3] at hx; rw [b3] at hy
      rw [← Option.some.inj hx, ← Option.some.inj hy, signedVal_mul]
      exact ⟨h2, by rw [a5, b5]; exact signBit_roundSigned h1⟩

/-- The division of the model. -/
theorem div_rule (a b : UInt64) : ∃ c, F64.ofBits c = (F64.ofBits a).div (F64.ofBits b) ∧ DivRule a b c := by
  obtain ⟨n, hn, hn'⟩ := exists_nan
  cases ha : F64.ofBits a with
  | nan =>
    obtain ⟨a1, a2, a3⟩ := nan_facts ha
    exact ⟨n, by rw [hn]; rfl, ⟨fun _ => hn', fun h => absurd h a2, fun _ h => absurd h a2, fun _ h => absurd h (a3 _),
      fun _ h => absurd h (a3 _), fun _ _ h => absurd h (a3 _)⟩⟩
  | inf s =>
    obtain ⟨a1, a2, a3, a4, a5⟩ := inf_facts ha
    cases hb : F64.ofBits b with
    | nan =>
      obtain ⟨b1, b2, b3⟩ := nan_facts hb
      exact ⟨n, by rw [hn]; rfl, ⟨fun _ => hn', fun _ h => absurd h b2, fun _ _ h => absurd h (b3 _),
        fun _ h => absurd h (a3 _), fun _ h => absurd h (a3 _), fun _ _ h => absurd h (a3 _)⟩⟩
    | inf t =>
      obtain ⟨b1, b2, b3, b4, b5⟩ := inf_facts hb
      exact ⟨n, by rw [hn]; rfl, ⟨fun _ => hn', fun _ _ => hn', fun _ _ h => absurd h (b3 _),
        fun _ h => absurd h (a3 _), fun _ h => absurd h (a3 _), fun _ _ h => absurd h (a3 _)⟩⟩
    | fin t q =>
      obtain ⟨b1, b2, b3, b4, b5⟩ := fin_facts hb
      have hnn : ¬ (IsNaN a ∨ IsNaN b) := fun h => h.elim a1 b1
      exact ⟨infinity (s != t), by rw [ofBits_infinity]; rfl, ⟨fun h => absurd h hnn, fun _ h => absurd h b2,
        fun _ _ _ => by rw [a5, b5], fun _ h => absurd h (a3 _), fun _ h => absurd h (a3 _), fun _ _ h => absurd h (a3 _)⟩⟩
  | fin s p =>
    obtain ⟨a1, a2, a3, a4, a5⟩ := fin_facts ha
    have hx0 : ∀ x, doubleVal a = some x → (x = 0 ↔ p = 0) := by
      intro x hx
      rw [a3] at hx
      rw [← Option.some.inj hx, signedVal_eq_zero]
    cases hb : F64.ofBits b with
    | nan =>
      obtain ⟨b1, b2, b3⟩ := nan_facts hb
      exact ⟨n, by rw [hn]; rfl, ⟨fun _ => hn', fun h => absurd h a2, fun _ h => absurd h a2, fun _ _ h => absurd h b2,
        fun _ _ h => absurd h (b3 _), fun _ _ _ h => absurd h (b3 _)⟩⟩
    | inf t =>
      obtain ⟨b1, b2, b3, b4, b5⟩ := inf_facts hb
      have hnn : ¬ (IsNaN a ∨ IsNaN b) := fun h => h.elim a1 b1
      exact ⟨zero (s != t), by rw [ofBits_szero]; rfl, ⟨fun h => absurd h hnn, fun h => absurd h a2, fun _ h => absurd h a2,
        fun _ _ _ => by rw [a5, b5], fun _ _ h => absurd h (b3 _), fun _ _ _ h => absurd h (b3 _)⟩⟩
    | fin t q =>
      obtain ⟨b1, b2, b3, b4, b5⟩ := fin_facts hb
      have hnn : ¬ (IsNaN a ∨ IsNaN b) := fun h => h.elim a1 b1
      have hy0 : ∀ y, doubleVal b = some y → (y = 0 ↔ q = 0) := by
        intro y hy
        rw [b3] at hy
        rw [← Option.some.inj hy, signedVal_eq_zero]
      by_cases hq : q = 0
      · by_cases hp : p = 0
        · refine ⟨n, ?_, ⟨fun _ => hn', fun h => absurd h a2, fun _ h => absurd h a2, fun _ _ h => absurd h b2,
            fun x hx _ => ⟨fun _ => hn', fun h => absurd ((hx0 x hx).mpr hp) h⟩,
            fun _ y _ hy h => absurd ((hy0 y hy).mpr hq) h⟩⟩
          rw [hn]; unfold F64.div; simp only [hp, hq, if_true]
        · refine ⟨infinity (s != t), ?_, ⟨fun h => absurd h hnn, fun h => absurd h a2, fun _ h => absurd h a2,
            fun _ _ h => absurd h b2, fun x hx _ => ⟨fun h => absurd ((hx0 x hx).mp h) hp, fun _ => by rw [a5, b5]⟩,
            fun _ y _ hy h => absurd ((hy0 y hy).mpr hq) h⟩⟩
          rw [ofBits_infinity]; unfold F64.div; simp only [hp, hq, if_true, if_false]
      · obtain ⟨c, h1, h2⟩ := rounds_roundSigned (div_nonneg a4 b4) (s != t)
        refine ⟨c, ?_, ⟨fun h => absurd h hnn, fun h => absurd h a2, fun _ h => absurd h a2, fun _ _ h => absurd h b2,
          fun _ _ h => absurd ((hy0 0 h).mp rfl) hq, ?_⟩⟩
        · rw [h1]; unfold F64.div; simp only [hq, if_false]
        · intro x y hx hy _
          rw [a3] at hx; rw [b3] at hy
          rw [← Option.some.inj hx, ← Option.some.inj hy, signedVal_div]
          exact ⟨h2, by rw [a5, b5]; exact signBit_roundSigned h1⟩

/-- The cast of the model. -/
theorem cast_rule (a : UInt64) : CastRule a (F64.ofBits a).asU32 := by
  cases ha : F64.ofBits a with
  | nan =>
    obtain ⟨a1, a2, a3⟩ := nan_facts ha
    refine ⟨fun _ => rfl, fun _ => rfl, fun h => ?_, fun _ h => absurd h (a3 _)⟩
    rcases h with h | ⟨x, h, _⟩
    · exact absurd (by rw [h]; unfold IsInfinite; decide : IsInfinite a) a2
    · exact absurd h (a3 _)
  | inf s =>
    obtain ⟨a1, a2, a3, a4, a5⟩ := inf_facts ha
    refine ⟨fun h => absurd h a1, fun h => ?_, fun h => ?_, fun _ h => absurd h (a3 _)⟩
    · rcases h with h | ⟨x, h, _⟩
      · cases s
        · rw [a4] at h; revert h; decide
        · rfl
      · exact absurd h (a3 _)
    · rcases h with h | ⟨x, h, _⟩
      · cases s
        · rfl
        · rw [a4] at h; revert h; decide
      · exact absurd h (a3 _)
  | fin s q =>
    obtain ⟨a1, a2, a3, a4, a5⟩ := fin_facts ha
    have hpi : a ≠ plusInfinity := fun h => a2 (by rw [h]; unfold IsInfinite; decide)
    have hmi : a ≠ minusInfinity := fun h => a2 (by rw [h]; unfold IsInfinite; decide)
    refine ⟨fun h => absurd h a1, fun h => ?_, fun h => ?_, fun x hx h0 h1 => ?_⟩
    · rcases h with h | ⟨x, h, hx⟩
      · exact absurd h hmi
      · rw [a3] at h
        rw [← Option.some.inj h] at hx
        cases s
        · exact absurd hx (not_lt.mpr a4)
        · rfl
    · rcases h with h | ⟨x, h, hx⟩
      · exact absurd h hpi
      · rw [a3] at h
        rw [← Option.some.inj h] at hx
        cases s
        · have : (4294967295 : Rat) ≤ q := by
            have : (2 : Rat) ^ 32 - 1 < q := hx
            norm_num at this
            exact this.le
          have := satU32_max this
          show (satU32 q).toNat = _
          rw [this]; rfl
        · have : (2 : Rat) ^ 32 - 1 < -q := hx
          norm_num at this
          linarith
    · rw [a3] at hx
      have hx := Option.some.inj hx
      cases s
      · have hx : q = x := hx
        subst hx
        have e := satU32_toNat a4
        have e1 : (q.floor : Rat) ≤ q := by rw [ratFloor_eq]; exact Int.floor_le q
        have e2 : q < (q.floor : Rat) + 1 := by rw [ratFloor_eq]; exact Int.lt_floor_add_one q
        have e3 : q.floor ≤ 4294967295 := by
          have : (q.floor : Rat) ≤ (4294967295 : Int) := by
            norm_num at h1
            push_cast
            linarith
          exact_mod_cast this
        rw [min_eq_left e3] at e
        show ((satU32 q).toNat : Rat) ≤ q ∧ q < (satU32 q).toNat + 1
        have e4 : ((satU32 q).toNat : Rat) = q.floor := by exact_mod_cast e
        rw [e4]
        exact ⟨e1, e2⟩
      · have hx : -q = x := hx
        have hq : x = 0 := by linarith
        subst hq
        show ((0 : UInt32).toNat : Rat) ≤ 0 ∧ (0 : Rat) < (0 : UInt32).toNat + 1
        norm_num

/-- C90: both coordinates of a quantized point are computed by the steps in the
source, and every step is rounded as IEEE 754 says, for all bit patterns of the
box and of the point. -/
theorem C90_steps (b : ShpBoundingBox) (p : ShpPoint) :
    Steps p.x b.b0 b.b2 ((ShapefileQuantizer.new b).quantize p).x ∧
    Steps p.y b.b3 b.b1 ((ShapefileQuantizer.new b).quantize p).y := by
  have key : ∀ u v w, Steps u v w (axis u v w) := by
    intro u v w
    obtain ⟨d, d1, d2⟩ := sub_rule u v
    obtain ⟨e, e1, e2⟩ := sub_rule w v
    obtain ⟨q, q1, q2⟩ := div_rule d e
    obtain ⟨s, s1, s2⟩ := mul_rule q 0x41efffffffe00000
    refine ⟨d, e, q, s, d2, e2, q2, s2, ?_⟩
    have hc := cast_rule s
    rw [s1, q1, d1, e1, show F64.ofBits 0x41efffffffe00000 = F64.u32Max by decide +kernel] at hc
    exact hc
  exact ⟨key _ _ _, key _ _ _⟩

/-! ## The rules leave no choice -/

/-- The same double, if all NaNs are one. -/
def SameDouble (a b : UInt64) : Prop := a = b ∨ (IsNaN a ∧ IsNaN b)

theorem kinds (b : UInt64) : IsNaN b ∨ IsInfinite b ∨ ∃ x, doubleVal b = some x := by
  rcases double_cases b with h | ⟨h, _⟩ | ⟨h, _⟩ | h
  · exact .inl (ofBits_nan.mpr h)
  · exact .inr (.inl (ofBits_inf.mpr ⟨_, h⟩))
  · exact .inr (.inl (ofBits_inf.mpr ⟨_, h⟩))
  · exact .inr (.inr h)

theorem Spec.SubRule.unique {a b c c' : UInt64} (h : SubRule a b c) (h' : SubRule a b c') : SameDouble c c' := by
  by_cases hn : IsNaN a ∨ IsNaN b
  · exact .inr ⟨h.nan hn, h'.nan hn⟩
  · rw [not_or] at hn
    rcases kinds a with ha | ha | ⟨x, hx⟩
    · exact absurd ha hn.1
    · rcases kinds b with hb | hb | ⟨y, hy⟩
      · exact absurd hb hn.2
      · by_cases hab : a = b
        · exact .inr ⟨(h.infInf ha hb).1 hab, (h'.infInf ha hb).1 hab⟩
        · exact .inl (((h.infInf ha hb).2 hab).trans ((h'.infInf ha hb).2 hab).symm)
      · exact .inl ((h.infFin y ha hy).trans (h'.infFin y ha hy).symm)
    · rcases kinds b with hb | hb | ⟨y, hy⟩
      · exact absurd hb hn.2
      · exact .inl ((h.finInf x hx hb).trans (h'.finInf x hx hb).symm)
      · by_cases hxy : x = y
        · subst hxy
          exact .inl ((h.zeros x hx hy).trans (h'.zeros x hx hy).symm)
        · exact .inl (rounds_unique (sub_ne_zero.mpr hxy) (h.finFin x y hx hy) (h'.finFin x y hx hy))

/-- A rounded zero is a zero. -/
theorem rounds_zero_bits {c : UInt64} (h : Rounds 0 c) : c = zero (signBit c) := by
  have hlim : distance 0 0 < 2 ^ 1024 - 2 ^ 970 := by
    rw [distance_eq, sub_self, abs_zero, ← pow2_limit]
    have : pow2 970 < pow2 1024 := pow2_lt_iff.mpr (by norm_num)
    linarith
  obtain ⟨r, hr, hnear, _⟩ := h.finite hlim
  have h0 : doubleVal 0 = some 0 := by decide +kernel
  have := (hnear 0 0 h0).1
  rw [distance_eq, distance_eq, sub_self, abs_zero, sub_zero] at this
  have hr0 : r = 0 := abs_eq_zero.mp (le_antisymm this (abs_nonneg r))
  subst hr0
  obtain ⟨s, q, hq, hsq⟩ := doubleVal_iff.mp hr
  rw [signedVal_eq_zero] at hsq
  subst hsq
  rw [signBit_fin hq]
  exact ofBits_zero hq

theorem rounds_unique_signed {x : Rat} {c c' : UInt64} (h : Rounds x c) (h' : Rounds x c') (hs : signBit c = signBit c') :
    c = c' := by
  by_cases hx : x = 0
  · subst hx
    rw [rounds_zero_bits h, rounds_zero_bits h', hs]
  · exact rounds_unique hx h h'

theorem Spec.MulRule.unique {a b c c' : UInt64} (h : MulRule a b c) (h' : MulRule a b c') : SameDouble c c' := by
  by_cases hn : IsNaN a ∨ IsNaN b
  · exact .inr ⟨h.nan hn, h'.nan hn⟩
  · rw [not_or] at hn
    rcases kinds a with ha | ha | ⟨x, hx⟩
    · exact absurd ha hn.1
    · rcases kinds b with hb | hb | ⟨y, hy⟩
      · exact absurd hb hn.2
      · exact .inl ((h.infInf ha hb).trans (h'.infInf ha hb).symm)
      · by_cases hy0 : y = 0
        · exact .inr ⟨(h.infFin y ha hy).1 hy0, (h'.infFin y ha hy).1 hy0⟩
        · exact .inl (((h.infFin y ha hy).2 hy0).trans ((h'.infFin y ha hy).2 hy0).symm)
    · rcases kinds b with hb | hb | ⟨y, hy⟩
      · exact absurd hb hn.2
      · by_cases hx0 : x = 0
        · exact .inr ⟨(h.finInf x hx hb).1 hx0, (h'.finInf x hx hb).1 hx0⟩
        · exact .inl (((h.finInf x hx hb).2 hx0).trans ((h'.finInf x hx hb).2 hx0).symm)
      · obtain ⟨r1, s1⟩ := h.finFin x y hx hy
        obtain ⟨r2, s2⟩ := h'.finFin x y hx hy
        exact .inl (rounds_unique_signed r1 r2 (s1.trans s2.symm))

theorem Spec.DivRule.unique {a b c c' : UInt64} (h : DivRule a b c) (h' : DivRule a b c') : SameDouble c c' := by
  by_cases hn : IsNaN a ∨ IsNaN b
  · exact .inr ⟨h.nan hn, h'.nan hn⟩
  · rw [not_or] at hn
    rcases kinds a with ha | ha | ⟨x, hx⟩
    · exact absurd ha hn.1
    · rcases kinds b with hb | hb | ⟨y, hy⟩
      · exact absurd hb hn.2
      · exact .inr ⟨h.infInf ha hb, h'.infInf ha hb⟩
      · exact .inl ((h.infFin y ha hy).trans (h'.infFin y ha hy).symm)
    · rcases kinds b with hb | hb | ⟨y, hy⟩
      · exact absurd hb hn.2
      · exact .inl ((h.finInf x hx hb).trans (h'.finInf x hx hb).symm)
      · by_cases hy0 : y = 0
        · subst hy0
          by_cases hx0 : x = 0
          · exact .inr ⟨(h.byZero x hx hy).1 hx0, (h'.byZero x hx hy).1 hx0⟩
          · exact .inl (((h.byZero x hx hy).2 hx0).trans ((h'.byZero x hx hy).2 hx0).symm)
        · obtain ⟨r1, s1⟩ := h.finFin x y hx hy hy0
          obtain ⟨r2, s2⟩ := h'.finFin x y hx hy hy0
          exact .inl (rounds_unique_signed r1 r2 (s1.trans s2.symm))

theorem Spec.CastRule.unique {a : UInt64} {n n' : UInt32} (h : CastRule a n) (h' : CastRule a n') : n = n' := by
  rcases double_cases a with ha | ⟨ha, rfl⟩ | ⟨ha, rfl⟩ | ⟨x, hx⟩
  · exact (h.nan (ofBits_nan.mpr ha)).trans (h'.nan (ofBits_nan.mpr ha)).symm
  · exact (h.small (.inl rfl)).trans (h'.small (.inl rfl)).symm
  · exact UInt32.toNat_inj.mp ((h.large (.inl rfl)).trans (h'.large (.inl rfl)).symm)
  · by_cases h0 : x < 0
    · exact (h.small (.inr ⟨x, hx, h0⟩)).trans (h'.small (.inr ⟨x, hx, h0⟩)).symm
    · by_cases h1 : 2 ^ 32 - 1 < x
      · exact UInt32.toNat_inj.mp ((h.large (.inr ⟨x, hx, h1⟩)).trans (h'.large (.inr ⟨x, hx, h1⟩)).symm)
      · obtain ⟨a1, a2⟩ := h.between x hx (not_lt.mp h0) (not_lt.mp h1)
        obtain ⟨b1, b2⟩ := h'.between x hx (not_lt.mp h0) (not_lt.mp h1)
        have c1 : (n.toNat : Rat) < n'.toNat + 1 := by linarith
        have c2 : (n'.toNat : Rat) < n.toNat + 1 := by linarith
        have c1' : n.toNat < n'.toNat + 1 := by exact_mod_cast c1
        have c2' : n'.toNat < n.toNat + 1 := by exact_mod_cast c2
        exact UInt32.toNat_inj.mp (by omega)

/-- C90: the steps determine the result, for all bit patterns. -/
theorem C90_complete (p start stop : UInt64) (n n' : UInt32) (h : Steps p start stop n) (h' : Steps p start stop n') :
    n = n' := by
  obtain ⟨d, e, q, s, h1, h2, h3, h4, h5⟩ := h
  obtain ⟨d', e', q', s', h1', h2', h3', h4', h5'⟩ := h'
  have hq : SameDouble q q' := by
    rcases h1.unique h1' with rfl | ⟨hd, hd'⟩
    · rcases h2.unique h2' with rfl | ⟨he, he'⟩
      · exact h3.unique h3'
      · exact .inr ⟨h3.nan (.inr he), h3'.nan (.inr he')⟩
    · exact .inr ⟨h3.nan (.inl hd), h3'.nan (.inl hd')⟩
  have hs : SameDouble s s' := by
    rcases hq with rfl | ⟨hq, hq'⟩
    · exact h4.unique h4'
    · exact .inr ⟨h4.nan (.inl hq), h4'.nan (.inl hq')⟩
  rcases hs with rfl | ⟨hs, hs'⟩
  · exact h5.unique h5'
  · exact (h5.nan hs).trans (h5'.nan hs').symm

/-! ## The hypotheses can be met -/

/-- A point a third of the way from 0 to 3: the quotient is inexact. -/
example : let b : ShpBoundingBox := ⟨0, 0, 0x4008000000000000, 0x4008000000000000⟩
    doubleVal b.b2 = some 3 ∧ doubleVal 0x3ff0000000000000 = some 1 ∧
    Rounds (1 / 3) 0x3fd5555555555555 ∧
    ((ShapefileQuantizer.new b).quantize ⟨0x3ff0000000000000, 0x3ff0000000000000⟩) = ⟨1431655765, 2863311530⟩ := by
  refine ⟨by decide +kernel, by decide +kernel, ?_, by decide +kernel⟩
  obtain ⟨b, h1, h2⟩ := rounds_roundSigned (q := 1 / 3) (by norm_num) false
  have e : F64.roundSigned false (1 / 3) = F64.ofBits 0x3fd5555555555555 := by decide +kernel
  have e2 : F64.ofBits 0x3fd5555555555555 = .fin false (6004799503160661 / 18014398509481984) := by decide +kernel
  rw [e, e2] at h1
  rw [← ofBits_inj h1 e2]
  exact h2

/-- Ties go to the even neighbour: 2^53 + 1 is no double. -/
example : Rounds (2 ^ 53 + 1) 0x4340000000000000 ∧ ¬ Rounds (2 ^ 53 + 1) 0x4340000000000001 := by
  have main : Rounds (2 ^ 53 + 1) 0x4340000000000000 := by
    obtain ⟨b, h1, h2⟩ := rounds_roundSigned (q := 2 ^ 53 + 1) (by norm_num) false
    have e : F64.roundSigned false (2 ^ 53 + 1) = F64.ofBits 0x4340000000000000 := by decide +kernel
    have e2 : F64.ofBits 0x4340000000000000 = .fin false 9007199254740992 := by decide +kernel
    rw [e, e2] at h1
    rw [← ofBits_inj h1 e2]
    exact h2
  exact ⟨main, fun h => absurd (rounds_unique (by norm_num) main h) (by decide)⟩

end TopoGeo
