import Verif.Model.F64
import Mathlib.Algebra.Order.Floor.Ring
import Mathlib.Data.Rat.Floor
import Mathlib.Data.Nat.Log
import Mathlib.Algebra.Order.Field.Power
import Mathlib.Tactic.Linarith
import Mathlib.Tactic.Ring
import Mathlib.Tactic.Positivity
import Mathlib.Tactic.FieldSimp
import Mathlib.Tactic.NormNum
/-!
# Rounding: monotone, and exact on doubles
-/

namespace TopoGeo

theorem pow2_eq (e : Int) : pow2 e = (2 : Rat) ^ e := by
  cases e with
  | ofNat n => simp [pow2]
  | negSucc n => simp [pow2, zpow_negSucc]

theorem pow2_pos (e : Int) : 0 < pow2 e := by rw [pow2_eq]; positivity

theorem pow2_add (a b : Int) : pow2 (a + b) = pow2 a * pow2 b := by
  rw [pow2_eq, pow2_eq, pow2_eq, zpow_add₀ (by norm_num)]

theorem pow2_mono {a b : Int} (h : a ≤ b) : pow2 a ≤ pow2 b := by
  rw [pow2_eq, pow2_eq]; exact zpow_le_zpow_right₀ (by norm_num) h

theorem pow2_lt_iff {a b : Int} : pow2 a < pow2 b ↔ a < b := by
  rw [pow2_eq, pow2_eq]; exact zpow_lt_zpow_iff_right₀ (by norm_num)

theorem pow2_nat (n : Nat) : pow2 (n : Int) = ((2 ^ n : Nat) : Rat) := rfl

/-- A power with a non-negative exponent is an integer. -/
theorem pow2_int {e : Int} (h : 0 ≤ e) : ∃ n : Nat, 0 < n ∧ pow2 e = n := by
  obtain ⟨k, rfl⟩ := Int.eq_ofNat_of_zero_le h
  exact ⟨2 ^ k, by positivity, rfl⟩

/-! ## roundEven -/

theorem ratFloor_eq (r : Rat) : r.floor = ⌊r⌋ := rfl

theorem roundEven_ge (r : Rat) : r.floor ≤ roundEven r := by
  unfold roundEven; dsimp only
  split
  · exact le_refl _
  · split
    · omega
    · split <;> omega

theorem roundEven_le (r : Rat) : roundEven r ≤ r.floor + 1 := by
  unfold roundEven; dsimp only
  split
  · omega
  · split
    · omega
    · split <;> omega

theorem roundEven_mono {r s : Rat} (h : r ≤ s) : roundEven r ≤ roundEven s := by
  have hf : r.floor ≤ s.floor := by rw [ratFloor_eq, ratFloor_eq]; exact Int.floor_mono h
  rcases lt_or_eq_of_le hf with hlt | heq
  · have := roundEven_le r
    have := roundEven_ge s
    omega
  · have hd : r - (r.floor : Rat) ≤ s - (s.floor : Rat) := by rw [heq]; linarith
    unfold roundEven; dsimp only
    rw [heq] at hd ⊢
    by_cases h1 : r - (s.floor : Rat) < 1 / 2
    · rw [if_pos h1]
      split
      · omega
      · split
        · omega
        · split <;> omega
    · rw [if_neg h1, if_neg (show ¬ s - (s.floor : Rat) < 1 / 2 by linarith)]
      by_cases h2 : 1 / 2 < r - (s.floor : Rat)
      · rw [if_pos h2, if_pos (by linarith)]
      · rw [if_neg h2]
        by_cases h3 : 1 / 2 < s - (s.floor : Rat)
        · rw [if_pos h3]; split <;> omega
        · rw [if_neg h3]

theorem roundEven_int (n : Int) : roundEven (n : Rat) = n := by
  have hf : (n : Rat).floor = n := by rw [ratFloor_eq]; exact Int.floor_intCast n
  unfold roundEven
  rw [hf]
  simp

/-- The distance of rounding to an integer. -/
theorem roundEven_err (r : Rat) : |(roundEven r : Rat) - r| ≤ 1 / 2 := by
  have h1 : (r.floor : Rat) ≤ r := by rw [ratFloor_eq]; exact Int.floor_le r
  have h2 : r < (r.floor : Rat) + 1 := by rw [ratFloor_eq]; exact Int.lt_floor_add_one r
  unfold roundEven; dsimp only
  rw [abs_le]
  split
  · constructor <;> linarith
  · split
    · push_cast; constructor <;> linarith
    · split
      · constructor <;> linarith
      · push_cast; constructor <;> linarith

/-! ## ratLog2 -/

theorem nat_log2_le {n : Nat} (h : n ≠ 0) : 2 ^ n.log2 ≤ n := Nat.log2_self_le h

theorem nat_lt_log2 (n : Nat) : n < 2 ^ (n.log2 + 1) := Nat.lt_log2_self

theorem ratLog2_spec {q : Rat} (h : 0 < q) : pow2 (ratLog2 q) ≤ q ∧ q < pow2 (ratLog2 q + 1) := by
  have hn : 0 < q.num := Rat.num_pos.mpr h
  have hq : q * (q.den : Rat) = (q.num.natAbs : Rat) := by
    rw [Rat.mul_den_eq_num]
    rw [← Int.cast_natCast, Int.natAbs_of_nonneg hn.le]
  have hd : (0 : Rat) < q.den := by exact_mod_cast q.den_pos
  set N := q.num.natAbs
  set D := q.den
  have hN0 : N ≠ 0 := by omega
  have a1 : pow2 (N.log2 : Int) ≤ (N : Rat) := by rw [pow2_nat]; exact_mod_cast nat_log2_le hN0
  have a2 : (N : Rat) < pow2 ((N.log2 : Int) + 1) := by
    have := nat_lt_log2 N
    have h2 : ((N.log2 : Int) + 1) = ((N.log2 + 1 : Nat) : Int) := by push_cast; rfl
    rw [h2, pow2_nat]; exact_mod_cast this
  have b1 : pow2 (D.log2 : Int) ≤ (D : Rat) := by
    rw [pow2_nat]; exact_mod_cast nat_log2_le (by have := q.den_pos; omega)
  have b2 : (D : Rat) < pow2 ((D.log2 : Int) + 1) := by
    have := nat_lt_log2 D
    have h2 : ((D.log2 : Int) + 1) = ((D.log2 + 1 : Nat) : Int) := by push_cast; rfl
    rw [h2, pow2_nat]; exact_mod_cast this
  set e0 : Int := (N.log2 : Int) - (D.log2 : Int) with he0
  have up : q < pow2 (e0 + 1) := by
    have h1 : pow2 (e0 + 1) * pow2 (D.log2 : Int) = pow2 ((N.log2 : Int) + 1) := by
      rw [← pow2_add]; congr 1; omega
    by_contra hc
    rw [not_lt] at hc
    have h2 : pow2 (e0 + 1) * pow2 (D.log2 : Int) ≤ q * D :=
      mul_le_mul hc b1 (pow2_pos _).le h.le
    rw [h1, hq] at h2
    linarith
  have lo : pow2 (e0 - 1) ≤ q := by
    have h1 : pow2 (e0 - 1) * pow2 ((D.log2 : Int) + 1) = pow2 (N.log2 : Int) := by
      rw [← pow2_add]; congr 1; omega
    by_contra hc
    rw [not_le] at hc
    have h2 : q * D ≤ pow2 (e0 - 1) * pow2 ((D.log2 : Int) + 1) :=
      mul_le_mul hc.le b2.le hd.le (pow2_pos _).le
    have h3 : q * D < pow2 (e0 - 1) * pow2 ((D.log2 : Int) + 1) := by
      calc q * D < pow2 (e0 - 1) * D := by exact mul_lt_mul_of_pos_right hc hd
        _ ≤ _ := mul_le_mul_of_nonneg_left b2.le (pow2_pos _).le
    rw [h1, hq] at h3
    linarith
  have hr : ratLog2 q = if pow2 e0 ≤ q then e0 else e0 - 1 := rfl
  rw [hr]
  split
  · exact ⟨by assumption, up⟩
  · rename_i hlt
    refine ⟨lo, ?_⟩
    rw [show e0 - 1 + 1 = e0 by omega]
    exact not_le.mp hlt

theorem ratLog2_lt {q : Rat} (h : 0 < q) {e : Int} (hq : q < pow2 e) : ratLog2 q < e := by
  have := (ratLog2_spec h).1
  exact pow2_lt_iff.mp (lt_of_le_of_lt this hq)

theorem le_ratLog2 {q : Rat} (h : 0 < q) {e : Int} (hq : pow2 e ≤ q) : e ≤ ratLog2 q := by
  have := (ratLog2_spec h).2
  have := pow2_lt_iff.mp (lt_of_le_of_lt hq this)
  omega

theorem ratLog2_mono {p q : Rat} (hp : 0 < p) (h : p ≤ q) : ratLog2 p ≤ ratLog2 q :=
  le_ratLog2 (lt_of_lt_of_le hp h) (le_trans (ratLog2_spec hp).1 h)

/-! ## roundMag -/

theorem roundMag_zero : roundMag 0 = 0 := if_pos rfl

theorem roundMag_pos_eq {q : Rat} (h : 0 < q) :
    roundMag q = (roundEven (q / pow2 (ulpExp q)) : Rat) * pow2 (ulpExp q) := if_neg h.ne'

/-- The numbers that have a double, up to overflow: 53 bits at most, and
multiples of the least subnormal. -/
def Dyadic (q : Rat) : Prop := ∃ (n : Nat) (k : Int), n < 2 ^ 53 ∧ -1074 ≤ k ∧ q = n * pow2 k

theorem roundMag_nonneg {q : Rat} (h : 0 ≤ q) : 0 ≤ roundMag q := by
  rcases h.eq_or_lt with rfl | h
  · rw [roundMag_zero]
  · rw [roundMag_pos_eq h]
    apply mul_nonneg _ (pow2_pos _).le
    have : roundEven ((0 : Int) : Rat) ≤ roundEven (q / pow2 (ulpExp q)) :=
      roundEven_mono (by push_cast; exact (div_pos h (pow2_pos _)).le)
    rw [roundEven_int] at this
    exact_mod_cast this

theorem ulpExp_mono {p q : Rat} (hp : 0 < p) (h : p ≤ q) : ulpExp p ≤ ulpExp q := by
  have := ratLog2_mono hp h
  unfold ulpExp; omega

theorem roundMag_of_int {q : Rat} (h : 0 < q) {n : Int} (hn : q = n * pow2 (ulpExp q)) : roundMag q = q := by
  rw [roundMag_pos_eq h]
  have : q / pow2 (ulpExp q) = n := by
    rw [div_eq_iff (pow2_pos _).ne']; exact hn
  rw [this, roundEven_int]
  exact hn.symm

theorem roundMag_dyadic {q : Rat} (hq : Dyadic q) : roundMag q = q := by
  obtain ⟨n, k, hn, hk, rfl⟩ := hq
  rcases Nat.eq_zero_or_pos n with rfl | hpos
  · simp [roundMag_zero]
  · have hp : (0 : Rat) < n * pow2 k := mul_pos (by exact_mod_cast hpos) (pow2_pos k)
    have hl : ratLog2 (n * pow2 k) < 53 + k := by
      apply ratLog2_lt hp
      rw [pow2_add]
      exact mul_lt_mul_of_pos_right (by rw [show (53 : Int) = ((53 : Nat) : Int) from rfl, pow2_nat]; exact_mod_cast hn)
        (pow2_pos k)
    have hu : ulpExp (n * pow2 k) ≤ k := by unfold ulpExp; omega
    obtain ⟨c, _, hc⟩ := pow2_int (e := k - ulpExp (n * pow2 k)) (by omega)
    apply roundMag_of_int hp (n := (n * c : Nat))
    push_cast
    rw [mul_assoc, ← hc, ← pow2_add]
    congr 2; omega

theorem roundMag_mono {p q : Rat} (hp : 0 ≤ p) (h : p ≤ q) : roundMag p ≤ roundMag q := by
  rcases hp.eq_or_lt with rfl | hp
  · rw [roundMag_zero]; exact roundMag_nonneg h
  · have hq : 0 < q := lt_of_lt_of_le hp h
    rcases lt_or_eq_of_le (ulpExp_mono hp h) with hlt | heq
    · set B := pow2 (ratLog2 q) with hB
      have hlog : ulpExp q = ratLog2 q - 52 := by unfold ulpExp at hlt ⊢; omega
      have hpB : p < B := by
        refine lt_of_lt_of_le (ratLog2_spec hp).2 (pow2_mono ?_)
        unfold ulpExp at hlt; omega
      have h1 : roundMag p ≤ B := by
        obtain ⟨c, _, hc⟩ := pow2_int (e := ratLog2 q - ulpExp p) (by omega)
        have hBc : B = c * pow2 (ulpExp p) := by rw [← hc, ← pow2_add, hB]; congr 1; omega
        rw [roundMag_pos_eq hp, hBc]
        apply mul_le_mul_of_nonneg_right _ (pow2_pos _).le
        have h2 : p / pow2 (ulpExp p) ≤ ((c : Int) : Rat) := by
          rw [div_le_iff₀ (pow2_pos _)]; push_cast; rw [← hBc]; exact hpB.le
        have := roundEven_mono h2
        rw [roundEven_int] at this
        exact_mod_cast this
      have h2 : B ≤ roundMag q := by
        have hBc : B = ((2 ^ 52 : Int) : Rat) * pow2 (ulpExp q) := by
          rw [hlog]
          have : ((2 ^ 52 : Int) : Rat) = pow2 52 := by
            rw [show (52 : Int) = ((52 : Nat) : Int) from rfl, pow2_nat]; norm_num
          rw [this, ← pow2_add, hB]; congr 1; omega
        rw [roundMag_pos_eq hq, hBc]
        apply mul_le_mul_of_nonneg_right _ (pow2_pos _).le
        have h2 : ((2 ^ 52 : Int) : Rat) ≤ q / pow2 (ulpExp q) := by
          rw [le_div_iff₀ (pow2_pos _), ← hBc]; exact (ratLog2_spec hq).1
        have := roundEven_mono h2
        rw [roundEven_int] at this
        exact_mod_cast this
      exact le_trans h1 h2
    · rw [roundMag_pos_eq hp, roundMag_pos_eq hq, heq]
      apply mul_le_mul_of_nonneg_right _ (pow2_pos _).le
      exact_mod_cast roundEven_mono (div_le_div_of_nonneg_right h (pow2_pos _).le)

theorem dyadic_one : Dyadic 1 := ⟨1, 0, by norm_num, by norm_num, by simp [pow2]⟩

theorem dyadic_u32Max : Dyadic 4294967295 := ⟨4294967295, 0, by norm_num, by norm_num, by simp [pow2]⟩

theorem roundMag_one : roundMag 1 = 1 := roundMag_dyadic dyadic_one

theorem roundMag_u32Max : roundMag 4294967295 = 4294967295 := roundMag_dyadic dyadic_u32Max

/-- Multiples of the least subnormal. -/
def Grid (q : Rat) : Prop := ∃ n : Int, q = n * pow2 (-1074)

theorem Grid.sub {p q : Rat} (hp : Grid p) (hq : Grid q) : Grid (p - q) := by
  obtain ⟨a, rfl⟩ := hp
  obtain ⟨b, rfl⟩ := hq
  exact ⟨a - b, by push_cast; ring⟩

theorem Grid.neg {p : Rat} (hp : Grid p) : Grid (-p) := by
  obtain ⟨a, rfl⟩ := hp
  exact ⟨-a, by push_cast; ring⟩

theorem roundMag_grid_pos {q : Rat} (hg : Grid q) (h : 0 < q) : 0 < roundMag q := by
  obtain ⟨n, rfl⟩ := hg
  have hn : 0 < n := by
    by_contra hc
    have : (n : Rat) ≤ 0 := by exact_mod_cast not_lt.mp hc
    have := mul_nonpos_of_nonpos_of_nonneg this (pow2_pos (-1074)).le
    linarith
  have h1 : pow2 (-1074) ≤ n * pow2 (-1074) := by
    have : (1 : Rat) ≤ n := by exact_mod_cast hn
    nlinarith [pow2_pos (-1074)]
  have h2 := roundMag_mono (pow2_pos _).le h1
  rw [roundMag_dyadic (q := pow2 (-1074)) ⟨1, -1074, by norm_num, le_refl _, by simp⟩] at h2
  exact lt_of_lt_of_le (pow2_pos _) h2

theorem grid_ofBits {bits : UInt64} {neg : Bool} {q : Rat} (h : F64.ofBits bits = .fin neg q) : 0 ≤ q ∧ Grid q := by
  unfold F64.ofBits at h; dsimp only at h
  split at h
  · split at h <;> cases h
  · split at h
    · injection h with _ h
      subst h
      exact ⟨mul_nonneg (by exact_mod_cast Nat.zero_le _) (pow2_pos _).le, ⟨(bits.toNat % 2 ^ 52 : Nat), by push_cast; rfl⟩⟩
    · rename_i hexp
      injection h with _ h
      subst h
      refine ⟨mul_nonneg (by exact_mod_cast Nat.zero_le _) (pow2_pos _).le, ?_⟩
      obtain ⟨c, _, hc⟩ := pow2_int (e := ((bits.toNat / 2 ^ 52 % 2048 : Nat) : Int) - 1075 - (-1074)) (by omega)
      refine ⟨((2 ^ 52 + bits.toNat % 2 ^ 52 : Nat) * c : Nat), ?_⟩
      push_cast
      rw [mul_assoc, ← hc, ← pow2_add]
      congr 2; omega

/-! ## Overflow -/

/-- Below the rounding threshold of the greatest double the result is finite. -/
theorem roundMag_lt {q : Rat} (h0 : 0 ≤ q) (h : q < pow2 1024 - pow2 970) : roundMag q < pow2 1024 := by
  rcases h0.eq_or_lt with rfl | hq
  · rw [roundMag_zero]; exact pow2_pos _
  have hlt : q < pow2 1024 := lt_trans h (by linarith [pow2_pos 970])
  have hl := ratLog2_lt hq hlt
  by_cases h1023 : ratLog2 q = 1023
  · have hu : ulpExp q = 971 := by unfold ulpExp; omega
    rw [roundMag_pos_eq hq, hu]
    have e1 : pow2 1024 = ((2 ^ 53 : Int) : Rat) * pow2 971 := by
      have : ((2 ^ 53 : Int) : Rat) = pow2 53 := by
        rw [show (53 : Int) = ((53 : Nat) : Int) from rfl, pow2_nat]; norm_num
      rw [this, ← pow2_add]; congr 1
    have e2 : pow2 971 = 2 * pow2 970 := by
      have : (2 : Rat) = pow2 1 := by rw [show (1 : Int) = ((1 : Nat) : Int) from rfl, pow2_nat]; norm_num
      rw [this, ← pow2_add]; congr 1
    have h2 : q / pow2 971 < ((2 ^ 53 - 1 : Int) : Rat) + 1 / 2 := by
      rw [div_lt_iff₀ (pow2_pos _)]
      push_cast
      push_cast at e1
      rw [e1] at h
      linarith
    have h3 : roundEven (q / pow2 971) ≤ 2 ^ 53 - 1 := by
      have := abs_le.mp (roundEven_err (q / pow2 971))
      have h4 : (roundEven (q / pow2 971) : Rat) < ((2 ^ 53 - 1 : Int) : Rat) + 1 := by linarith [this.2]
      have : roundEven (q / pow2 971) < 2 ^ 53 - 1 + 1 := by exact_mod_cast h4
      omega
    rw [e1]
    apply mul_lt_mul_of_pos_right _ (pow2_pos _)
    have : roundEven (q / pow2 971) < 2 ^ 53 := by omega
    exact_mod_cast this
  · have hq2 : q ≤ pow2 1023 := by
      have := (ratLog2_spec hq).2
      exact le_trans this.le (pow2_mono (by omega))
    have := roundMag_mono hq.le hq2
    rw [roundMag_dyadic (q := pow2 1023) ⟨1, 1023, by norm_num, by norm_num, by simp⟩] at this
    exact lt_of_le_of_lt this (pow2_lt_iff.mpr (by norm_num))

theorem u32Max_lt_pow2 : (4294967295 : Rat) < pow2 1024 := by
  have : pow2 32 < pow2 1024 := pow2_lt_iff.mpr (by norm_num)
  have h : pow2 32 = 4294967296 := by rw [show (32 : Int) = ((32 : Nat) : Int) from rfl, pow2_nat]; norm_num
  rw [h] at this
  linarith

/-! ## Rounding error -/

theorem roundMag_err {q : Rat} (h : 0 ≤ q) : |roundMag q - q| ≤ q * pow2 (-53) + pow2 (-1075) := by
  rcases h.eq_or_lt with rfl | hq
  · rw [roundMag_zero]; simp [(pow2_pos (-1075)).le]
  have h1 := roundEven_err (q / pow2 (ulpExp q))
  have hu := pow2_pos (ulpExp q)
  have h2 : roundMag q - q = ((roundEven (q / pow2 (ulpExp q)) : Rat) - q / pow2 (ulpExp q)) * pow2 (ulpExp q) := by
    rw [roundMag_pos_eq hq, sub_mul, div_mul_cancel₀ _ hu.ne']
  have h3 : |roundMag q - q| ≤ 1 / 2 * pow2 (ulpExp q) := by
    rw [h2, abs_mul, abs_of_pos hu]
    exact mul_le_mul_of_nonneg_right h1 hu.le
  have half : (1 / 2 : Rat) = pow2 (-1) := by rw [pow2_eq]; norm_num
  rw [half, ← pow2_add] at h3
  by_cases hl : -1022 ≤ ratLog2 q
  · have e : -1 + ulpExp q = ratLog2 q + (-53) := by unfold ulpExp; omega
    rw [e, pow2_add] at h3
    have := mul_le_mul_of_nonneg_right (ratLog2_spec hq).1 (pow2_pos (-53)).le
    linarith [pow2_pos (-1075)]
  · have e : -1 + ulpExp q = -1075 := by unfold ulpExp; omega
    rw [e] at h3
    linarith [mul_pos hq (pow2_pos (-53))]

/-- Multiples of the least subnormal have no error when they are subnormal. -/
theorem roundMag_err_grid {q : Rat} (hg : Grid q) (h : 0 ≤ q) : |roundMag q - q| ≤ q * pow2 (-53) := by
  rcases h.eq_or_lt with rfl | hq
  · rw [roundMag_zero]; simp
  have h1 := roundEven_err (q / pow2 (ulpExp q))
  have hu := pow2_pos (ulpExp q)
  by_cases hl : -1022 ≤ ratLog2 q
  · have h2 : roundMag q - q = ((roundEven (q / pow2 (ulpExp q)) : Rat) - q / pow2 (ulpExp q)) * pow2 (ulpExp q) := by
      rw [roundMag_pos_eq hq, sub_mul, div_mul_cancel₀ _ hu.ne']
    have h3 : |roundMag q - q| ≤ 1 / 2 * pow2 (ulpExp q) := by
      rw [h2, abs_mul, abs_of_pos hu]
      exact mul_le_mul_of_nonneg_right h1 hu.le
    have half : (1 / 2 : Rat) = pow2 (-1) := by rw [pow2_eq]; norm_num
    rw [half, ← pow2_add] at h3
    have e : -1 + ulpExp q = ratLog2 q + (-53) := by unfold ulpExp; omega
    rw [e, pow2_add] at h3
    have := mul_le_mul_of_nonneg_right (ratLog2_spec hq).1 (pow2_pos (-53)).le
    linarith
  · have e : ulpExp q = -1074 := by unfold ulpExp; omega
    obtain ⟨n, hn⟩ := hg
    rw [roundMag_of_int hq (n := n) (by rw [e]; exact hn), sub_self, abs_zero]
    exact mul_nonneg hq.le (pow2_pos _).le

end TopoGeo
