import Verif.Proofs.F64
import Verif.Proofs.ReadGeo
import Verif.Spec.F64
/-!
# The arithmetic of the model is correctly rounded
-/

namespace TopoGeo

open Spec

theorem distance_eq (a b : Rat) : distance a b = |b - a| := by
  unfold distance
  split
  · rw [abs_of_nonneg (by linarith)]
  · rw [abs_of_neg (by linarith)]; ring

/-- No integer is nearer than the one `roundEven` chooses, and it is even if
another one is as near. -/
theorem roundEven_nearest (r : Rat) (j : Int) :
    |(roundEven r : Rat) - r| ≤ |(j : Rat) - r| ∧
    (|(roundEven r : Rat) - r| = |(j : Rat) - r| → j = roundEven r ∨ roundEven r % 2 = 0) := by
  have h1 : (r.floor : Rat) ≤ r := by rw [ratFloor_eq]; exact Int.floor_le r
  have h2 : r < (r.floor : Rat) + 1 := by rw [ratFloor_eq]; exact Int.lt_floor_add_one r
  generalize hf : r.floor = f at h1 h2
  have hj : j ≤ f ∨ f + 1 ≤ j := by omega
  have hd : (j ≤ f → r - f ≤ |(j : Rat) - r| ∧ (r - f = |(j : Rat) - r| → j = f)) ∧
      (f + 1 ≤ j → f + 1 - r ≤ |(j : Rat) - r| ∧ (f + 1 - r = |(j : Rat) - r| → j = f + 1)) := by
    constructor
    · intro h
      have h' : (j : Rat) ≤ f := by exact_mod_cast h
      rw [abs_of_nonpos (by linarith)]
      exact ⟨by linarith, fun h3 => by
        have : (j : Rat) = f := by linarith
        exact_mod_cast this⟩
    · intro h
      have h' : (f : Rat) + 1 ≤ j := by exact_mod_cast h
      rw [abs_of_nonneg (by linarith)]
      exact ⟨by linarith, fun h3 => by
        have : (j : Rat) = f + 1 := by linarith
        exact_mod_cast this⟩
  unfold roundEven
  rw [hf]
  dsimp only
  split
  · rename_i hlt
    rw [abs_of_nonpos (by linarith : (f : Rat) - r ≤ 0)]
    rcases hj with hj | hj
    · obtain ⟨a, b⟩ := hd.1 hj
      exact ⟨by linarith, fun h => .inl (b (by linarith))⟩
    · obtain ⟨a, b⟩ := hd.2 hj
      exact ⟨by linarith, fun h => absurd h (by linarith)⟩
  · split
    · rename_i hgt
      push_cast
      rw [abs_of_nonneg (by linarith : 0 ≤ (f : Rat) + 1 - r)]
      rcases hj with hj | hj
      · obtain ⟨a, b⟩ := hd.1 hj
        exact ⟨by linarith, fun h => absurd h (by linarith)⟩
      · obtain ⟨a, b⟩ := hd.2 hj
        exact ⟨by linarith, fun h => .inl (b (by linarith))⟩
    · have he : r - f = 1 / 2 := by linarith
      have hmin : (1 : Rat) / 2 ≤ |(j : Rat) - r| := by
        rcases hj with hj | hj
        · linarith [(hd.1 hj).1]
        · linarith [(hd.2 hj).1]
      split
      · rename_i hev
        rw [abs_of_nonpos (by linarith : (f : Rat) - r ≤ 0)]
        exact ⟨by linarith, fun _ => .inr hev⟩
      · rename_i hev
        push_cast
        rw [abs_of_nonneg (by linarith : 0 ≤ (f : Rat) + 1 - r)]
        exact ⟨by linarith, fun _ => .inr (by omega)⟩

/-! ## Bit patterns -/

/-- A sign bit, an exponent field and a fraction field. -/
def encode (neg : Bool) (e f : Nat) : UInt64 := UInt64.ofNat ((if neg then 2 ^ 63 else 0) + e * 2 ^ 52 + f)

theorem encode_toNat {neg : Bool} {e f : Nat} (he : e < 2048) (hf : f < 2 ^ 52) :
    (encode neg e f).toNat = (if neg then 2 ^ 63 else 0) + e * 2 ^ 52 + f := by
  unfold encode
  rw [UInt64.toNat_ofNat_of_lt']
  show _ < 2 ^ 64
  cases neg <;> simp <;> omega

theorem ofBits_encode {neg : Bool} {e f : Nat} (he : e < 2047) (hf : f < 2 ^ 52) :
    F64.ofBits (encode neg e f) =
      .fin neg (if e = 0 then (f : Rat) * pow2 (-1074) else ((2 ^ 52 + f : Nat) : Rat) * pow2 ((e : Int) - 1075)) := by
  have h := encode_toNat (neg := neg) (show e < 2048 by omega) hf
  unfold F64.ofBits
  rw [h]
  have h1 : (decide (((if neg then 2 ^ 63 else 0) + e * 2 ^ 52 + f) / 2 ^ 63 = 1)) = neg := by
    cases neg <;> simp <;> omega
  have h2 : ((if neg then 2 ^ 63 else 0) + e * 2 ^ 52 + f) / 2 ^ 52 % 2048 = e := by
    cases neg <;> simp <;> omega
  have h3 : ((if neg then 2 ^ 63 else 0) + e * 2 ^ 52 + f) % 2 ^ 52 = f := by
    cases neg <;> simp <;> omega
  dsimp only
  rw [h1, h2, h3, if_neg (by omega)]
  split <;> rfl

theorem encode_even {neg : Bool} {e f : Nat} (he : e < 2047) (hf : f < 2 ^ 52) :
    (encode neg e f).toNat % 2 = f % 2 := by
  rw [encode_toNat (by omega) hf]
  cases neg <;> simp <;> omega

theorem encode_sign {neg : Bool} {e f : Nat} (he : e < 2047) (hf : f < 2 ^ 52) :
    (encode neg e f).toNat / 2 ^ 63 = 1 ↔ neg = true := by
  rw [encode_toNat (by omega) hf]
  cases neg <;> simp <;> omega

/-- The values of finite doubles. -/
theorem double_form {b : UInt64} {neg : Bool} {q : Rat} (h : F64.ofBits b = .fin neg q) :
    ∃ (n : Nat) (k : Int), n < 2 ^ 53 ∧ -1074 ≤ k ∧ q = n * pow2 k := by
  unfold F64.ofBits at h; dsimp only at h
  split at h
  · split at h <;> cases h
  · split at h
    · injection h with _ h
      exact ⟨b.toNat % 2 ^ 52, -1074, by omega, le_refl _, h.symm⟩
    · injection h with _ h
      exact ⟨2 ^ 52 + b.toNat % 2 ^ 52, _, by omega, by omega, h.symm⟩

/-- A number with 53 bits has a bit pattern, whose last bit is that of the number,
if the number is as long as it can be. -/
theorem encode_form (neg : Bool) {n : Nat} {k : Int} (hn : n < 2 ^ 53) (hk : -1074 ≤ k) (hk' : k ≤ 971)
    (hb : 2 ^ 52 ≤ n ∨ k = -1074) : ∃ b : UInt64, F64.ofBits b = .fin neg (n * pow2 k) ∧ b.toNat % 2 = n % 2 ∧
      (b.toNat / 2 ^ 63 = 1 ↔ neg = true) := by
  by_cases h52 : 2 ^ 52 ≤ n
  · have he : (k + 1075).toNat < 2047 := by omega
    have hf : n - 2 ^ 52 < 2 ^ 52 := by omega
    refine ⟨encode neg (k + 1075).toNat (n - 2 ^ 52), ?_, ?_, encode_sign he hf⟩
    · rw [ofBits_encode he hf, if_neg (by omega), show 2 ^ 52 + (n - 2 ^ 52) = n by omega,
        show (((k + 1075).toNat : Nat) : Int) - 1075 = k by omega]
    · rw [encode_even he hf]; omega
  · have hk0 : k = -1074 := by
      rcases hb with hb | hb
      · exact absurd hb h52
      · exact hb
    subst hk0
    refine ⟨encode neg 0 n, ?_, encode_even (by omega) (by omega), encode_sign (by omega) (by omega)⟩
    rw [ofBits_encode (by omega) (by omega), if_pos rfl]

/-- The fields of a finite double. -/
theorem double_fields {b : UInt64} {neg : Bool} {q : Rat} (h : F64.ofBits b = .fin neg q) :
    ∃ e f, e < 2047 ∧ f < 2 ^ 52 ∧ b = encode neg e f := by
  refine ⟨b.toNat / 2 ^ 52 % 2048, b.toNat % 2 ^ 52, ?_, by omega, ?_⟩
  · unfold F64.ofBits at h; dsimp only at h
    split at h
    · split at h <;> cases h
    · omega
  · have hneg : decide (b.toNat / 2 ^ 63 = 1) = neg := by
      unfold F64.ofBits at h; dsimp only at h
      split at h
      · split at h <;> cases h
      · split at h <;> (injection h)
    apply UInt64.toNat_inj.mp
    rw [encode_toNat (by omega) (by omega)]
    have hb : b.toNat < 2 ^ 64 := b.toNat_lt
    cases neg
    · have := of_decide_eq_false hneg
      simp; omega
    · have := of_decide_eq_true hneg
      simp; omega

/-- The opposite of a double is a double. -/
theorem double_flip {b : UInt64} {r : Rat} (h : doubleVal b = some r) : ∃ b', doubleVal b' = some (-r) ∧ b'.toNat % 2 = b.toNat % 2 := by
  obtain ⟨s, m, hb, rfl⟩ := doubleVal_iff.mp h
  obtain ⟨e, f, he, hf, rfl⟩ := double_fields hb
  rw [ofBits_encode he hf] at hb
  injection hb with _ hm
  refine ⟨encode (!s) e f, doubleVal_iff.mpr ⟨!s, m, ?_, ?_⟩, ?_⟩
  · rw [ofBits_encode he hf, hm]
  · cases s
    · rfl
    · exact (neg_neg m).symm
  · rw [encode_even he hf, encode_even he hf]

/-- Different bit patterns are different doubles, but for NaN. -/
theorem ofBits_inj {b b' : UInt64} {neg : Bool} {q : Rat} (h : F64.ofBits b = .fin neg q) (h' : F64.ofBits b' = .fin neg q) :
    b = b' := by
  obtain ⟨e, f, he, hf, rfl⟩ := double_fields h
  obtain ⟨e', f', he', hf', rfl⟩ := double_fields h'
  rw [ofBits_encode he hf] at h
  rw [ofBits_encode he' hf'] at h'
  injection h with _ h
  injection h' with _ h'
  have key := h.trans h'.symm
  have hp := pow2_pos (-1074)
  have up : ∀ {a c : Nat}, a ≠ 0 → c < 2 ^ 52 → ((2 ^ 52 + c : Nat) : Rat) * pow2 ((a : Int) - 1075) < pow2 ((a : Int) - 1022) := by
    intro a c _ hc
    rw [show ((a : Int) - 1022) = 53 + (a - 1075) by omega, pow2_add]
    apply mul_lt_mul_of_pos_right _ (pow2_pos _)
    rw [show (53 : Int) = ((53 : Nat) : Int) from rfl, pow2_nat]
    exact_mod_cast (by omega : 2 ^ 52 + c < 2 ^ 53)
  have low : ∀ {a c : Nat}, a ≠ 0 → pow2 ((a : Int) - 1023) ≤ ((2 ^ 52 + c : Nat) : Rat) * pow2 ((a : Int) - 1075) := by
    intro a c _
    rw [show ((a : Int) - 1023) = 52 + (a - 1075) by omega, pow2_add]
    apply mul_le_mul_of_nonneg_right _ (pow2_pos _).le
    rw [show (52 : Int) = ((52 : Nat) : Int) from rfl, pow2_nat]
    exact_mod_cast (by omega : 2 ^ 52 ≤ 2 ^ 52 + c)
  have sub : ∀ {c : Nat}, c < 2 ^ 52 → (c : Rat) * pow2 (-1074) < pow2 (-1022) := by
    intro c hc
    rw [show (-1022 : Int) = 52 + -1074 by norm_num, pow2_add]
    apply mul_lt_mul_of_pos_right _ hp
    rw [show (52 : Int) = ((52 : Nat) : Int) from rfl, pow2_nat]
    exact_mod_cast hc
  by_cases e0 : e = 0 <;> by_cases e0' : e' = 0
  · subst e0 e0'
    rw [if_pos rfl, if_pos rfl] at key
    have : (f : Rat) = f' := mul_right_cancel₀ hp.ne' key
    rw [show f = f' by exact_mod_cast this]
  · rw [if_pos e0, if_neg e0'] at key
    have h1 := sub hf
    have h2 := low (c := f') e0'
    have h3 := pow2_mono (a := -1022) (b := (e' : Int) - 1023) (by omega)
    linarith
  · rw [if_neg e0, if_pos e0'] at key
    have h1 := sub hf'
    have h2 := low (c := f) e0
    have h3 := pow2_mono (a := -1022) (b := (e : Int) - 1023) (by omega)
    linarith
  · rw [if_neg e0, if_neg e0'] at key
    rcases Nat.lt_trichotomy e e' with hl | hl | hl
    · have h1 := up e0 hf
      have h2 := low (c := f') e0'
      have h3 := pow2_mono (a := (e : Int) - 1022) (b := (e' : Int) - 1023) (by omega)
      linarith
    · subst hl
      have : ((2 ^ 52 + f : Nat) : Rat) = ((2 ^ 52 + f' : Nat) : Rat) := mul_right_cancel₀ (pow2_pos _).ne' key
      have : 2 ^ 52 + f = 2 ^ 52 + f' := by exact_mod_cast this
      rw [show f = f' by omega]
    · have h1 := up e0' hf'
      have h2 := low (c := f) e0
      have h3 := pow2_mono (a := (e' : Int) - 1022) (b := (e : Int) - 1023) (by omega)
      linarith

/-! ## Rounding a positive number -/

/-- How the nearest double is found. -/
theorem roundMag_form {q : Rat} (h : 0 < q) : ∃ n : Nat, roundMag q = n * pow2 (ulpExp q) ∧
    roundEven (q / pow2 (ulpExp q)) = n ∧ n ≤ 2 ^ 53 ∧ (2 ^ 52 ≤ n ∨ ulpExp q = -1074) ∧ -1074 ≤ ulpExp q := by
  obtain ⟨h1, h2⟩ := ratLog2_spec h
  have hu : -1074 ≤ ulpExp q := by unfold ulpExp; omega
  have hup : q / pow2 (ulpExp q) ≤ ((2 ^ 53 : Int) : Rat) := by
    rw [div_le_iff₀ (pow2_pos _)]
    have e : ((2 ^ 53 : Int) : Rat) = pow2 53 := by
      rw [show (53 : Int) = ((53 : Nat) : Int) from rfl, pow2_nat]; norm_num
    rw [e, ← pow2_add]
    refine le_trans h2.le (pow2_mono ?_)
    unfold ulpExp; omega
  have h0 : ((0 : Int) : Rat) ≤ q / pow2 (ulpExp q) := by
    push_cast; exact (div_pos h (pow2_pos _)).le
  have r0 := roundEven_mono h0
  have r1 := roundEven_mono hup
  rw [roundEven_int] at r0 r1
  refine ⟨(roundEven (q / pow2 (ulpExp q))).toNat, ?_, by omega, by omega, ?_, hu⟩
  · rw [roundMag_pos_eq h]
    congr 1
    exact_mod_cast (Int.toNat_of_nonneg r0).symm
  · by_cases hs : ulpExp q = -1074
    · exact .inr hs
    · left
      have hlow : ((2 ^ 52 : Int) : Rat) ≤ q / pow2 (ulpExp q) := by
        rw [le_div_iff₀ (pow2_pos _)]
        have e : ((2 ^ 52 : Int) : Rat) = pow2 52 := by
          rw [show (52 : Int) = ((52 : Nat) : Int) from rfl, pow2_nat]; norm_num
        rw [e, ← pow2_add]
        refine le_trans (pow2_mono ?_) h1
        unfold ulpExp at hs ⊢; omega
      have r2 := roundEven_mono hlow
      rw [roundEven_int] at r2
      omega

/-- Multiples of the spacing are no nearer, and neither is what is below the
spacing. -/
theorem roundMag_nearest {q : Rat} (h : 0 < q) {b : UInt64} {v : Rat} (hv : doubleVal b = some v) :
    |roundMag q - q| ≤ |v - q| ∧
    (|roundMag q - q| = |v - q| → v = roundMag q ∨ roundEven (q / pow2 (ulpExp q)) % 2 = 0) := by
  have hp := pow2_pos (ulpExp q)
  -- a multiple of the spacing
  have key : ∀ j : Int, |roundMag q - q| ≤ |(j : Rat) * pow2 (ulpExp q) - q| ∧
      (|roundMag q - q| = |(j : Rat) * pow2 (ulpExp q) - q| →
        (j : Rat) * pow2 (ulpExp q) = roundMag q ∨ roundEven (q / pow2 (ulpExp q)) % 2 = 0) := by
    intro j
    have e1 : ∀ x : Rat, |x * pow2 (ulpExp q) - q| = |x - q / pow2 (ulpExp q)| * pow2 (ulpExp q) := by
      intro x
      rw [← abs_of_pos hp, ← abs_mul, abs_of_pos hp]
      congr 1
      field_simp
    obtain ⟨a, c⟩ := roundEven_nearest (q / pow2 (ulpExp q)) j
    rw [roundMag_pos_eq h, e1, e1]
    refine ⟨mul_le_mul_of_nonneg_right a hp.le, fun he => ?_⟩
    rcases c (mul_right_cancel₀ hp.ne' he) with c | c
    · left; rw [c]
    · exact .inr c
  -- strictly farther than a multiple
  have far : ∀ j : Int, |(j : Rat) * pow2 (ulpExp q) - q| < |v - q| → |roundMag q - q| ≤ |v - q| ∧
      (|roundMag q - q| = |v - q| → v = roundMag q ∨ roundEven (q / pow2 (ulpExp q)) % 2 = 0) := by
    intro j hj
    have := (key j).1
    exact ⟨by linarith, fun he => absurd he (by linarith)⟩
  obtain ⟨neg, m, hb, rfl⟩ := doubleVal_iff.mp hv
  obtain ⟨n, k, hn, hk, rfl⟩ := double_form hb
  have hm : (0 : Rat) ≤ n * pow2 k := mul_nonneg (by exact_mod_cast Nat.zero_le n) (pow2_pos k).le
  by_cases hku : ulpExp q ≤ k
  · obtain ⟨c, _, hc⟩ := pow2_int (e := k - ulpExp q) (by omega)
    have e : (n : Rat) * pow2 k = ((n * c : Nat) : Int) * pow2 (ulpExp q) := by
      have : pow2 k = pow2 (k - ulpExp q) * pow2 (ulpExp q) := by rw [← pow2_add]; congr 1; omega
      rw [this, hc]; push_cast; ring
    cases neg with
    | false =>
      have := key ((n * c : Nat) : Int)
      rw [← e] at this
      exact this
    | true =>
      have := key (-((n * c : Nat) : Int))
      rw [Int.cast_neg, neg_mul, ← e] at this
      exact this
  · have hlog : ulpExp q = ratLog2 q - 52 := by unfold ulpExp at hku ⊢; omega
    have h1 := (ratLog2_spec h).1
    have e52 : ((2 ^ 52 : Int) : Rat) * pow2 (ulpExp q) = pow2 (ratLog2 q) := by
      have e : ((2 ^ 52 : Int) : Rat) = pow2 52 := by
        rw [show (52 : Int) = ((52 : Nat) : Int) from rfl, pow2_nat]; norm_num
      rw [e, ← pow2_add]; congr 1; omega
    have hlt : (n : Rat) * pow2 k < pow2 (ratLog2 q) := by
      have a : (n : Rat) * pow2 k < pow2 53 * pow2 k := by
        apply mul_lt_mul_of_pos_right _ (pow2_pos k)
        rw [show (53 : Int) = ((53 : Nat) : Int) from rfl, pow2_nat]; exact_mod_cast hn
      refine lt_of_lt_of_le a ?_
      rw [← pow2_add]
      exact pow2_mono (by omega)
    apply far (2 ^ 52)
    rw [e52, abs_of_nonpos (by linarith)]
    have hs : signedVal neg (n * pow2 k) ≤ n * pow2 k := by
      cases neg
      · exact le_refl _
      · show -((n : Rat) * pow2 k) ≤ n * pow2 k
        linarith
    rw [abs_of_neg (by linarith)]
    linarith

/-- `roundSigned` is correct for a positive exact result and for its opposite. -/
theorem rounds_signed {q : Rat} (h : 0 < q) (neg : Bool) :
    ∃ b, F64.ofBits b = F64.roundSigned neg q ∧ Rounds (signedVal neg q) b := by
  have hgap : distance 0 (signedVal neg q) = q := by
    rw [distance_eq, sub_zero]
    cases neg
    · exact abs_of_pos h
    · show |(-q)| = q
      rw [abs_neg, abs_of_pos h]
  have hneg : signedVal neg q < 0 ↔ neg = true := by
    cases neg
    · simp [signedVal]; exact h.le
    · simp [signedVal]; exact h
  by_cases hlt : q < pow2 1024 - pow2 970
  · have hm := roundMag_lt h.le hlt
    obtain ⟨n, h1, h2, h3, h4, h5⟩ := roundMag_form h
    -- the exponent is in range
    have hk : ulpExp q ≤ 971 := by
      have : ratLog2 q < 1024 := ratLog2_lt h (by linarith [pow2_pos 970])
      unfold ulpExp; omega
    have hb : ∃ b : UInt64, F64.ofBits b = .fin neg (roundMag q) ∧ (n % 2 = 0 → b.toNat % 2 = 0) ∧
        (b.toNat / 2 ^ 63 = 1 ↔ neg = true) := by
      rcases Nat.lt_or_ge n (2 ^ 53) with hn | hn
      · obtain ⟨b, e1, e2, e3⟩ := encode_form neg hn h5 hk h4
        exact ⟨b, by rw [e1, h1], fun h => by omega, e3⟩
      · have hn : n = 2 ^ 53 := by omega
        have e53 : ((2 ^ 53 : Nat) : Rat) * pow2 (ulpExp q) = ((2 ^ 52 : Nat) : Rat) * pow2 (ulpExp q + 1) := by
          rw [pow2_add, show pow2 1 = 2 by rw [show (1 : Int) = ((1 : Nat) : Int) from rfl, pow2_nat]; norm_num]
          push_cast; ring
        have hk2 : ulpExp q + 1 ≤ 971 := by
          rw [h1, hn] at hm
          have e : ((2 ^ 53 : Nat) : Rat) = pow2 53 := by
            rw [show (53 : Int) = ((53 : Nat) : Int) from rfl, pow2_nat]
          rw [e, ← pow2_add, pow2_lt_iff] at hm
          omega
        obtain ⟨b, e1, e2, e3⟩ := encode_form neg (n := 2 ^ 52) (k := ulpExp q + 1) (by omega) (by omega) hk2 (.inl (le_refl _))
        exact ⟨b, by rw [e1, h1, hn, e53], fun _ => by omega, e3⟩
    obtain ⟨b, e1, e2, e3⟩ := hb
    refine ⟨b, ?_, ⟨fun _ => ⟨signedVal neg (roundMag q), ?_, ?_, ?_⟩, fun hge => ?_⟩⟩
    · rw [e1, roundSigned_ok hm]
    · exact doubleVal_iff.mpr ⟨neg, _, e1, rfl⟩
    · intro b' r' hr'
      rw [distance_eq, distance_eq]
      -- mirror, if negative
      have mir : ∃ b'' r'', doubleVal b'' = some r'' ∧ r' = signedVal neg r'' := by
        cases neg with
        | false => exact ⟨b', r', hr', rfl⟩
        | true =>
          obtain ⟨b'', hb'', _⟩ := double_flip hr'
          exact ⟨b'', -r', hb'', (neg_neg r').symm⟩
      obtain ⟨b'', r'', hd, rfl⟩ := mir
      have hdist : ∀ x y : Rat, |signedVal neg x - signedVal neg y| = |x - y| := by
        intro x y
        cases neg with
        | false => rfl
        | true =>
          show |(-x) - (-y)| = |x - y|
          rw [← abs_neg]; congr 1; ring
      rw [hdist, hdist]
      obtain ⟨a, c⟩ := roundMag_nearest h hd
      refine ⟨a, fun he => ?_⟩
      rcases c he with c | c
      · left; rw [c]
      · right
        apply e2
        rw [h2] at c
        omega
    · intro _
      rw [e3, hneg]
    · rw [hgap, ← pow2_limit] at hge
      exact absurd hge (not_le.mpr hlt)
  · have hge := not_lt.mp hlt
    have hinf : ¬ roundMag q < pow2 1024 := by
      have hpos : (0 : Rat) ≤ pow2 1024 - pow2 970 := by
        have : pow2 970 ≤ pow2 1024 := pow2_mono (by norm_num)
        linarith
      have := roundMag_mono hpos hge
      rw [show roundMag (pow2 1024 - pow2 970) = pow2 1024 by decide +kernel] at this
      exact not_lt.mpr this
    refine ⟨if neg then 0xfff0000000000000 else 0x7ff0000000000000, ?_, ⟨fun hf => ?_, fun _ => ?_⟩⟩
    · rw [roundSigned_inf hinf]
      cases neg <;> decide +kernel
    · rw [hgap, ← pow2_limit] at hf
      exact absurd hf hlt
    · cases neg
      · exact (if_neg (fun h => by simpa using hneg.mp h)).symm
      · rw [if_pos (hneg.mpr rfl)]; rfl

/-- Where two doubles are nearest, the one that is not chosen is odd. -/
theorem tie_odd {q : Rat} (h : 0 < q) (hlim : q < pow2 1024) {b : UInt64} {v : Rat} (hv : doubleVal b = some v)
    (ht : |roundMag q - q| = |v - q|) (hne : v ≠ roundMag q) : b.toNat % 2 = 1 := by
  have hp := pow2_pos (ulpExp q)
  obtain ⟨n, h1, h2, h3, h4, h5⟩ := roundMag_form h
  obtain ⟨hlo, hhi⟩ := ratLog2_spec h
  have hk : ulpExp q ≤ 971 := by
    have : ratLog2 q < 1024 := ratLog2_lt h hlim
    unfold ulpExp; omega
  have hev : n % 2 = 0 := by
    rcases (roundMag_nearest h hv).2 ht with hc | hc
    · exact absurd hc hne
    · rw [h2] at hc; omega
  have e1 : ∀ x : Rat, |x * pow2 (ulpExp q) - q| = |x - q / pow2 (ulpExp q)| * pow2 (ulpExp q) := by
    intro x
    rw [← abs_of_pos hp, ← abs_mul, abs_of_pos hp]
    congr 1
    field_simp
  have herr := roundEven_err (q / pow2 (ulpExp q))
  rw [h2] at herr
  have ht0 : 0 < q / pow2 (ulpExp q) := div_pos h hp
  have ht53 : q / pow2 (ulpExp q) < 2 ^ 53 := by
    rw [div_lt_iff₀ hp, show ((2 : Rat) ^ 53) = pow2 53 by rw [pow2_eq]; norm_num, ← pow2_add]
    refine lt_of_lt_of_le hhi (pow2_mono ?_)
    unfold ulpExp; omega
  have ht52 : ulpExp q ≠ -1074 → 2 ^ 52 ≤ q / pow2 (ulpExp q) := by
    intro hs
    rw [le_div_iff₀ hp, show ((2 : Rat) ^ 52) = pow2 52 by rw [pow2_eq]; norm_num, ← pow2_add]
    refine le_trans (pow2_mono ?_) hlo
    unfold ulpExp at hs ⊢; omega
  -- the other one is a multiple of the spacing, too
  have hmul : ∃ j : Int, v = j * pow2 (ulpExp q) := by
    obtain ⟨neg, m, hb, rfl⟩ := doubleVal_iff.mp hv
    obtain ⟨c, k, hc, hk2, rfl⟩ := double_form hb
    by_cases hku : ulpExp q ≤ k
    · obtain ⟨d, _, hd⟩ := pow2_int (e := k - ulpExp q) (by omega)
      have e : (c : Rat) * pow2 k = ((c * d : Nat) : Int) * pow2 (ulpExp q) := by
        have : pow2 k = pow2 (k - ulpExp q) * pow2 (ulpExp q) := by rw [← pow2_add]; congr 1; omega
        rw [this, hd]; push_cast; ring
      cases neg with
      | false => exact ⟨_, e⟩
      | true =>
        refine ⟨-((c * d : Nat) : Int), ?_⟩
        show -((c : Rat) * pow2 k) = _
        rw [e]; push_cast; ring
    · exfalso
      have hlog : ulpExp q = ratLog2 q - 52 := by unfold ulpExp at hku ⊢; omega
      have e52 : ((2 ^ 52 : Nat) : Rat) * pow2 (ulpExp q) = pow2 (ratLog2 q) := by
        have e : ((2 ^ 52 : Nat) : Rat) = pow2 52 := rfl
        rw [e, ← pow2_add]; congr 1; omega
      have hlt : (c : Rat) * pow2 k < pow2 (ratLog2 q) := by
        have a : (c : Rat) * pow2 k < pow2 53 * pow2 k := by
          apply mul_lt_mul_of_pos_right _ (pow2_pos k)
          rw [show (53 : Int) = ((53 : Nat) : Int) from rfl, pow2_nat]; exact_mod_cast hc
        refine lt_of_lt_of_le a ?_
        rw [← pow2_add]
        exact pow2_mono (by omega)
      have hs : signedVal neg (c * pow2 k) ≤ c * pow2 k := by
        have : (0 : Rat) ≤ c * pow2 k := mul_nonneg (by exact_mod_cast Nat.zero_le c) (pow2_pos k).le
        cases neg
        · exact le_refl _
        · show -((c : Rat) * pow2 k) ≤ c * pow2 k
          linarith
      obtain ⟨b52, hb52, _⟩ := encode_form false (n := 2 ^ 52) (k := ulpExp q) (by omega) h5 hk (.inl (le_refl _))
      have := (roundMag_nearest h (doubleVal_iff.mpr ⟨false, _, hb52, rfl⟩)).1
      rw [show signedVal false (((2 ^ 52 : Nat) : Rat) * pow2 (ulpExp q)) = pow2 (ratLog2 q) from e52,
        abs_of_nonpos (by linarith : pow2 (ratLog2 q) - q ≤ 0), ht, abs_of_neg (by linarith)] at this
      linarith
  obtain ⟨j, rfl⟩ := hmul
  rw [h1, e1, e1] at ht
  have ht' := mul_right_cancel₀ hp.ne' ht
  have hjn : j ≠ n := by
    rintro rfl
    apply hne
    rw [h1]; push_cast; rfl
  generalize q / pow2 (ulpExp q) = t at *
  push_cast at herr
  have hcase : (j = n + 1 ∧ t = n + 1 / 2) ∨ (j = (n : Int) - 1 ∧ t = n - 1 / 2) := by
    have hj : (j : Rat) ≠ n := by exact_mod_cast hjn
    have hsum : (n : Rat) + j = 2 * t := by
      rcases abs_eq_abs.mp ht' with hc | hc
      · exact absurd (by linarith : (j : Rat) = n) hj
      · linarith
    obtain ⟨a1, a2⟩ := abs_le.mp herr
    have b1 : (j : Rat) ≤ n + 1 := by linarith
    have b2 : (n : Rat) - 1 ≤ j := by linarith
    have b1' : j ≤ n + 1 := by exact_mod_cast b1
    have b2' : (n : Int) - 1 ≤ j := by exact_mod_cast b2
    rcases (by omega : j = n + 1 ∨ j = (n : Int) - 1) with hj | hj
    · left
      refine ⟨hj, ?_⟩
      rw [hj] at hsum; push_cast at hsum; linarith
    · right
      refine ⟨hj, ?_⟩
      rw [hj] at hsum; push_cast at hsum; linarith
  have hform : ∃ c : Nat, j = c ∧ c % 2 = 1 ∧ c < 2 ^ 53 ∧ (2 ^ 52 ≤ c ∨ ulpExp q = -1074) := by
    rcases hcase with ⟨hj, htn⟩ | ⟨hj, htn⟩
    · refine ⟨n + 1, by rw [hj]; push_cast; rfl, by omega, ?_, ?_⟩
      · have : (n : Rat) < 2 ^ 53 := by linarith
        have : n < 2 ^ 53 := by exact_mod_cast this
        omega
      · rcases h4 with h4 | h4
        · left; omega
        · exact .inr h4
    · have hn1 : 1 ≤ n := by
        have : (0 : Rat) < n := by linarith
        exact_mod_cast this
      refine ⟨n - 1, by omega, by omega, by omega, ?_⟩
      by_cases hs : ulpExp q = -1074
      · exact .inr hs
      · left
        have h6 := ht52 hs
        have : (2 : Rat) ^ 52 < n := by linarith
        have : 2 ^ 52 < n := by exact_mod_cast this
        omega
  obtain ⟨c, rfl, hodd, hc1, hc2⟩ := hform
  obtain ⟨b1, hb1, hpar, _⟩ := encode_form false hc1 h5 hk hc2
  obtain ⟨s, m, hb, hsm⟩ := doubleVal_iff.mp hv
  have hpos : (0 : Rat) < ((c : Int) : Rat) * pow2 (ulpExp q) := by
    apply mul_pos _ hp
    have : 0 < c := by omega
    exact_mod_cast this
  have hm0 := (grid_ofBits hb).1
  cases s with
  | true =>
    have : -m = ((c : Int) : Rat) * pow2 (ulpExp q) := hsm
    linarith
  | false =>
    have : m = (c : Rat) * pow2 (ulpExp q) := by rw [show m = _ from hsm]; push_cast; rfl
    rw [this] at hb
    rw [ofBits_inj hb hb1, hpar, hodd]

theorem double_sign {b : UInt64} {s : Bool} {m : Rat} (h : F64.ofBits b = .fin s m) : b.toNat / 2 ^ 63 = 1 ↔ s = true := by
  obtain ⟨e, f, he, hf, rfl⟩ := double_fields h
  exact encode_sign he hf

/-- The specification leaves no choice, but for the sign of an exact zero. -/
theorem rounds_unique {x : Rat} (hx : x ≠ 0) {b b' : UInt64} (h : Rounds x b) (h' : Rounds x b') : b = b' := by
  suffices hs : ∃ b0, ∀ b, Rounds x b → b = b0 by
    obtain ⟨b0, hs⟩ := hs
    rw [hs b h, hs b' h']
  by_cases hlim : 2 ^ 1024 - 2 ^ 970 ≤ distance 0 x
  · exact ⟨_, fun b h => h.infinite hlim⟩
  · have hlim' := not_le.mp hlim
    obtain ⟨neg, q, hq, rfl⟩ : ∃ neg q, 0 < q ∧ x = signedVal neg q := by
      rcases lt_or_gt_of_ne hx with hx | hx
      · exact ⟨true, -x, by linarith, (neg_neg x).symm⟩
      · exact ⟨false, x, hx, rfl⟩
    have hgap : distance 0 (signedVal neg q) = q := by
      rw [distance_eq, sub_zero]
      cases neg
      · exact abs_of_pos hq
      · show |(-q)| = q
        rw [abs_neg, abs_of_pos hq]
    have hql : q < pow2 1024 - pow2 970 := by rw [pow2_limit, ← hgap]; exact hlim'
    have hm := roundMag_lt hq.le hql
    obtain ⟨b0, hb0, h0⟩ := rounds_signed hq neg
    rw [roundSigned_ok hm] at hb0
    refine ⟨b0, fun b h => ?_⟩
    obtain ⟨r, hr, hnear, hsign⟩ := h.finite hlim'
    obtain ⟨r0, hr0, hnear0, hsign0⟩ := h0.finite hlim'
    have e0 : r0 = signedVal neg (roundMag q) := by
      have := doubleVal_iff.mpr ⟨neg, _, hb0, rfl⟩
      rw [hr0] at this
      exact Option.some.inj this
    subst e0
    have heq : distance (signedVal neg q) r = distance (signedVal neg q) (signedVal neg (roundMag q)) :=
      le_antisymm (hnear b0 _ hr0).1 (hnear0 b r hr).1
    by_cases hrr : r = signedVal neg (roundMag q)
    · obtain ⟨s, m, hb, hsm⟩ := doubleVal_iff.mp hr
      have hss : s = neg := by
        have a := (double_sign hb).symm.trans ((hsign hx).trans ((hsign0 hx).symm.trans (double_sign hb0)))
        cases s <;> cases neg <;> simp_all
      subst hss
      have hmm : m = roundMag q := by
        rw [hrr] at hsm
        cases s
        · exact hsm
        · exact neg_injective hsm
      rw [hmm] at hb
      exact ofBits_inj hb hb0
    · exfalso
      have heven : b.toNat % 2 = 0 := by
        rcases (hnear b0 _ hr0).2 heq with hc | hc
        · exact absurd hc hrr
        · exact hc
      have hlim2 : q < pow2 1024 := by linarith [pow2_pos 970]
      rw [distance_eq, distance_eq] at heq
      cases neg with
      | false =>
        have := tie_odd hq hlim2 hr heq.symm hrr
        omega
      | true =>
        obtain ⟨b2, hb2, hpar⟩ := double_flip hr
        have := tie_odd hq hlim2 hb2 (by
          have e1 : |r - signedVal true q| = |(-r) - q| := by
            rw [← abs_neg]; congr 1; show -(r - -q) = _; ring
          have e2 : |signedVal true (roundMag q) - signedVal true q| = |roundMag q - q| := by
            rw [← abs_neg]; congr 1; show -(-(roundMag q) - -q) = _; ring
          rw [← e1, ← e2, heq]) (fun hc => hrr (by rw [← neg_neg r, hc]; rfl))
        omega

/-- Zero is rounded to a zero. -/
theorem rounds_zero (neg : Bool) : ∃ b, F64.ofBits b = .fin neg 0 ∧ Rounds 0 b := by
  have hb : F64.ofBits (encode neg 0 0) = .fin neg 0 := by
    rw [ofBits_encode (by omega) (by omega), if_pos rfl]; simp
  refine ⟨encode neg 0 0, hb, ⟨fun _ => ⟨0, doubleVal_iff.mpr ⟨neg, 0, hb, ?_⟩, ?_, fun h => absurd rfl h⟩, fun h => ?_⟩⟩
  · cases neg <;> simp [signedVal]
  · intro b' r' _
    rw [distance_eq, distance_eq, sub_self, abs_zero, sub_zero]
    exact ⟨abs_nonneg _, fun h => .inl (abs_eq_zero.mp h.symm).symm⟩
  · rw [distance_eq, sub_self, abs_zero, ← pow2_limit] at h
    have : pow2 970 < pow2 1024 := pow2_lt_iff.mpr (by norm_num)
    linarith

/-- `roundSigned` is correct. -/
theorem rounds_roundSigned {q : Rat} (h : 0 ≤ q) (neg : Bool) :
    ∃ b, F64.ofBits b = F64.roundSigned neg q ∧ Rounds (signedVal neg q) b := by
  rcases h.eq_or_lt with rfl | h
  · rw [roundSigned_ok (by rw [roundMag_zero]; exact pow2_pos _), roundMag_zero,
      show signedVal neg 0 = 0 by cases neg <;> simp [signedVal]]
    exact rounds_zero neg
  · exact rounds_signed h neg

end TopoGeo
