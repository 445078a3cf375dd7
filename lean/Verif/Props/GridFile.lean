import Verif.Props.F64
import Verif.Props.Units
import Verif.Spec.GridFile
/-!
# C136: every map can be read
-/

namespace TopoGeo
open Spec

theorem natBits_val {n : Nat} (h : n < 2 ^ 53) : F64.ofBits (natBits n) = .fin false n := by
  unfold natBits
  by_cases h0 : n = 0
  · subst h0; rw [if_pos rfl]; decide +kernel
  · rw [if_neg h0]
    have h1 := nat_log2_le h0
    have h2 := nat_lt_log2 n
    have h3 : n.log2 < 53 := (Nat.pow_lt_pow_iff_right (by decide : 1 < 2)).mp (lt_of_le_of_lt h1 h)
    have e1 : 2 ^ n.log2 * 2 ^ (52 - n.log2) = 2 ^ 52 := by rw [← pow_add]; congr 1; omega
    have e2 : 2 ^ (n.log2 + 1) * 2 ^ (52 - n.log2) = 2 ^ 53 := by rw [← pow_add]; congr 1; omega
    have h4 : 2 ^ 52 ≤ n * 2 ^ (52 - n.log2) := by rw [← e1]; exact Nat.mul_le_mul_right _ h1
    have h5 : n * 2 ^ (52 - n.log2) < 2 ^ 53 := by rw [← e2]; exact Nat.mul_lt_mul_of_pos_right h2 (by positivity)
    have := ofBits_encode (neg := false) (e := 1023 + n.log2) (f := n * 2 ^ (52 - n.log2) - 2 ^ 52) (by omega) (by omega)
    unfold encode at this
    simp only [Bool.false_eq_true, if_false, Nat.zero_add] at this
    rw [this, if_neg (by omega), Nat.add_sub_cancel' h4]
    congr 1
    push_cast
    have e3 : ((1023 : Int) + n.log2 - 1075) = -((52 - n.log2 : Nat) : Int) := by omega
    rw [e3, show ((2 : Rat) ^ (52 - n.log2)) = pow2 ((52 - n.log2 : Nat) : Int) by rw [pow2_nat]; push_cast; rfl, mul_assoc,
      ← pow2_add, add_neg_cancel]
    show (n : Rat) * pow2 0 = n
    rw [show pow2 0 = 1 from rfl, mul_one]

theorem natBits_double {n : Nat} (h : n < 2 ^ 53) : doubleVal (natBits n) = some (n : Rat) :=
  doubleVal_iff.mpr ⟨false, n, natBits_val h, rfl⟩

theorem roundMag_nat {n : Nat} (h : n < 2 ^ 53) : roundMag n = n :=
  roundMag_dyadic ⟨n, 0, h, by norm_num, by rw [show pow2 0 = 1 from rfl, mul_one]⟩

theorem roundMag_scale_normal {q : Rat} (h : 0 < q) (k : Int) (h1 : -1022 ≤ ratLog2 q) (h2 : -1022 ≤ ratLog2 q + k) :
    roundMag (q * pow2 k) = roundMag q * pow2 k := by
  have hp : 0 < q * pow2 k := mul_pos h (pow2_pos k)
  have hu : ulpExp (q * pow2 k) = ulpExp q + k := by
    unfold ulpExp; rw [ratLog2_scale h]; omega
  rw [roundMag_pos_eq h, roundMag_pos_eq hp, hu, pow2_add, mul_div_mul_right _ _ (pow2_pos _).ne', mul_assoc]

theorem roundEven_of_near {r : Rat} {n : Int} (h : |r - n| < 1 / 2) : roundEven r = n := by
  have h1 := roundEven_err r
  rw [abs_lt] at h
  rw [abs_le] at h1
  have a : ((roundEven r : Int) : Rat) < n + 1 := by linarith
  have b : (n : Rat) < roundEven r + 1 := by linarith
  have a' : roundEven r < n + 1 := by exact_mod_cast a
  have b' : n < roundEven r + 1 := by exact_mod_cast b
  omega

theorem ratLog2_eq {q : Rat} (h : 0 < q) {e : Int} (h1 : pow2 e ≤ q) (h2 : q < pow2 (e + 1)) : ratLog2 q = e := by
  have := le_ratLog2 h h1
  have := ratLog2_lt h h2
  omega

/-- A quotient by `2 ^ 32 - 1`, multiplied again, is what it was. -/
theorem there_and_back {i : Nat} (h : i ≤ 4294967295) : roundMag (roundMag ((i : Rat) / 4294967295) * 4294967295) = i := by
  rcases Nat.eq_zero_or_pos i with rfl | hpos
  · simp [roundMag_zero]
  rcases Nat.lt_or_ge 4294967294 i with hU | hU
  · obtain rfl : i = 4294967295 := by omega
    rw [show ((4294967295 : Nat) : Rat) / 4294967295 = 1 by norm_num, roundMag_one, one_mul, roundMag_u32Max]; norm_num
  set e := i.log2 with he
  have h1 : 2 ^ e ≤ i := nat_log2_le (by omega)
  have h2 : i < 2 ^ (e + 1) := nat_lt_log2 i
  have h3 : e < 32 := (Nat.pow_lt_pow_iff_right (by decide : 1 < 2)).mp (lt_of_le_of_lt h1 (by omega))
  have hi : (0 : Rat) < i := by exact_mod_cast hpos
  by_cases hpow : i = 2 ^ e
  · have e1 : (i : Rat) = pow2 e := by rw [pow2_nat, ← hpow]
    have l1 : ratLog2 (1 / 4294967295) = -32 := by decide +kernel
    have c : roundMag (1 / 4294967295) * 4294967295 = 1 - 1 / 2 ^ 64 := by decide +kernel
    have l2 : ratLog2 (1 - 1 / 2 ^ 64) = -1 := by decide +kernel
    have c2 : roundMag (1 - 1 / 2 ^ 64) = 1 := by decide +kernel
    rw [e1, div_eq_mul_one_div, mul_comm (pow2 (e : Int)), roundMag_scale_normal (by norm_num) _ (by omega) (by omega),
      mul_assoc, mul_comm (pow2 (e : Int)), ← mul_assoc, c, roundMag_scale_normal (by norm_num) _ (by omega) (by omega), c2, one_mul]
  have h1' : 2 ^ e + 1 ≤ i := by omega
  have r1 : pow2 e + 1 ≤ (i : Rat) := by rw [pow2_nat]; exact_mod_cast h1'
  have r2 : (i : Rat) + 1 ≤ pow2 ((e + 1 : Nat) : Int) := by rw [pow2_nat]; exact_mod_cast h2
  have p1 : pow2 ((e + 1 : Nat) : Int) = 2 * pow2 e := by
    rw [pow2_nat, pow2_nat]; push_cast; ring
  have pe : 0 < pow2 (e : Int) := pow2_pos _
  have p31 : pow2 (e : Int) ≤ 2147483648 := by
    have := pow2_mono (show (e : Int) ≤ ((31 : Nat) : Int) by omega)
    rw [pow2_nat 31] at this
    norm_num at this; exact this
  have q1 : pow2 ((e : Int) - 32) = pow2 e / 4294967296 := by
    rw [sub_eq_add_neg, pow2_add, show pow2 (-32) = 1 / 4294967296 by decide +kernel]; ring
  have q2 : pow2 ((e : Int) - 32 + 1) = pow2 e / 2147483648 := by
    rw [show (e : Int) - 32 + 1 = e + -31 by ring, pow2_add, show pow2 (-31) = 1 / 2147483648 by decide +kernel]; ring
  have hq : 0 < (i : Rat) / 4294967295 := div_pos hi (by norm_num)
  have l1 : ratLog2 ((i : Rat) / 4294967295) = (e : Int) - 32 := by
    apply ratLog2_eq hq
    · rw [q1, div_le_div_iff₀ (by norm_num) (by norm_num)]; nlinarith
    · rw [q2, div_lt_div_iff₀ (by norm_num) (by norm_num)]
      have hU' : (i : Rat) ≤ 4294967294 := by exact_mod_cast hU
      nlinarith
  have u1 : ulpExp ((i : Rat) / 4294967295) = (e : Int) - 84 := by unfold ulpExp; rw [l1]; omega
  set v := roundMag ((i : Rat) / 4294967295) * 4294967295 with hv
  have w1 : pow2 ((e : Int) - 84) = pow2 ((e : Int) - 52) / 4294967296 := by
    rw [show (e : Int) - 84 = ((e : Int) - 52) + -32 by ring, pow2_add, show pow2 (-32) = 1 / 4294967296 by decide +kernel]; ring
  have w2 : pow2 ((e : Int) - 52) = pow2 e / 4503599627370496 := by
    rw [sub_eq_add_neg, pow2_add, show pow2 (-52) = 1 / 4503599627370496 by decide +kernel]; ring
  have wp := pow2_pos ((e : Int) - 52)
  have near : |v - i| < pow2 ((e : Int) - 52) / 2 := by
    have herr := roundEven_err ((i : Rat) / 4294967295 / pow2 ((e : Int) - 84))
    have hr : roundMag ((i : Rat) / 4294967295) =
        (roundEven ((i : Rat) / 4294967295 / pow2 ((e : Int) - 84)) : Rat) * pow2 ((e : Int) - 84) := by
      rw [roundMag_pos_eq hq, u1]
    have hz := pow2_pos ((e : Int) - 84)
    have e1 : v - i = ((roundEven ((i : Rat) / 4294967295 / pow2 ((e : Int) - 84)) : Rat) -
        (i : Rat) / 4294967295 / pow2 ((e : Int) - 84)) * (pow2 ((e : Int) - 84) * 4294967295) := by
      rw [hv, hr, sub_mul, ← mul_assoc, ← mul_assoc, div_mul_cancel₀ _ hz.ne', div_mul_cancel₀ _ (by norm_num)]
    rw [e1, abs_mul, abs_of_pos (mul_pos hz (by norm_num : (0 : Rat) < 4294967295))]
    calc _ ≤ 1 / 2 * (pow2 ((e : Int) - 84) * 4294967295) := mul_le_mul_of_nonneg_right herr (by positivity)
      _ < _ := by rw [w1]; linarith
  have small : pow2 ((e : Int) - 52) ≤ 1 / 2 := by rw [w2, div_le_iff₀ (by norm_num)]; linarith
  have near' := abs_lt.mp near
  have hvpos : 0 < v := by linarith
  have l2 : ratLog2 v = e := by
    apply ratLog2_eq hvpos
    · linarith
    · rw [show (e : Int) + 1 = ((e + 1 : Nat) : Int) by push_cast; rfl]; linarith
  have u2 : ulpExp v = (e : Int) - 52 := by unfold ulpExp; rw [l2]; omega
  have hint : ∃ n : Int, (i : Rat) = n * pow2 ((e : Int) - 52) := by
    refine ⟨(i * 2 ^ (52 - e) : Nat), ?_⟩
    have : ((2 ^ (52 - e) : Nat) : Rat) = pow2 ((52 - e : Nat) : Int) := (pow2_nat _).symm
    push_cast at this ⊢
    rw [this, mul_assoc, ← pow2_add, show ((52 - e : Nat) : Int) + ((e : Int) - 52) = 0 by omega, show pow2 0 = 1 from rfl, mul_one]
  obtain ⟨n, hn⟩ := hint
  rw [roundMag_pos_eq hvpos, u2]
  have : roundEven (v / pow2 ((e : Int) - 52)) = n := by
    apply roundEven_of_near
    have e1 : v / pow2 ((e : Int) - 52) - n = (v - i) / pow2 ((e : Int) - 52) := by
      rw [hn, sub_div, mul_div_cancel_right₀ _ wp.ne']
    rw [e1, abs_div, abs_of_pos wp, div_lt_iff₀ wp]
    linarith
  rw [this, ← hn]

theorem scale_back {s : Bool} {i : Nat} (h : i ≤ 4294967295) :
    ((((F64.fin s i).div (.fin s 4294967295)).mul F64.u32Max).asU32) = UInt32.ofNat i := by
  have hlim : ∀ {q : Rat}, q ≤ 4294967295 → q < pow2 1024 := fun hq => lt_of_le_of_lt hq u32Max_lt_pow2
  have hi : (i : Rat) ≤ 4294967295 := by exact_mod_cast h
  have h1 : roundMag ((i : Rat) / 4294967295) ≤ 1 := by
    rw [← roundMag_one]
    exact roundMag_mono (by positivity) (by rw [div_le_one (by norm_num)]; exact hi)
  have e1 : (F64.fin s i).div (.fin s 4294967295) = .fin false (roundMag ((i : Rat) / 4294967295)) := by
    have e : (F64.fin s i).div (.fin s 4294967295) = F64.roundSigned (s != s) ((i : Rat) / 4294967295) := by
      simp only [F64.div]
      rw [if_neg (by norm_num)]
    rw [e, roundSigned_ok (hlim (by linarith))]
    cases s <;> rfl
  have e2 : (F64.fin false (roundMag ((i : Rat) / 4294967295))).mul F64.u32Max = .fin false i := by
    show F64.roundSigned (false != false) (roundMag ((i : Rat) / 4294967295) * 4294967295) = _
    rw [roundSigned_ok (by rw [there_and_back h]; exact hlim hi), there_and_back h]; rfl
  rw [e1, e2]
  show (if false = true then (0 : UInt32) else
    if ((i : Rat)).floor ≥ 4294967295 then 4294967295 else UInt32.ofNat ((i : Rat)).floor.toNat) = _
  have hf : ((i : Rat)).floor = (i : Int) := by rw [ratFloor_eq]; exact Int.floor_natCast i
  rw [if_neg (by decide), hf]
  split
  · obtain rfl : i = 4294967295 := by omega
    rfl
  · rw [Int.toNat_natCast]

theorem natBits_sub {i j : Nat} (hi : i ≤ 4294967295) (hj : j ≤ 4294967295) (h : i ≠ j) :
    (F64.ofBits (natBits i)).sub (F64.ofBits (natBits j)) = .fin (decide (i < j)) (if i < j then j - i else i - j : Nat) := by
  have hne : (i : Rat) ≠ j := by exact_mod_cast h
  have hlt : |(i : Rat) - j| < 2 ^ 1024 - 2 ^ 970 := by
    have big : (4294967296 : Rat) < 2 ^ 1022 := by
      rw [show (4294967296 : Rat) = 2 ^ 32 by norm_num]
      exact pow_lt_pow_right₀ one_lt_two (by decide)
    have s32 : (4294967295 : Rat) < 4294967296 := by norm_num
    have hi' : (i : Rat) ≤ 4294967295 := by exact_mod_cast hi
    have hj' : (j : Rat) ≤ 4294967295 := by exact_mod_cast hj
    apply far_enough
    · rw [abs_of_nonneg (Nat.cast_nonneg i)]
      exact lt_of_le_of_lt hi' (lt_trans s32 big)
    · rw [abs_of_nonneg (Nat.cast_nonneg j)]
      exact lt_of_le_of_lt hj' (lt_trans s32 big)
  obtain ⟨h1, _, _⟩ := extent (natBits_double (by omega : i < 2 ^ 53)) (natBits_double (by omega : j < 2 ^ 53)) hne hlt
  have hd : |(i : Rat) - j| = ((if i < j then j - i else i - j : Nat) : Rat) := by
    split
    · rename_i hij
      have : (i : Rat) < j := by exact_mod_cast hij
      rw [abs_of_neg (by linarith), Nat.cast_sub hij.le]; ring
    · rename_i hij
      have : (j : Rat) ≤ i := by exact_mod_cast not_lt.mp hij
      rw [abs_of_nonneg (by linarith), Nat.cast_sub (not_lt.mp hij)]
  rw [h1, hd, roundMag_nat (by split <;> omega)]
  congr 1
  exact decide_eq_decide.mpr Nat.cast_lt

theorem natBits_self (i : Nat) (hi : i ≤ 4294967295) :
    ∃ t, (F64.ofBits (natBits i)).sub (F64.ofBits (natBits i)) = .fin t 0 :=
  (sub_bits (natBits_double (by omega)) (natBits_double (by omega))).2.2 rfl

theorem axis_up {i : Nat} (hi : i ≤ 4294967295) : axis (natBits i) (natBits 0) (natBits 4294967295) = UInt32.ofNat i := by
  unfold axis quantizeCoord
  rw [natBits_sub (i := 4294967295) (j := 0) (by decide) (by decide) (by decide)]
  rcases Nat.eq_zero_or_pos i with rfl | h
  · obtain ⟨t, ht⟩ := natBits_self 0 (by decide)
    rw [ht]
    exact scale_zero (by norm_num)
  · rw [natBits_sub hi (by decide) (by omega), if_neg (by omega), if_neg (by omega), decide_eq_false (by omega),
      decide_eq_false (by omega), Nat.sub_zero]
    exact scale_back hi

theorem axis_down {i : Nat} (hi : i ≤ 4294967295) :
    axis (natBits i) (natBits 4294967295) (natBits 0) = UInt32.ofNat (4294967295 - i) := by
  unfold axis quantizeCoord
  rw [natBits_sub (i := 0) (j := 4294967295) (by decide) (by decide) (by decide)]
  by_cases h : i = 4294967295
  · subst h
    obtain ⟨t, ht⟩ := natBits_self 4294967295 (by decide)
    rw [ht]
    exact scale_zero (by norm_num)
  · rw [natBits_sub hi (by decide) h, if_pos (by omega), if_pos (by omega), decide_eq_true (by omega), decide_eq_true (by omega)]
    exact scale_back (s := true) (i := 4294967295 - i) (by omega)

/-- C136: a point of the grid is read as it was written. -/
theorem C136_point (p : Point) : (ShapefileQuantizer.new gridBox).quantize (gridPoint p) = p := by
  have hx := axis_up (i := p.x.toNat) (by have := p.x.toNat_lt; omega)
  have hy := axis_down (i := 2 ^ 32 - 1 - p.y.toNat) (by omega)
  unfold axis at hx hy
  show Point.mk _ _ = p
  cases p with
  | mk x y =>
    rw [Point.mk.injEq]
    refine ⟨hx.trans (by simp), hy.trans ?_⟩
    have := y.toNat_lt
    rw [show 4294967295 - (2 ^ 32 - 1 - y.toNat) = y.toNat by omega]
    simp

/-- C136: and so it is in any units, from any place. -/
theorem C136_units (t : Change) (b : ShpBoundingBox) (hb : t.Box gridBox b) (p : Point) (p' : ShpPoint)
    (hp : t.point (gridPoint p) p') : (ShapefileQuantizer.new b).quantize p' = p := by
  rw [← C135_point t gridBox b hb _ _ hp, C136_point]

theorem ring_back (r : List Point) : shpPolygonRingToRing (ShapefileQuantizer.new gridBox) (r.map gridPoint) = .points r := by
  unfold shpPolygonRingToRing
  rw [List.map_map]
  congr 1
  conv_rhs => rw [← List.map_id r]
  exact List.map_congr_left fun p _ => C136_point p

theorem partition_inner (m : Build) (rs : List (List Point)) (h : ∀ r ∈ rs, (Ring.points r).windingOrder m = .ok .counterClockwise)
    (outer inner : List Ring) :
    partitionRings m (ShapefileQuantizer.new gridBox) outer inner (rs.map (·.map gridPoint)) = .ok (outer, inner ++ rs.map .points) := by
  induction rs generalizing inner with
  | nil => rw [List.map_nil, List.map_nil, List.append_nil]; rfl
  | cons r rs ih =>
    rw [List.map_cons, partitionRings, ring_back]
    rw [h r (by simp), ok_bind, if_neg (by decide), ih (fun r' h' => h r' (by simp [h']))]
    simp

/-- C136: the rings of a region are read as they were written. -/
theorem C136_rings (m : Build) (s : Shape) (h : s.Wound m) :
    partitionRings m (ShapefileQuantizer.new gridBox) [] [] s.written = .ok (s.outer.map .points, s.inner.map .points) := by
  have key : ∀ (outer : List (List Point)), (∀ r ∈ outer, (Ring.points r).windingOrder m = .ok .clockwise) → ∀ acc : List Ring,
      partitionRings m (ShapefileQuantizer.new gridBox) acc [] ((outer ++ s.inner).map (·.map gridPoint)) =
        .ok (acc ++ outer.map .points, s.inner.map .points) := by
    intro outer
    induction outer with
    | nil =>
      intro _ acc
      rw [List.nil_append, partition_inner m s.inner h.2, List.map_nil, List.append_nil, List.nil_append]
    | cons r rs ih =>
      intro h' acc
      rw [List.cons_append, List.map_cons, partitionRings, ring_back]
      rw [h' r (by simp), ok_bind, if_pos rfl, ih (fun x hx => h' x (by simp [hx]))]
      simp
  exact key s.outer h.1 []

theorem shapes_back {σ τ : Type} [Source σ] [Source τ] (m : Build) (shapes : List Shape) (h : ∀ s ∈ shapes, s.Wound m)
    (records : List ShapefileRecord) (hr : List.Forall₂ (fun (s : Shape) (r : ShapefileRecord) => r.rings = s.written) shapes records)
    (r r' : ShapefileReader σ τ)
    (hc : callsR ShapefileReader.next (records.length + 1) r = .ok (records.map (fun x => some (.ok x)) ++ [none], r')) :
    ∃ regions it', callsR (ShapefileGeoIterator.next m) (records.length + 1)
        (⟨r, ShapefileQuantizer.new gridBox⟩ : ShapefileGeoIterator σ τ) = .ok (regions.map (fun g => some (.ok g)) ++ [none], it') ∧
      List.Forall₂ (fun (s : Shape) (g : Region DbfRecord) => s.Is g) shapes regions ∧
      regions.map (·.data) = records.map (·.data) := by
  induction hr generalizing r with
  | nil =>
    obtain ⟨r1, h1, _⟩ := callsR_uncons hc
    refine ⟨[], ⟨r1, ShapefileQuantizer.new gridBox⟩, ?_, .nil, rfl⟩
    have hn := (C59_passes m (⟨r, ShapefileQuantizer.new gridBox⟩ : ShapefileGeoIterator σ τ)).1 r1 h1
    show callsR _ (0 + 1) _ = _
    rw [callsR, hn, ok_bind]
    rfl
  | @cons s record shapes records hs _ ih =>
    obtain ⟨r1, h1, h2⟩ := callsR_uncons hc
    obtain ⟨regions, it', k1, k2, k3⟩ := ih (fun x hx => h x (by simp [hx])) r1 h2
    refine ⟨⟨record.data, s.outer.map .points, s.inner.map .points⟩ :: regions, it', ?_, .cons ⟨rfl, rfl⟩ k2, ?_⟩
    · have hn : (⟨r, ShapefileQuantizer.new gridBox⟩ : ShapefileGeoIterator σ τ).next m =
          .ok (some (.ok ⟨record.data, s.outer.map .points, s.inner.map .points⟩), ⟨r1, ShapefileQuantizer.new gridBox⟩) := by
        unfold ShapefileGeoIterator.next
        dsimp only
        rw [h1, ok_bind]
        dsimp only
        rw [hs, C136_rings m s (h s (by simp)), ok_bind]
      rw [List.length_cons, callsR, hn, ok_bind]
      dsimp only
      rw [k1, ok_bind]
      rfl
    · rw [List.map_cons, List.map_cons, k3]

/-- C136: whatever map of the grid is written, it is read as it was: the regions with their rings, in
order, and the rows of the table. -/
theorem C136_files (m : Build) (fs : FileSystem MemFile) (path : Path) (enc : Encoding) (shapes : List Shape)
    (h : ∀ s ∈ shapes, s.Wound m) (records : List OutRecord)
    (hr : List.Forall₂ (fun (s : Shape) (r : OutRecord) => r.rings = s.written) shapes records)
    (hg : ∀ r ∈ records, r.Good) (hs : fileLength records < 2 ^ 32) (table : Table) (ht : Fits enc table)
    (hn : table.records.length = records.length) (tail tail' : Bytes)
    (h1 : fs path = .ok ⟨writeShp gridBox records ++ tail⟩)
    (h2 : fs (setExtension path "dbf".toList) = .ok ⟨writeDbf table ++ tail'⟩) :
    ∃ r regions it', shapefileOpen m fs path enc = .ok (.ok r) ∧
      callsR (ShapefileGeoIterator.next m) (shapes.length + 1) (ShapefileGeoIterator.new r) =
        .ok (regions.map (fun g => some (.ok g)) ++ [none], it') ∧
      List.Forall₂ (fun (s : Shape) (g : Region DbfRecord) => s.Is g) shapes regions ∧
      regions.map (·.data.bytes) = table.records := by
  obtain ⟨r, r', recs, hopen, a2, hlen, hrecs', b1⟩ := open_written m fs path enc gridBox records hg hs table ht hn tail tail' h1 h2
  have hl := hr.length_eq
  have hsr : List.Forall₂ (fun (s : Shape) (r : ShapefileRecord) => r.rings = s.written) shapes recs := by
    refine List.forall₂_iff_get.mpr ⟨by omega, fun i i1 i2 => ?_⟩
    have e1 := (List.forall₂_iff_get.mp hr).2 i i1 (by omega)
    have e2 := (hrecs' i (by omega) (by omega) i2).1
    simp only [List.get_eq_getElem] at e1 ⊢
    rw [e2, e1]
  obtain ⟨regions, it', k1, k2, k3⟩ := shapes_back m shapes h recs hsr r r' b1
  refine ⟨r, regions, it', hopen, ?_, k2, ?_⟩
  · rw [hl, ← hlen]
    unfold ShapefileGeoIterator.new
    rw [a2]
    exact k1
  · have : regions.map (·.data.bytes) = recs.map (·.data.bytes) := by
      have := congrArg (List.map DbfRecord.bytes) k3
      simpa [List.map_map, Function.comp_def] using this
    rw [this]
    apply List.ext_getElem
    · rw [List.length_map]; omega
    · intro i i1 i2
      rw [List.length_map] at i1
      rw [List.getElem_map]
      exact (hrecs' i (by omega) i2 i1).2

/-- C136 is about the box of the grid: in a box of 360 by 360, the double that is nearest to the place
of a column of the grid can be read as the column before. -/
theorem C136_degrees_refuted :
    ¬ ∀ (i : UInt32) (x : UInt64), Rounds (i.toNat * 360 / (2 ^ 32 - 1)) x →
      ((ShapefileQuantizer.new ⟨0, 0, 0x4076800000000000, 0x4076800000000000⟩).quantize ⟨x, 0⟩).x = i := by
  intro h
  obtain ⟨b, h1, h2⟩ := rounds_signed (q := 3373010370 * 360 / (2 ^ 32 - 1)) (by norm_num) false
  have := h 3373010370 b h2
  have e : ((ShapefileQuantizer.new ⟨0, 0, 0x4076800000000000, 0x4076800000000000⟩).quantize ⟨b, 0⟩).x =
      quantizeCoord (F64.ofBits b) (F64.ofBits 0) ((F64.ofBits 0x4076800000000000).sub (F64.ofBits 0)) := rfl
  rw [e, h1] at this
  revert this
  decide +kernel

/-! ## Examples -/

/-- A square with a hole, and a triangle far off. -/
def exShapes : List Shape :=
  [⟨[[⟨10, 10⟩, ⟨50, 10⟩, ⟨50, 50⟩, ⟨10, 50⟩, ⟨10, 10⟩]], [[⟨20, 20⟩, ⟨20, 30⟩, ⟨30, 30⟩, ⟨30, 20⟩, ⟨20, 20⟩]]⟩,
   ⟨[[⟨1000000000, 1500000000⟩, ⟨1500000001, 1000000003⟩, ⟨1500000000, 1500000002⟩, ⟨1000000000, 1500000000⟩]], []⟩]

/-- As they are written. -/
def exGridRecords : List OutRecord := exShapes.map fun s => ⟨1, gridBox, s.written⟩

/-- Their files. -/
def exGridFiles : FileSystem MemFile := fun p =>
  if p = ["a.shp".toList] then .ok ⟨writeShp gridBox exGridRecords⟩
  else if p = ["a.dbf".toList] then .ok ⟨writeDbf dbfTable⟩ else .error (.other 2)

theorem exShapes_wound (m : Build) : ∀ s ∈ exShapes, s.Wound m := by
  intro s hs
  simp only [exShapes, List.mem_cons, List.not_mem_nil, or_false] at hs
  rcases hs with rfl | rfl <;> unfold Shape.Wound <;> cases m <;> decide +kernel

theorem exGridRecords_good : ∀ r ∈ exGridRecords, r.Good := by
  intro r hr
  simp only [exGridRecords, exShapes, List.map_cons, List.map_nil, List.mem_cons, List.not_mem_nil, or_false] at hr
  rcases hr with rfl | rfl
  · exact ⟨by decide, by decide +kernel, _, rfl, by decide +kernel⟩
  · exact ⟨by decide, by decide +kernel, _, rfl, by decide +kernel⟩

/-- The hypotheses can be met. -/
example (m : Build) : ∃ r regions it', shapefileOpen m exGridFiles ["a.shp".toList] Encoding.ascii = .ok (.ok r) ∧
      callsR (ShapefileGeoIterator.next m) 3 (ShapefileGeoIterator.new r) =
        .ok (regions.map (fun g => some (.ok g)) ++ [none], it') ∧
      List.Forall₂ (fun (s : Shape) (g : Region DbfRecord) => s.Is g) exShapes regions ∧
      regions.map (·.data.bytes) = dbfTable.records :=
  C136_files m exGridFiles ["a.shp".toList] Encoding.ascii exShapes (exShapes_wound m) exGridRecords
    (.cons rfl (.cons rfl .nil)) exGridRecords_good (by decide +kernel) dbfTable dbfTable_fits rfl [] []
    (by simp [exGridFiles])
    (by
      rw [show setExtension ["a.shp".toList] "dbf".toList = ["a.dbf".toList] by decide +kernel, List.append_nil]; rfl)

/-- One of the points that are written. -/
example : gridPoint ⟨10, 4294967285⟩ = ⟨0x4024000000000000, 0x4024000000000000⟩ := by decide +kernel

/-- In units of an eighth, from 100 on. -/
def exEighths : Change := ⟨-3, -3, 100, 100⟩

theorem rescaled_to {k : Int} {c : Rat} {u v : UInt64} (x y : Rat) (h1 : doubleVal u = some x) (h2 : doubleVal v = some y)
    (hy : y = x * 2 ^ k + c) (hx : 0 ≤ x ∧ x ≤ 4294967296) (hy' : 0 ≤ y ∧ y ≤ 4294967296) : Rescaled k c u v := by
  have : (4294967296 : Rat) < 2 ^ 1022 := by
    rw [show (4294967296 : Rat) = 2 ^ 32 by norm_num]
    exact pow_lt_pow_right₀ one_lt_two (by decide)
  refine ⟨x, h1, by rw [← hy]; exact h2, ?_, ?_⟩
  · rw [abs_of_nonneg hx.1]; exact lt_of_le_of_lt hx.2 this
  · rw [← hy, abs_of_nonneg hy'.1]; exact lt_of_le_of_lt hy'.2 this

/-- The double 101 is read as 8 there. -/
example : (ShapefileQuantizer.new ⟨0x4059000000000000, 0x4059000000000000, 0x41c0000031f00000, 0x41c0000031f00000⟩).quantize
    ⟨0x4059400000000000, 0x4059000000000000⟩ = ⟨8, 4294967295⟩ := by
  have side0 : Rescaled (-3) 100 (natBits 0) 0x4059000000000000 :=
    rescaled_to 0 100 (by decide +kernel) (by decide +kernel) (by norm_num) (by norm_num) (by norm_num)
  have side1 : Rescaled (-3) 100 (natBits (2 ^ 32 - 1)) 0x41c0000031f00000 :=
    rescaled_to 4294967295 (4294967295 / 8 + 100) (by decide +kernel) (by decide +kernel) (by norm_num) (by norm_num) (by norm_num)
  have at8 : Rescaled (-3) 100 (natBits 8) 0x4059400000000000 :=
    rescaled_to 8 101 (by decide +kernel) (by decide +kernel) (by norm_num) (by norm_num) (by norm_num)
  exact C136_units exEighths ⟨0x4059000000000000, 0x4059000000000000, 0x41c0000031f00000, 0x41c0000031f00000⟩ ⟨side0, side0, side1, side1, by unfold NoSignedZero; decide +kernel,
    by unfold NoSignedZero; decide +kernel⟩ ⟨8, 4294967295⟩ ⟨0x4059400000000000, 0x4059000000000000⟩ ⟨at8, side0⟩

end TopoGeo
