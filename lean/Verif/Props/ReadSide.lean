import Verif.Spec.ReadSide
import Verif.Props.QuantizedArea
/-!
# Which rings of a shapefile are read as holes

C133: reading changes the signed area of a ring by at most a strip along it. So a ring
whose share of the box is not too close to 0, 1/4 or 1/2 is on the side that its share
tells, and that is the right one up to 1/4 only.
-/

namespace TopoGeo

open Spec

/-- The signed area of a path of the real plane, doubled. -/
noncomputable def shoelaceR (l : List (ℝ × ℝ)) : ℝ := ((segsR l).map fun s => crossR s.1 s.2).sum

theorem shoelaceR_cons (p q : ℝ × ℝ) (l : List (ℝ × ℝ)) : shoelaceR (p :: q :: l) = crossR p q + shoelaceR (q :: l) := by
  simp [shoelaceR, segsR]

theorem shoelaceR_single (p : ℝ × ℝ) : shoelaceR [p] = 0 := by simp [shoelaceR, segsR]

theorem shoelace_onPlane (ps : List Point) : (shoelace ps : ℝ) = shoelaceR (ps.map onPlane) := by
  induction ps with
  | nil => simp [shoelace, shoelaceR, segsR]
  | cons p l ih =>
    cases l with
    | nil => rw [List.map_cons, List.map_nil, shoelaceR_single]; simp [shoelace]
    | cons q l =>
      rw [List.map_cons, List.map_cons, shoelaceR_cons, ← List.map_cons, ← ih]
      simp only [shoelace, cross, crossR, onPlane, Point.xi, Point.yi]
      push_cast
      ring

/-- What moving the points of a path by at most `e` along each axis does to the area, up to
terms that cancel in a ring. -/
theorem moved_path {α : Type} (f g : α → ℝ × ℝ) (e : ℝ) (l : List α) (p : α)
    (h : ∀ a ∈ p :: l, |(g a).1 - (f a).1| ≤ e ∧ |(g a).2 - (f a).2| ≤ e) :
    let k := fun a => crossR (g a - f a) (((f a).1 + (g a).1) / 2, ((f a).2 + (g a).2) / 2)
    |shoelaceR ((p :: l).map g) - shoelaceR ((p :: l).map f) + (k ((p :: l).getLast (by simp)) - k p)| ≤
      e * (lengthR ((p :: l).map f) + lengthR ((p :: l).map g)) := by
  intro k
  induction l generalizing p with
  | nil => simp [shoelaceR_single, lengthR, segsR]
  | cons q l ih =>
    have i1 := ih q fun a ha => h a (by simp [List.mem_cons.mp ha])
    obtain ⟨p1, p2⟩ := h p (by simp)
    obtain ⟨q1, q2⟩ := h q (by simp)
    have he : 0 ≤ e := (abs_nonneg _).trans p1
    simp only [List.map_cons, shoelaceR_cons, lengthR_cons] at i1 ⊢
    rw [List.getLast_cons (by simp)]
    set L := k ((q :: l).getLast (by simp))
    have hid : crossR (g p) (g q) - crossR (f p) (f q) + (k q - k p) =
        (((g p).1 - (f p).1) + ((g q).1 - (f q).1)) * ((((f q).2 - (f p).2) + ((g q).2 - (g p).2)) / 2) -
        (((g p).2 - (f p).2) + ((g q).2 - (f q).2)) * ((((f q).1 - (f p).1) + ((g q).1 - (g p).1)) / 2) := by
      simp only [k, crossR, Prod.fst_sub, Prod.snd_sub]
      ring
    have hx : |((g p).1 - (f p).1) + ((g q).1 - (f q).1)| ≤ 2 * e := (abs_add_le _ _).trans (by linarith)
    have hy : |((g p).2 - (f p).2) + ((g q).2 - (f q).2)| ≤ 2 * e := (abs_add_le _ _).trans (by linarith)
    have hm : ∀ u v : ℝ, |(u + v) / 2| ≤ (|u| + |v|) / 2 := by
      intro u v
      rw [abs_div, abs_of_pos (by norm_num : (0 : ℝ) < 2)]
      linarith [abs_add_le u v]
    have hstep : |crossR (g p) (g q) - crossR (f p) (f q) + (k q - k p)| ≤
        e * ((|(f q).1 - (f p).1| + |(f q).2 - (f p).2|) + (|(g q).1 - (g p).1| + |(g q).2 - (g p).2|)) := by
      rw [hid]
      refine (abs_sub _ _).trans ?_
      rw [abs_mul, abs_mul]
      have m1 := mul_le_mul hx (hm ((f q).2 - (f p).2) ((g q).2 - (g p).2)) (abs_nonneg _) (by linarith)
      have m2 := mul_le_mul hy (hm ((f q).1 - (f p).1) ((g q).1 - (g p).1)) (abs_nonneg _) (by linarith)
      linarith
    have hsum := abs_add_le (crossR (g p) (g q) - crossR (f p) (f q) + (k q - k p))
      (shoelaceR (g q :: l.map g) - shoelaceR (f q :: l.map f) + (L - k q))
    have e1 : crossR (g p) (g q) + shoelaceR (g q :: l.map g) - (crossR (f p) (f q) + shoelaceR (f q :: l.map f)) + (L - k p) =
        (crossR (g p) (g q) - crossR (f p) (f q) + (k q - k p)) +
        (shoelaceR (g q :: l.map g) - shoelaceR (f q :: l.map f) + (L - k q)) := by ring
    rw [e1]
    linarith

theorem getLast_closed {α : Type} {p : α} {l : List α} (h : (p :: l).head? = (p :: l).getLast?) :
    (p :: l).getLast (by simp) = p := by
  rw [List.head?_cons, List.getLast?_eq_some_getLast (by simp)] at h
  exact (Option.some.inj h).symm

/-- The exact place of a ring has the share of the square that the ring has of its box. -/
theorem shoelaceR_exact {west south east north : Rat} (hx : west < east) (hy : south < north) (ring : ShpPolygonRing)
    (hc : ring.head? = ring.getLast?) :
    shoelaceR (ring.map (exactPlace west south east north)) = 2 * ((boxShare west south east north ring : ℚ) : ℝ) * (2 ^ 32 - 1) ^ 2 := by
  have hx' : (east - west : Rat) ≠ 0 := by linarith [hx]
  have hy' : (north - south : Rat) ≠ 0 := by linarith [hy]
  have hxr : ((east : ℝ) - west) ≠ 0 := by exact_mod_cast hx'
  have hyr : ((north : ℝ) - south) ≠ 0 := by exact_mod_cast hy'
  let k : ShpPoint → ℝ := fun p => north * ((doubleVal p.x).getD 0 : Rat) - west * ((doubleVal p.y).getD 0 : Rat)
  have main : ∀ (l : List ShpPoint) (p : ShpPoint), shoelaceR ((p :: l).map (exactPlace west south east north)) =
      (2 ^ 32 - 1) ^ 2 / ((east - west) * (north - south)) *
        ((((((p :: l).zip (p :: l).tail).map fun s => fileCross s.1 s.2).sum : Rat) : ℝ) + (k p - k ((p :: l).getLast (by simp)))) := by
    intro l
    induction l with
    | nil => intro p; simp [shoelaceR_single]
    | cons q l ih =>
      intro p
      have i1 := ih q
      simp only [List.map_cons, shoelaceR_cons, List.tail_cons, List.zip_cons_cons, List.sum_cons] at i1 ⊢
      rw [List.getLast_cons (by simp), i1]
      push_cast
      simp only [crossR, exactPlace, fileCross, k]
      push_cast
      field_simp
      ring
  cases ring with
  | nil => simp [shoelaceR, segsR, boxShare, fileArea]
  | cons p l =>
    rw [main l p, getLast_closed hc, sub_self, add_zero]
    unfold boxShare fileArea
    push_cast
    field_simp

/-- C133: reading changes the signed area of a closed ring by at most what `areaDoubt` says. -/
theorem C133_signed {b : ShpBoundingBox} {west south east north : Rat} (hb : IsBox b west south east north)
    (ring : ShpPolygonRing) (hc : ring.head? = ring.getLast?) (hi : ∀ p ∈ ring, InsideBox west south east north p) :
    |(ringShoelace (.points (ring.map (ShapefileQuantizer.new b).quantize)) : ℝ) / 2 -
      (boxShare west south east north ring : ℚ) * (2 ^ 32 - 1) ^ 2| ≤ areaDoubt west south east north ring := by
  have hlen := C102_length hb ring hi
  have hs := shoelaceR_exact hb.wide hb.high ring hc
  show |(shoelace _ : ℝ) / 2 - _| ≤ _
  rw [shoelace_onPlane, List.map_map] at *
  cases ring with
  | nil => simp [shoelaceR, segsR, boxShare, fileArea, areaDoubt, lengthR]
  | cons p l =>
    have h1 := moved_path (exactPlace west south east north) (onPlane ∘ (ShapefileQuantizer.new b).quantize) (1 + 1 / 2 ^ 18) l p
      (fun a ha => ⟨(C102_point hb a (hi a ha)).2.1.le, (C102_point hb a (hi a ha)).2.2.le⟩)
    dsimp only at h1
    rw [getLast_closed hc, sub_self, add_zero, hs] at h1
    unfold areaDoubt
    rw [abs_le] at h1 ⊢
    constructor <;> nlinarith [h1.1, h1.2]

/-- A checked build has no winding order for a ring whose doubled area does not fit. -/
theorem windingOrder_debug_overflow {ps : List Point} (h : ¬ InI64 (shoelace ps)) :
    (Ring.points ps).windingOrder .debug = .error .overflow := by
  have e : (Ring.points ps).windingOrder .debug = (do let x ← area2AndWindingOrder .debug ps; .ok x.2) := rfl
  rw [e, area2AndWindingOrder]
  cases hs : signedArea2 .debug ps with
  | error e => rw [(signedArea2_error hs).2]; rfl
  | ok v =>
    have h1 := signedArea2_debug hs
    subst h1
    exact absurd (signedArea2Loop_inI64 (by unfold InI64; omega) hs) h

/-- What is read as an outer ring and what as an inner ring, from the exact area `a` and the
doubt `d` about it. -/
theorem sides_of {ps : List Point} {a d : ℝ} (h : |(ringShoelace (.points ps) : ℝ) / 2 - a| ≤ d) :
    (d < a → a + d < 2 ^ 62 → ∀ m, CountsAsOuter m (.points ps)) ∧
    (a < -d → -2 ^ 62 ≤ a - d → ∀ m, ¬ CountsAsOuter m (.points ps)) ∧
    (2 ^ 62 ≤ a - d → a + d < 2 ^ 63 → ¬ CountsAsOuter .release (.points ps) ∧
      (Ring.points ps).windingOrder .debug = .error .overflow) ∧
    (a + d < -2 ^ 62 → -2 ^ 63 ≤ a - d → CountsAsOuter .release (.points ps) ∧
      (Ring.points ps).windingOrder .debug = .error .overflow) := by
  obtain ⟨h1, h2⟩ := abs_le.mp h
  have hz : ringShoelace (.points ps) = shoelace ps := rfl
  have lo : ∀ k : ℤ, (k : ℝ) < 2 * (a - d) → k < ringShoelace (.points ps) := by
    intro k hk
    have : (k : ℝ) < ringShoelace (.points ps) := by linarith
    exact_mod_cast this
  have lo' : ∀ k : ℤ, (k : ℝ) ≤ 2 * (a - d) → k ≤ ringShoelace (.points ps) := by
    intro k hk
    have : (k : ℝ) ≤ ringShoelace (.points ps) := by linarith
    exact_mod_cast this
  have hi : ∀ k : ℤ, 2 * (a + d) < (k : ℝ) → ringShoelace (.points ps) < k := by
    intro k hk
    have : (ringShoelace (.points ps) : ℝ) < k := by linarith
    exact_mod_cast this
  refine ⟨fun p q m => ?_, fun p q m => ?_, fun p q => ?_, fun p q => ?_⟩
  · have l1 := lo 0 (by push_cast; linarith)
    have u1 := hi (2 ^ 63) (by push_cast; linarith)
    have hin : InI64 (ringShoelace (.points ps)) := by unfold InI64; omega
    cases m with
    | debug => exact (C59_true_winding _).1.mpr l1.le
    | release => exact ((C59_true_winding _).2 hin).mpr l1.le
  · have l1 := lo' (-2 ^ 63) (by push_cast; linarith)
    have u1 := hi 0 (by push_cast; linarith)
    have hin : InI64 (ringShoelace (.points ps)) := by unfold InI64; omega
    cases m with
    | debug => exact fun hc => absurd ((C59_true_winding _).1.mp hc) (by omega)
    | release => exact fun hc => absurd (((C59_true_winding _).2 hin).mp hc) (by omega)
  · have l1 := lo' (2 ^ 63) (by push_cast; linarith)
    have u1 := hi (2 ^ 64) (by push_cast; linarith)
    refine ⟨?_, windingOrder_debug_overflow (by rw [← hz]; unfold InI64; omega)⟩
    show ¬ 0 ≤ wrap64 _
    unfold wrap64
    omega
  · have l1 := lo' (-2 ^ 64) (by push_cast; linarith)
    have u1 := hi (-2 ^ 63) (by push_cast; linarith)
    refine ⟨?_, windingOrder_debug_overflow (by rw [← hz]; unfold InI64; omega)⟩
    show 0 ≤ wrap64 _
    unfold wrap64
    omega

/-- C133: on which side a ring of the file ends up, from its exact area in units of the grid.
A clockwise ring is an outer one below 2^62, a quarter of the grid, and an inner one from
there to half of it; the other way around for counter-clockwise ones. -/
theorem C133_sides {b : ShpBoundingBox} {west south east north : Rat} (hb : IsBox b west south east north)
    (ring : ShpPolygonRing) (hc : ring.head? = ring.getLast?) (hi : ∀ p ∈ ring, InsideBox west south east north p) :
    let a : ℝ := (boxShare west south east north ring : ℚ) * (2 ^ 32 - 1) ^ 2
    let d := areaDoubt west south east north ring
    let read := Ring.points (ring.map (ShapefileQuantizer.new b).quantize)
    (d < a → a + d < 2 ^ 62 → ∀ m, CountsAsOuter m read) ∧
    (a < -d → -2 ^ 62 ≤ a - d → ∀ m, ¬ CountsAsOuter m read) ∧
    (2 ^ 62 ≤ a - d → a + d < 2 ^ 63 → ¬ CountsAsOuter .release read ∧ read.windingOrder .debug = .error .overflow) ∧
    (a + d < -2 ^ 62 → -2 ^ 63 ≤ a - d → CountsAsOuter .release read ∧ read.windingOrder .debug = .error .overflow) :=
  sides_of (C133_signed hb ring hc hi)

theorem exactPlace_square {west south east north : Rat} (hx : west < east) (hy : south < north) {p : ShpPoint}
    (hp : InsideBox west south east north p) :
    (0 ≤ (exactPlace west south east north p).1 ∧ (exactPlace west south east north p).1 ≤ 2 ^ 32 - 1) ∧
    (0 ≤ (exactPlace west south east north p).2 ∧ (exactPlace west south east north p).2 ≤ 2 ^ 32 - 1) := by
  obtain ⟨x, y, hat, ⟨x1, x2⟩, y1, y2⟩ := hp
  have key : ∀ u v : Rat, 0 ≤ u → u ≤ v → 0 < v → (0 : ℝ) ≤ ((u / v * (2 ^ 32 - 1) : Rat) : ℝ) ∧
      ((u / v * (2 ^ 32 - 1) : Rat) : ℝ) ≤ 2 ^ 32 - 1 := by
    intro u v h0 h1 h2
    have hq : u / v ≤ 1 := (div_le_one h2).mpr h1
    have hq0 : 0 ≤ u / v := div_nonneg h0 h2.le
    have k1 : (0 : Rat) ≤ u / v * (2 ^ 32 - 1) := mul_nonneg hq0 (by norm_num)
    have k2 : u / v * (2 ^ 32 - 1) ≤ (2 ^ 32 - 1 : Rat) := by nlinarith
    refine ⟨by exact_mod_cast k1, ?_⟩
    have := (Rat.cast_le (K := ℝ)).mpr k2
    push_cast at this ⊢
    exact this
  unfold exactPlace
  rw [hat.x, hat.y]
  exact ⟨key _ _ (by simpa using x1) (by simpa using x2) (by linarith), key _ _ (by simpa using y2) (by simp only [Option.getD_some]; linarith) (by linarith)⟩

/-- The doubt is at most a little more than 2^33 for each segment. -/
theorem areaDoubt_le {west south east north : Rat} (hx : west < east) (hy : south < north) (ring : ShpPolygonRing)
    (hi : ∀ p ∈ ring, InsideBox west south east north p) :
    areaDoubt west south east north ring ≤ (ring.length - 1 : Nat) * (2 ^ 33 + 2 ^ 16) := by
  have hlen : lengthR (ring.map (exactPlace west south east north)) ≤ (ring.length - 1 : Nat) * (2 * (2 ^ 32 - 1)) := by
    induction ring with
    | nil => simp [lengthR, segsR]
    | cons p ring ih =>
      cases ring with
      | nil => simp [lengthR, segsR]
      | cons q ring =>
        have i1 := ih fun r hr => hi r (by simp [hr])
        obtain ⟨⟨p1, p2⟩, p3, p4⟩ := exactPlace_square hx hy (hi p (by simp))
        obtain ⟨⟨q1, q2⟩, q3, q4⟩ := exactPlace_square hx hy (hi q (by simp))
        simp only [List.map_cons, lengthR_cons, List.length_cons, Nat.add_sub_cancel, Nat.cast_add, Nat.cast_one] at i1 ⊢
        have k1 : |(exactPlace west south east north q).1 - (exactPlace west south east north p).1| ≤ 2 ^ 32 - 1 := by
          rw [abs_le]; constructor <;> linarith
        have k2 : |(exactPlace west south east north q).2 - (exactPlace west south east north p).2| ≤ 2 ^ 32 - 1 := by
          rw [abs_le]; constructor <;> linarith
        linarith
  unfold areaDoubt
  have hn : (0 : ℝ) ≤ ((ring.length - 1 : Nat) : ℝ) := Nat.cast_nonneg _
  nlinarith

/-- C133: the same in terms of the share of the box. A ring of `n` segments is on the right side
if it covers between `n / 2^30` and `1/4 - n / 2^30` of the box, and if it covers between
`1/4 + n / 2^30` and `1/2 - n / 2^30`, a checked build panics and a release build puts it on the wrong side. -/
theorem C133_shares {b : ShpBoundingBox} {west south east north : Rat} (hb : IsBox b west south east north)
    (ring : ShpPolygonRing) (hc : ring.head? = ring.getLast?) (hi : ∀ p ∈ ring, InsideBox west south east north p)
    (n : Nat) (hn : ring.length = n + 1) (h0 : n ≠ 0) :
    let share := boxShare west south east north ring
    let read := Ring.points (ring.map (ShapefileQuantizer.new b).quantize)
    (n / 2 ^ 30 ≤ share → share ≤ 1 / 4 - n / 2 ^ 30 → ∀ m, CountsAsOuter m read) ∧
    (n / 2 ^ 30 ≤ -share → -share ≤ 1 / 4 - n / 2 ^ 30 → ∀ m, ¬ CountsAsOuter m read) ∧
    (1 / 4 + n / 2 ^ 30 ≤ share → share ≤ 1 / 2 - n / 2 ^ 30 →
      ¬ CountsAsOuter .release read ∧ read.windingOrder .debug = .error .overflow) ∧
    (1 / 4 + n / 2 ^ 30 ≤ -share → -share ≤ 1 / 2 - n / 2 ^ 30 →
      CountsAsOuter .release read ∧ read.windingOrder .debug = .error .overflow) := by
  intro share read
  have hd := areaDoubt_le hb.wide hb.high ring hi
  rw [hn, Nat.add_sub_cancel] at hd
  have h1 : (1 : ℝ) ≤ n := by exact_mod_cast Nat.one_le_iff_ne_zero.mpr h0
  obtain ⟨s1, s2, s3, s4⟩ := C133_sides hb ring hc hi
  have cast : ∀ u v : Rat, u ≤ v → (u : ℝ) ≤ (v : ℝ) := fun u v h => by exact_mod_cast h
  set d := areaDoubt west south east north ring
  refine ⟨fun p q m => ?_, fun p q m => ?_, fun p q => ?_, fun p q => ?_⟩ <;>
  · have p' := cast _ _ p
    have q' := cast _ _ q
    push_cast at p' q'
    first
    | exact s1 (by nlinarith) (by nlinarith) m
    | exact s2 (by nlinarith) (by nlinarith) m
    | exact s3 (by nlinarith) (by nlinarith)
    | exact s4 (by nlinarith) (by nlinarith)

/-- C133: a ring that covers between `n / 2^30` and `1/2 - n / 2^30` of the box has an area on the grid. -/
theorem C133_area {b : ShpBoundingBox} {west south east north : Rat} (hb : IsBox b west south east north)
    (ring : ShpPolygonRing) (hc : ring.head? = ring.getLast?) (hi : ∀ p ∈ ring, InsideBox west south east north p)
    (n : Nat) (hn : ring.length = n + 1) (h0 : n ≠ 0) (hs : n / 2 ^ 30 ≤ |boxShare west south east north ring|)
    (hs' : |boxShare west south east north ring| ≤ 1 / 2 - n / 2 ^ 30) :
    ringArea (.points (ring.map (ShapefileQuantizer.new b).quantize)) ≠ 0 := by
  have hd := areaDoubt_le hb.wide hb.high ring hi
  rw [hn, Nat.add_sub_cancel] at hd
  have h1 : (1 : ℝ) ≤ n := by exact_mod_cast Nat.one_le_iff_ne_zero.mpr h0
  obtain ⟨u1, u2⟩ := abs_le.mp (C133_signed hb ring hc hi)
  have cast : ∀ u v : Rat, u ≤ v → (u : ℝ) ≤ (v : ℝ) := fun u v h => by exact_mod_cast h
  set z := ringShoelace (.points (ring.map (ShapefileQuantizer.new b).quantize))
  have hz : (0 < z ∧ z < 2 ^ 64) ∨ (-2 ^ 64 < z ∧ z < 0) := by
    rcases le_or_gt 0 (boxShare west south east north ring) with hp | hp
    · rw [abs_of_nonneg hp] at hs hs'
      have p' := cast _ _ hs
      have q' := cast _ _ hs'
      push_cast at p' q'
      have v1 : (0 : ℝ) < z := by nlinarith
      have v2 : (z : ℝ) < ((2 ^ 64 : ℤ) : ℝ) := by push_cast; nlinarith
      exact .inl ⟨by exact_mod_cast v1, Int.cast_lt.mp v2⟩
    · rw [abs_of_neg hp] at hs hs'
      have p' := cast _ _ hs
      have q' := cast _ _ hs'
      push_cast at p' q'
      have v1 : (z : ℝ) < 0 := by nlinarith
      have v2 : ((-2 ^ 64 : ℤ) : ℝ) < z := by push_cast; nlinarith
      exact .inr ⟨Int.cast_lt.mp v2, by exact_mod_cast v1⟩
  unfold ringArea wrap64
  omega

/-- C133: so such a ring is in the topology that is built from the file (C68), if the record has a
ring of a share below a quarter. -/
theorem C133_survives (m : Build) {b : ShpBoundingBox} {west south east north : Rat} (hb : IsBox b west south east north)
    (record : ShapefileRecord) (hc : ∀ ring ∈ record.rings, ring.head? = ring.getLast?)
    (hi : ∀ ring ∈ record.rings, ∀ p ∈ ring, InsideBox west south east north p)
    (outer ring : ShpPolygonRing) (ho : outer ∈ record.rings) (hr : ring ∈ record.rings)
    (k n : Nat) (hk : outer.length = k + 1) (hn : ring.length = n + 1) (k0 : k ≠ 0) (n0 : n ≠ 0)
    (h1 : k / 2 ^ 30 ≤ boxShare west south east north outer) (h2 : boxShare west south east north outer ≤ 1 / 4 - k / 2 ^ 30)
    (h3 : n / 2 ^ 30 ≤ |boxShare west south east north ring|) (h4 : |boxShare west south east north ring| ≤ 1 / 2 - n / 2 ^ 30) :
    Survives m (ShapefileQuantizer.new b) record ring := by
  have hpos : 0 ≤ boxShare west south east north outer := le_trans (by positivity) h1
  refine ⟨hr, C133_area hb ring (hc ring hr) (hi ring hr) n hn n0 h3 h4, outer, ho,
    (C133_shares hb outer (hc outer ho) (hi outer ho) k hk k0).1 h1 h2 m,
    C133_area hb outer (hc outer ho) (hi outer ho) k hk k0 (by rwa [abs_of_nonneg hpos]) ?_⟩
  rw [abs_of_nonneg hpos]
  linarith

theorem partitionRings_wound {m : Build} {q : ShapefileQuantizer} {outer inner : List Ring} {rs : List ShpPolygonRing}
    {x : List Ring × List Ring} (h : partitionRings m q outer inner rs = .ok x) :
    ∀ s ∈ rs, ∃ o, (Ring.points (s.map q.quantize)).windingOrder m = .ok o := by
  induction rs generalizing outer inner with
  | nil => simp
  | cons s rs ih =>
    simp only [partitionRings, bind_ok] at h
    obtain ⟨o, ho, h⟩ := h
    intro s' hs'
    rcases List.mem_cons.mp hs' with rfl | hs'
    · exact ⟨o, ho⟩
    · split at h <;> exact ih h s' hs'

/-- C133: in a region that the iterator yields, rings of a share below a quarter are where they
belong, and in a release build those of a share between a quarter and a half are not. -/
theorem C133_region {σ τ : Type} [Source σ] [Source τ] (m : Build) (it it' : ShapefileGeoIterator σ τ)
    {b : ShpBoundingBox} {west south east north : Rat} (hb : IsBox b west south east north)
    (hq : it.quantizer = ShapefileQuantizer.new b) (region : Region DbfRecord) (h : it.next m = .ok (some (.ok region), it')) :
    ∃ record reader', it.reader.next = .ok (some (.ok record), reader') ∧
      ∀ ring ∈ record.rings, ring.head? = ring.getLast? → (∀ p ∈ ring, InsideBox west south east north p) →
        ∀ n : Nat, ring.length = n + 1 → n ≠ 0 →
          let share := boxShare west south east north ring
          let read := Ring.points (ring.map (ShapefileQuantizer.new b).quantize)
          (n / 2 ^ 30 ≤ share → share ≤ 1 / 4 - n / 2 ^ 30 → read ∈ region.outerRings) ∧
          (n / 2 ^ 30 ≤ -share → -share ≤ 1 / 4 - n / 2 ^ 30 → read ∈ region.innerRings) ∧
          (1 / 4 + n / 2 ^ 30 ≤ share → share ≤ 1 / 2 - n / 2 ^ 30 → m = .release ∧ read ∈ region.innerRings) ∧
          (1 / 4 + n / 2 ^ 30 ≤ -share → -share ≤ 1 / 2 - n / 2 ^ 30 → m = .release ∧ read ∈ region.outerRings) := by
  obtain ⟨record, reader', hr, _, _, hsplit⟩ := C59_region m it it' region h
  obtain ⟨hperm, _, _, hl, hrr⟩ := C59_permutation hsplit
  rw [hq] at hperm
  have hwound : ∀ s ∈ record.rings, ∃ o, (Ring.points (s.map (ShapefileQuantizer.new b).quantize)).windingOrder m = .ok o := by
    unfold ShapefileGeoIterator.next at h
    rw [hr, ok_bind] at h
    dsimp only at h
    obtain ⟨x, hx, _⟩ := bind_ok.mp h
    rw [hq] at hx
    exact partitionRings_wound hx
  refine ⟨record, reader', hr, fun ring hring hc hi n hn h0 => ?_⟩
  obtain ⟨c1, c2, c3, c4⟩ := C133_shares hb ring hc hi n hn h0
  have hmem : Ring.points (ring.map (ShapefileQuantizer.new b).quantize) ∈ region.outerRings ++ region.innerRings :=
    hperm.mem_iff.mpr (List.mem_map.mpr ⟨ring, hring, rfl⟩)
  have hout : CountsAsOuter m (.points (ring.map (ShapefileQuantizer.new b).quantize)) →
      Ring.points (ring.map (ShapefileQuantizer.new b).quantize) ∈ region.outerRings := fun hk =>
    (List.mem_append.mp hmem).resolve_right fun hin => hrr _ hin hk
  have hin : ¬ CountsAsOuter m (.points (ring.map (ShapefileQuantizer.new b).quantize)) →
      Ring.points (ring.map (ShapefileQuantizer.new b).quantize) ∈ region.innerRings := fun hk =>
    (List.mem_append.mp hmem).resolve_left fun hin => hk (hl _ hin)
  obtain ⟨o, ho⟩ := hwound ring hring
  refine ⟨fun p q => hout (c1 p q m), fun p q => hin (c2 p q m), fun p q => ?_, fun p q => ?_⟩
  · cases m with
    | debug => rw [(c3 p q).2] at ho; cases ho
    | release => exact ⟨rfl, hin (c3 p q).1⟩
  · cases m with
    | debug => rw [(c4 p q).2] at ho; cases ho
    | release => exact ⟨rfl, hout (c4 p q).1⟩

/-- C133: so a polygon of one ring that covers between a quarter and a half of the box of its
file becomes, in a release build, a region without an outer ring. -/
theorem C133_lost {σ τ : Type} [Source σ] [Source τ] (it : ShapefileGeoIterator σ τ)
    {b : ShpBoundingBox} {west south east north : Rat} (hb : IsBox b west south east north)
    (hq : it.quantizer = ShapefileQuantizer.new b) (record : ShapefileRecord) (reader' : ShapefileReader σ τ)
    (hr : it.reader.next = .ok (some (.ok record), reader')) (ring : ShpPolygonRing) (h1 : record.rings = [ring])
    (hc : ring.head? = ring.getLast?) (hi : ∀ p ∈ ring, InsideBox west south east north p)
    (n : Nat) (hn : ring.length = n + 1) (h0 : n ≠ 0)
    (hs : 1 / 4 + n / 2 ^ 30 ≤ boxShare west south east north ring)
    (hs' : boxShare west south east north ring ≤ 1 / 2 - n / 2 ^ 30) :
    it.next .debug = .error .overflow ∧
    it.next .release = .ok (some (.ok ⟨record.data, [], [.points (ring.map (ShapefileQuantizer.new b).quantize)]⟩),
      ⟨reader', it.quantizer⟩) := by
  obtain ⟨f3, f4⟩ := (C133_shares hb ring hc hi n hn h0).2.2.1 hs hs'
  unfold ShapefileGeoIterator.next
  rw [hr, ok_bind, ok_bind]
  dsimp only
  have e : shpPolygonRingToRing it.quantizer ring = .points (ring.map (ShapefileQuantizer.new b).quantize) := by rw [hq]; rfl
  constructor
  · rw [h1, partitionRings, e, f4]; rfl
  · rw [h1, partitionRings, e]
    cases hw : (Ring.points (ring.map (ShapefileQuantizer.new b).quantize)).windingOrder .release with
    | error e => rw [Ring.windingOrder, ring_area2AndWindingOrder_release] at hw; cases hw
    | ok o =>
      have : o ≠ .clockwise := fun ho => f3 ((windingOrder_points hw).mp ho)
      rw [ok_bind, if_neg this]
      rfl

/-- A triangle that covers three eighths of the unit square. -/
def exThreeEighths : ShpPolygonRing :=
  [⟨0, 0⟩, ⟨0, 0x3ff0000000000000⟩, ⟨0x3fe8000000000000, 0x3ff0000000000000⟩, ⟨0, 0⟩]

-- non-vacuity: of the unit square, a triangle of a share of 1/8 is an outer ring and one of 3/8 is not
example : IsBox unitBox 0 0 1 1 ∧ exHalfUnits.head? = exHalfUnits.getLast? ∧ boxShare 0 0 1 1 exHalfUnits = 1 / 8 ∧
    CountsAsOuter .release (.points (exHalfUnits.map (ShapefileQuantizer.new unitBox).quantize)) ∧
    exThreeEighths.head? = exThreeEighths.getLast? ∧ boxShare 0 0 1 1 exThreeEighths = 3 / 8 ∧
    ¬ CountsAsOuter .release (.points (exThreeEighths.map (ShapefileQuantizer.new unitBox).quantize)) := by
  refine ⟨unitBox_isBox, by decide +kernel, by decide +kernel, ?_, by decide +kernel, by decide +kernel, ?_⟩ <;>
  · unfold CountsAsOuter; decide +kernel
example : ∀ p ∈ exThreeEighths, InsideBox 0 0 1 1 p := by
  intro p hp
  simp only [exThreeEighths, List.mem_cons, List.not_mem_nil, or_false] at hp
  rcases hp with rfl | rfl | rfl | rfl
  · exact ⟨0, 0, ⟨by decide +kernel, by decide +kernel⟩, by norm_num, by norm_num⟩
  · exact ⟨0, 1, ⟨by decide +kernel, by decide +kernel⟩, by norm_num, by norm_num⟩
  · exact ⟨3 / 4, 1, ⟨by decide +kernel, by decide +kernel⟩, by norm_num, by norm_num⟩
  · exact ⟨0, 0, ⟨by decide +kernel, by decide +kernel⟩, by norm_num, by norm_num⟩

end TopoGeo
