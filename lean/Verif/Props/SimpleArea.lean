import Verif.Spec.SimpleArea
import Verif.Props.ExactMap
/-!
# Which simple rings have the right area

C132: a ring that does not cross itself encloses no more than the rectangle around it. So
its area does not overflow, however many points it has, as long as the rectangle covers
less than a quarter of the grid; and for larger ones it is known what is computed.
-/

namespace TopoGeo

open Spec MeasureTheory

theorem crossX_within (s : Point × Point) (y : ℝ) {a b : ℝ} (h1 : (s.1.yi : ℝ) ≤ y) (h2 : y < s.2.yi)
    (ha : a ≤ s.1.xi ∧ a ≤ s.2.xi) (hb : (s.1.xi : ℝ) ≤ b ∧ (s.2.xi : ℝ) ≤ b) : a ≤ crossX y s ∧ crossX y s ≤ b := by
  have hd : (0 : ℝ) < s.2.yi - s.1.yi := by linarith
  have hc : crossX y s = (s.1.xi * (s.2.yi - y) + s.2.xi * (y - s.1.yi)) / (s.2.yi - s.1.yi) := by
    unfold crossX
    field_simp
    ring
  rw [hc, le_div_iff₀ hd, div_le_iff₀ hd]
  constructor
  · nlinarith [mul_nonneg (sub_nonneg.mpr ha.1) (sub_nonneg.mpr h2.le), mul_nonneg (sub_nonneg.mpr ha.2) (sub_nonneg.mpr h1)]
  · nlinarith [mul_nonneg (sub_nonneg.mpr hb.1) (sub_nonneg.mpr h2.le), mul_nonneg (sub_nonneg.mpr hb.2) (sub_nonneg.mpr h1)]

/-- A segment that crosses the height of a point does so within the rectangle. -/
theorem crossX_cornerBox {s : Point × Point} {a b : Point} {y : ℝ} (hs : EndsWithin [s] a b)
    (hy : above y s.1 ≠ above y s.2) : (a.xi : ℝ) ≤ crossX y s ∧ crossX y s ≤ b.xi := by
  obtain ⟨⟨p1, p2, p3, p4⟩, q1, q2, q3, q4⟩ := hs s (by simp)
  unfold above at hy
  by_cases h1 : (s.1.yi : ℝ) ≤ y <;> by_cases h2 : (s.2.yi : ℝ) ≤ y <;> simp only [h1, h2, if_true, if_false, ne_eq, not_true] at hy
  · exact crossX_within s y h1 (not_le.mp h2) (by constructor <;> exact_mod_cast ‹_›) (by constructor <;> exact_mod_cast ‹_›)
  · have hne : s.1.yi ≠ s.2.yi := by
      intro h
      rw [h] at h1
      exact h1 h2
    rw [← crossX_swap y s hne]
    exact crossX_within s.swap y h2 (not_le.mp h1) (by constructor <;> simp only [Prod.fst_swap, Prod.snd_swap] <;> exact_mod_cast ‹_›)
      (by constructor <;> simp only [Prod.fst_swap, Prod.snd_swap] <;> exact_mod_cast ‹_›)

/-- No ring winds around a point outside of a rectangle that it is in. -/
theorem winding_off_box {l : List (Point × Point)} (hc : Circular l) {a b : Point} (hw : EndsWithin l a b) {p : ℝ × ℝ}
    (hp : p ∉ cornerBox a b) : winding l p.1 p.2 = 0 := by
  classical
  have hone : ∀ s ∈ l, EndsWithin [s] a b := by
    intro s hs s' hs'
    rw [List.mem_singleton.mp hs']
    exact hw s hs
  by_cases hl : p.1 < a.xi
  · have h1 : ∀ s ∈ l, turn p.1 p.2 s = above p.2 s.1 - above p.2 s.2 := by
      intro s hs
      rw [turn_eq]
      by_cases hy : above p.2 s.1 = above p.2 s.2
      · rw [hy, sub_self, ite_self]
      · rw [if_pos (lt_of_lt_of_le hl (crossX_cornerBox (hone s hs) hy).1)]
    unfold winding
    rw [List.map_congr_left h1]
    exact hc.sum fun q => above p.2 q
  · have h1 : ∀ s ∈ l, turn p.1 p.2 s = 0 := by
      intro s hs
      rw [turn_eq]
      by_cases hy : above p.2 s.1 = above p.2 s.2
      · rw [hy, sub_self, ite_self]
      · rw [if_neg]
        intro hx
        have hb := (crossX_cornerBox (hone s hs) hy).2
        apply hp
        obtain ⟨⟨_, _, p3, p4⟩, _, _, q3, q4⟩ := hw s hs
        have r3 : (a.yi : ℝ) ≤ s.1.yi := by exact_mod_cast p3
        have r4 : (s.1.yi : ℝ) ≤ b.yi := by exact_mod_cast p4
        have t3 : (a.yi : ℝ) ≤ s.2.yi := by exact_mod_cast q3
        have t4 : (s.2.yi : ℝ) ≤ b.yi := by exact_mod_cast q4
        refine ⟨⟨not_lt.mp hl, lt_of_lt_of_le hx hb⟩, ?_⟩
        unfold above at hy
        by_cases h1 : (s.1.yi : ℝ) ≤ p.2 <;> by_cases h2 : (s.2.yi : ℝ) ≤ p.2 <;>
          simp only [h1, h2, if_true, if_false, not_true] at hy
        · exact ⟨by linarith, by linarith [not_le.mp h2]⟩
        · exact ⟨by linarith, by linarith [not_le.mp h1]⟩
    unfold winding
    rw [List.map_congr_left h1]
    simp

/-- C132: what a ring encloses is in every rectangle that its points are in. -/
theorem C132_within (r : Ring) (hc : RingClosed r) (a b : Point) (hw : EndsWithin (ringSegs r) a b) :
    enclosed (ringSegs r) ⊆ cornerBox a b := by
  intro p hp
  by_contra hn
  have h0 := winding_off_box (circular_ring hc) hw hn
  have : Odd (winding (ringSegs r) p.1 p.2) := hp
  rw [h0] at this
  exact absurd this (by decide)

theorem volume_cornerBox (a b : Point) (hx : a.xi ≤ b.xi) :
    volume (cornerBox a b) = ENNReal.ofReal (((b.xi - a.xi) * (b.yi - a.yi) : ℤ) : ℝ) := by
  unfold cornerBox
  rw [Measure.volume_eq_prod, Measure.prod_prod, Real.volume_Ico, Real.volume_Ico, ← ENNReal.ofReal_mul]
  · push_cast; rfl
  · have : (a.xi : ℝ) ≤ b.xi := by exact_mod_cast hx
    linarith

/-- Twice the area that a simple ring encloses is a whole number, the signed area but for the sign. -/
theorem simple_area {r : Ring} (hc : RingClosed r) (hs : SimpleRing (ringSegs r)) :
    areaOf (enclosed (ringSegs r)) = ENNReal.ofReal (((ringShoelace r).natAbs : ℝ) / 2) ∧
    (WindsOnce (ringSegs r) → 0 ≤ ringShoelace r) ∧ (WindsOnceBack (ringSegs r) → ringShoelace r ≤ 0) := by
  have hi := (winding_integral (circular_ring hc)).2
  rw [← ringShoelace_eq_sum] at hi
  have h1 : WindsOnce (ringSegs r) → 0 ≤ ringShoelace r := by
    intro hw
    have : (0 : ℝ) ≤ (ringShoelace r : ℝ) / 2 := by
      rw [← hi]
      exact integral_nonneg fun p => by
        rcases hw p.1 p.2 with h | h <;> simp [h]
    have : (0 : ℝ) ≤ (ringShoelace r : ℝ) := by linarith
    exact_mod_cast this
  have h2 : WindsOnceBack (ringSegs r) → ringShoelace r ≤ 0 := by
    intro hw
    have : (ringShoelace r : ℝ) / 2 ≤ 0 := by
      rw [← hi]
      exact integral_nonpos fun p => by
        rcases hw p.1 p.2 with h | h <;> simp [h]
    have : (ringShoelace r : ℝ) ≤ 0 := by linarith
    exact_mod_cast this
  refine ⟨?_, h1, h2⟩
  rcases hs with hw | hw
  · rw [area_of_windsOnce (circular_ring hc) hw, ← ringShoelace_eq_sum]
    congr 2
    have : ((ringShoelace r).natAbs : ℤ) = ringShoelace r := Int.natAbs_of_nonneg (h1 hw)
    have h3 := congrArg (Int.cast : ℤ → ℝ) this
    rw [Int.cast_natCast] at h3
    exact h3.symm
  · rw [area_of_windsOnceBack (circular_ring hc) hw, ← ringShoelace_eq_sum]
    congr 2
    have : ((ringShoelace r).natAbs : ℤ) = -ringShoelace r := Int.ofNat_natAbs_of_nonpos (h2 hw)
    have h3 := congrArg (Int.cast : ℤ → ℝ) this
    rw [Int.cast_natCast, Int.cast_neg] at h3
    exact h3.symm

/-- C132: twice the area of a simple ring is at most twice that of a rectangle around it. -/
theorem C132_bound (r : Ring) (hc : RingClosed r) (hs : SimpleRing (ringSegs r)) (a b : Point)
    (hab : a.xi ≤ b.xi ∧ a.yi ≤ b.yi) (hw : EndsWithin (ringSegs r) a b) :
    ((ringShoelace r).natAbs : ℤ) ≤ 2 * ((b.xi - a.xi) * (b.yi - a.yi)) := by
  have h1 : areaOf (enclosed (ringSegs r)) ≤ volume (cornerBox a b) := measure_mono (C132_within r hc a b hw)
  have h0 : 0 ≤ (b.xi - a.xi) * (b.yi - a.yi) := mul_nonneg (by omega) (by omega)
  rw [(simple_area hc hs).1, volume_cornerBox a b hab.1, ENNReal.ofReal_le_ofReal_iff (by exact_mod_cast h0)] at h1
  have h2 : ((ringShoelace r).natAbs : ℝ) ≤ ((2 * ((b.xi - a.xi) * (b.yi - a.yi)) : ℤ) : ℝ) := by
    push_cast at h1 ⊢
    linarith
  rw [← Int.cast_natCast] at h2
  exact Int.cast_le.mp h2

theorem endsWithin_grid (l : List (Point × Point)) : EndsWithin l ⟨0, 0⟩ ⟨4294967295, 4294967295⟩ := by
  have hp : ∀ p : Point, (0 : ℤ) ≤ p.xi ∧ p.xi ≤ 4294967295 ∧ (0 : ℤ) ≤ p.yi ∧ p.yi ≤ 4294967295 := by
    intro p
    have h1 := p.x.toNat_lt
    have h2 := p.y.toNat_lt
    simp only [Point.xi, Point.yi]
    omega
  exact fun s _ => ⟨hp s.1, hp s.2⟩

theorem simple_lt {r : Ring} (hc : RingClosed r) (hs : SimpleRing (ringSegs r)) : (ringShoelace r).natAbs < 2 ^ 65 := by
  have h := C132_bound r hc hs ⟨0, 0⟩ ⟨4294967295, 4294967295⟩ (by decide) (endsWithin_grid _)
  have h1 : (2 * (((⟨4294967295, 4294967295⟩ : Point).xi - (⟨0, 0⟩ : Point).xi) *
    ((⟨4294967295, 4294967295⟩ : Point).yi - (⟨0, 0⟩ : Point).yi)) : ℤ) = 2 * (4294967295 * 4294967295) := by decide
  rw [h1] at h
  omega

/-- C132: what a release build computes for a simple ring, from nothing but the area that it
encloses and the way it runs. -/
theorem C132_table (r : Ring) (hc : RingClosed r) (hs : SimpleRing (ringSegs r)) :
    ∃ n : Nat, n < 2 ^ 65 ∧ areaOf (enclosed (ringSegs r)) = ENNReal.ofReal ((n : ℝ) / 2) ∧
      (WindsOnce (ringSegs r) → r.area2AndWindingOrder .release = .ok (readClockwise n)) ∧
      (WindsOnceBack (ringSegs r) → r.area2AndWindingOrder .release = .ok (readCounterClockwise n)) := by
  obtain ⟨h1, h2, h3⟩ := simple_area hc hs
  have hlt := simple_lt hc hs
  refine ⟨_, hlt, h1, fun hw => ?_, fun hw => ?_⟩
  · rw [ring_area2AndWindingOrder_release]
    have h0 := h2 hw
    generalize ringShoelace r = z at h0 hlt ⊢
    unfold readClockwise wrap64
    congr 1
    split_ifs <;> simp only [Prod.mk.injEq, reduceCtorEq, and_true, and_false] <;> omega
  · rw [ring_area2AndWindingOrder_release]
    have h0 := h3 hw
    generalize ringShoelace r = z at h0 hlt ⊢
    unfold readCounterClockwise wrap64
    congr 1
    split_ifs <;> simp only [Prod.mk.injEq, reduceCtorEq, and_true, and_false] <;> omega

/-- C132: a simple ring in a rectangle that covers less than a quarter of the grid has the
right area and the right direction, however many points it has and wherever it is. -/
theorem C132_right (m : Build) (r : Ring) (hc : RingClosed r) (hs : SimpleRing (ringSegs r)) (a b : Point)
    (hab : a.xi ≤ b.xi ∧ a.yi ≤ b.yi) (hw : EndsWithin (ringSegs r) a b) (hq : (b.xi - a.xi) * (b.yi - a.yi) < 2 ^ 62)
    (n : Nat) (o : WindingOrder) (h : r.area2AndWindingOrder m = .ok (n, o)) :
    areaOf (enclosed (ringSegs r)) = n / 2 ∧ (n = 0 ↔ enclosed (ringSegs r) = ∅) ∧
      (n ≠ 0 → (o = .clockwise ↔ WindsOnce (ringSegs r)) ∧ (o = .counterClockwise ↔ WindsOnceBack (ringSegs r))) ∧
      (CountsAsOuter m r ↔ WindsOnce (ringSegs r)) := by
  have hb := C132_bound r hc hs a b hab hw
  have hin : InI64 (ringShoelace r) := by unfold InI64; omega
  have hx : (n, o) = ((ringShoelace r).natAbs, if 0 ≤ ringShoelace r then WindingOrder.clockwise else .counterClockwise) := by
    cases m with
    | debug => exact (ring_area2AndWindingOrder_debug h).1
    | release =>
      have := ring_area2AndWindingOrder_ok h
      rwa [wrap64_of_inI64 hin] at this
  obtain ⟨rfl, rfl⟩ := Prod.mk.inj hx
  obtain ⟨h1, h2, h3⟩ := simple_area hc hs
  have he : ringShoelace r = 0 → enclosed (ringSegs r) = ∅ := fun h0 =>
    simple_empty (circular_ring hc) hs (by rw [← ringShoelace_eq_sum]; exact h0)
  have hz : ringShoelace r = 0 → WindsOnce (ringSegs r) ∧ WindsOnceBack (ringSegs r) := by
    intro h0
    have : ∀ x y : ℝ, winding (ringSegs r) x y = 0 := by
      intro x y
      by_contra hne
      have hodd : Odd (winding (ringSegs r) x y) := by
        rcases hs with hs | hs
        · rcases hs x y with h | h
          · exact absurd h hne
          · rw [h]; decide
        · rcases hs x y with h | h
          · exact absurd h hne
          · rw [h]; decide
      have hmem : ((x, y) : ℝ × ℝ) ∈ enclosed (ringSegs r) := hodd
      rw [he h0] at hmem
      exact hmem
    exact ⟨fun x y => .inl (this x y), fun x y => .inl (this x y)⟩
  have hcw : WindsOnce (ringSegs r) ↔ 0 ≤ ringShoelace r := by
    refine ⟨h2, fun h0 => ?_⟩
    rcases hs with hs | hs
    · exact hs
    · exact (hz (le_antisymm (h3 hs) h0)).1
  have hccw : WindsOnceBack (ringSegs r) ↔ ringShoelace r ≤ 0 := by
    refine ⟨h3, fun h0 => ?_⟩
    rcases hs with hs | hs
    · exact (hz (le_antisymm h0 (h2 hs))).2
    · exact hs
  refine ⟨?_, ⟨fun h0 => he (Int.natAbs_eq_zero.mp h0), fun h0 => ?_⟩, fun hn => ⟨?_, ?_⟩, ?_⟩
  · rw [h1, ENNReal.ofReal_div_of_pos (by norm_num), ENNReal.ofReal_natCast, ENNReal.ofReal_ofNat]
  · rw [h0, areaOf, measure_empty] at h1
    have h4 := ENNReal.ofReal_eq_zero.mp h1.symm
    have h5 : ((ringShoelace r).natAbs : ℝ) ≤ 0 := by linarith
    have h6 : (ringShoelace r).natAbs ≤ 0 := by exact_mod_cast h5
    omega
  · rw [hcw]; split_ifs <;> simp_all
  · rw [hccw]; split_ifs
    · simp only [false_iff]; omega
    · simp only [true_iff]; omega
  · rw [hcw]
    cases m with
    | debug => exact Iff.rfl
    | release => exact (C59_true_winding r).2 hin

/-- In a rectangle that covers less than half of the grid, a simple ring has a wrapped area of
zero if and only if it encloses nothing. -/
theorem simple_ringArea {r : Ring} (hc : RingClosed r) (hs : SimpleRing (ringSegs r)) {a b : Point}
    (hab : a.xi ≤ b.xi ∧ a.yi ≤ b.yi) (hw : EndsWithin (ringSegs r) a b) (hq : (b.xi - a.xi) * (b.yi - a.yi) < 2 ^ 63) :
    ringArea r ≠ 0 ↔ (enclosed (ringSegs r)).Nonempty := by
  have hb := C132_bound r hc hs a b hab hw
  rw [Set.nonempty_iff_ne_empty, not_iff_not]
  refine ⟨fun h0 => simple_empty (circular_ring hc) hs (by rw [← ringShoelace_eq_sum]; exact wrap64_zero_small (by omega) h0), fun h0 => ?_⟩
  have h2 := (simple_area hc hs).1
  rw [h0, areaOf, measure_empty] at h2
  have h4 := ENNReal.ofReal_eq_zero.mp h2.symm
  have h5 : ((ringShoelace r).natAbs : ℝ) ≤ 0 := by linarith
  have h6 : (ringShoelace r).natAbs ≤ 0 := by exact_mod_cast h5
  have h7 : ringShoelace r = 0 := by omega
  unfold ringArea
  rw [h7]
  rfl

open Classical in
/-- C132: and if all rings are simple and in rectangles that cover less than half of the grid,
then a topology has precisely the rings that enclose something, of the regions with an
outer ring that does. -/
theorem C132_kept {δ : Type} (m : Build) (rs : List (Region δ)) (t : Topology δ) (h : buildTopology m rs = .ok t)
    (hc : ∀ r ∈ rs, ∀ ring ∈ r.outerRings ++ r.innerRings, RingClosed ring)
    (hs : ∀ r ∈ rs, ∀ ring ∈ r.outerRings ++ r.innerRings, SimpleRing (ringSegs ring))
    (hb : ∀ r ∈ rs, ∀ ring ∈ r.outerRings ++ r.innerRings, ∃ a b : Point, (a.xi ≤ b.xi ∧ a.yi ≤ b.yi) ∧
      EndsWithin (ringSegs ring) a b ∧ (b.xi - a.xi) * (b.yi - a.yi) < 2 ^ 63) :
    (t.regions.map fun r => (r.data, r.outerRings.length, r.innerRings.length)) =
      ((rs.filter fun r => r.outerRings.any fun ring => (enclosed (ringSegs ring)).Nonempty).map fun r =>
        (r.data, r.outerRings.countP (fun ring => (enclosed (ringSegs ring)).Nonempty),
          r.innerRings.countP fun ring => (enclosed (ringSegs ring)).Nonempty)) := by
  have key : ∀ r ∈ rs, ∀ ring ∈ r.outerRings ++ r.innerRings, ringArea ring ≠ 0 ↔ (enclosed (ringSegs ring)).Nonempty := by
    intro r hr ring hring
    obtain ⟨a, b, hab, hw, hq⟩ := hb r hr ring hring
    exact simple_ringArea (hc r hr ring hring) (hs r hr ring hring) hab hw hq
  have h1 : (t.regions.map fun r => (r.data, r.outerRings.length, r.innerRings.length)) =
      (keptRegions rs).map fun k => (k.data, k.outer.length, k.inner.length) := by
    have h2 := C07_round_trip m rs t h
    generalize keptRegions rs = ks at h2 ⊢
    generalize t.regions = us at h2 ⊢
    induction h2 with
    | nil => rfl
    | cons hd _ ih =>
      obtain ⟨d, o, i⟩ := hd
      rw [List.map_cons, List.map_cons, ih, d, o.length_eq, i.length_eq]
  rw [h1, keptRegions, List.map_map]
  have h3 : (rs.filter fun r => keptRings r.outerRings ≠ []) =
      rs.filter fun r => r.outerRings.any fun ring => (enclosed (ringSegs ring)).Nonempty := by
    refine List.filter_congr fun r hr => ?_
    rw [Bool.eq_iff_iff, decide_eq_true_iff, List.any_eq_true, ne_eq, keptRings, List.filter_eq_nil_iff]
    push Not
    refine exists_congr fun ring => and_congr_right fun hring => ?_
    simpa using key r hr ring (List.mem_append_left _ hring)
  rw [h3]
  refine List.map_congr_left fun r hr => ?_
  have hr' := (List.mem_filter.mp hr).1
  simp only [Function.comp, List.length_map, keptRings, ← List.countP_eq_length_filter]
  congr 2
  · exact List.countP_congr fun ring hring => by simpa using key r hr' ring (List.mem_append_left _ hring)
  · exact List.countP_congr fun ring hring => by simpa using key r hr' ring (List.mem_append_right _ hring)

/-- C132: so if each ring of a region is simple and in such a rectangle, and holes are within
outer rings, then building, clipping and normalizing changes nothing that it should not:
this is what C130 asks for. -/
theorem C132_plain {δ : Type} (r : Region δ) (hc : ∀ ring ∈ r.outerRings ++ r.innerRings, RingClosed ring)
    (hs : ∀ ring ∈ r.outerRings ++ r.innerRings, SimpleRing (ringSegs ring))
    (hb : ∀ ring ∈ r.outerRings ++ r.innerRings, ∃ a b : Point, (a.xi ≤ b.xi ∧ a.yi ≤ b.yi) ∧
      EndsWithin (ringSegs ring) a b ∧ (b.xi - a.xi) * (b.yi - a.yi) < 2 ^ 63)
    (hh : ∀ inner ∈ r.innerRings, ∀ p ∈ enclosed (ringSegs inner), ∃ outer ∈ r.outerRings, p ∈ enclosed (ringSegs outer)) :
    PlainGiven r ∧ lostPart r = ∅ := by
  have hp : PlainGiven r := by
    refine ⟨hc, hs, fun ring hr => ?_, hh⟩
    obtain ⟨a, b, hab, hw, hq⟩ := hb ring hr
    have := C132_bound ring (hc ring hr) (hs ring hr) a b hab hw
    omega
  exact ⟨hp, C130_nothing_lost r hp⟩

/-- A triangle in the last corner of the grid. -/
def exFarCorner : List Point := [⟨3294967295, 3294967295⟩, ⟨4294967295, 3294967295⟩, ⟨4294967295, 4294967295⟩, ⟨3294967295, 3294967295⟩]

/-- Half of the grid, as a triangle. -/
def exHalfGrid : List Point := [⟨0, 0⟩, ⟨4294967295, 0⟩, ⟨0, 4294967295⟩, ⟨0, 0⟩]

/-- Half of the grid again: a little less than its left half, and a strip of the right half. -/
def exHalfDropped : List Point :=
  [⟨0, 0⟩, ⟨3221225472, 0⟩, ⟨3221225472, 2⟩, ⟨2147483648, 2⟩, ⟨2147483648, 4294967295⟩, ⟨0, 4294967295⟩, ⟨0, 0⟩]

theorem exHalfDropped_once : WindsOnce (ringSegs (.points exHalfDropped)) := by
  have e0 : UInt32.toNat 0 = 0 := rfl
  have e1 : UInt32.toNat 3221225472 = 3221225472 := rfl
  have e2 : UInt32.toNat 2 = 2 := rfl
  have e3 : UInt32.toNat 2147483648 = 2147483648 := rfl
  have e4 : UInt32.toNat 4294967295 = 4294967295 := rfl
  intro x y
  simp only [exHalfDropped, ringSegs, segs, winding, turn, crossX, Point.xi, Point.yi, List.map_cons, List.map_nil,
    List.sum_cons, List.sum_nil, e0, e1, e2, e3, e4]
  norm_num
  have n0 : ¬ (0 ≤ y ∧ y < 0) := fun h => by linarith [h.1, h.2]
  have n2 : ¬ (2 ≤ y ∧ y < 2) := fun h => by linarith [h.1, h.2]
  have n20 : ¬ (2 ≤ y ∧ y < 0) := fun h => by linarith [h.1, h.2]
  have n4 : ¬ (4294967295 ≤ y ∧ y < 4294967295) := fun h => by linarith [h.1, h.2]
  have n40 : ¬ (4294967295 ≤ y ∧ y < 0) := fun h => by linarith [h.1, h.2]
  have n42 : ¬ (4294967295 ≤ y ∧ y < 2) := fun h => by linarith [h.1, h.2]
  simp only [n0, n2, n20, n4, n40, n42, if_false, ite_self, zero_add]
  rcases lt_or_ge y 0 with h | h
  · have m1 : ¬ (0 ≤ y ∧ y < 2) := fun k => by linarith [k.1]
    have m2 : ¬ (2 ≤ y ∧ y < 4294967295) := fun k => by linarith [k.1]
    have m3 : ¬ (0 ≤ y ∧ y < 4294967295) := fun k => by linarith [k.1]
    simp only [m1, m2, m3, if_false, ite_self]
    simp
  rcases lt_or_ge y 2 with h' | h'
  · have m1 : 0 ≤ y ∧ y < 2 := ⟨h, h'⟩
    have m2 : ¬ (2 ≤ y ∧ y < 4294967295) := fun k => by linarith [k.1]
    have m3 : 0 ≤ y ∧ y < 4294967295 := ⟨h, by linarith⟩
    simp only [if_pos m1, if_neg m2, if_pos m3, ite_self]
    split_ifs <;> first | (exfalso; linarith) | simp
  rcases lt_or_ge y 4294967295 with h'' | h''
  · have m1 : ¬ (0 ≤ y ∧ y < 2) := fun k => by linarith [k.2]
    have m2 : 2 ≤ y ∧ y < 4294967295 := ⟨h', h''⟩
    have m3 : 0 ≤ y ∧ y < 4294967295 := ⟨h, h''⟩
    simp only [if_neg m1, if_pos m2, if_pos m3, ite_self]
    split_ifs <;> first | (exfalso; linarith) | simp
  · have m1 : ¬ (0 ≤ y ∧ y < 2) := fun k => by linarith [k.2]
    have m2 : ¬ (2 ≤ y ∧ y < 4294967295) := fun k => by linarith [k.2]
    have m3 : ¬ (0 ≤ y ∧ y < 4294967295) := fun k => by linarith [k.2]
    simp only [m1, m2, m3, if_false, ite_self]
    simp

-- non-vacuity: a triangle in a square with sides of 10⁹, far from the origin
example : RingClosed (.points exFarCorner) ∧
    WindsOnce (ringSegs (.points exFarCorner)) ∧
    EndsWithin (ringSegs (.points exFarCorner))
      ⟨3294967295, 3294967295⟩ ⟨4294967295, 4294967295⟩ ∧
    ((⟨4294967295, 4294967295⟩ : Point).xi - (⟨3294967295, 3294967295⟩ : Point).xi) *
      ((⟨4294967295, 4294967295⟩ : Point).yi - (⟨3294967295, 3294967295⟩ : Point).yi) < 2 ^ 62 :=
  ⟨by decide +kernel, triangle_windsOnce (by decide +kernel), by decide +kernel, by decide +kernel⟩
-- half of the grid is read as a hole, or dropped
example : RingClosed (.points exHalfGrid) ∧ WindsOnce (ringSegs (.points exHalfGrid)) ∧
    (Ring.points exHalfGrid).area2AndWindingOrder .release = .ok (8589934591, .counterClockwise) ∧
    readClockwise 18446744065119617025 = (8589934591, .counterClockwise) :=
  ⟨by decide +kernel, triangle_windsOnce (by decide +kernel), by decide +kernel, by decide +kernel⟩
example : RingClosed (.points exHalfDropped) ∧ WindsOnce (ringSegs (.points exHalfDropped)) ∧
    (Ring.points exHalfDropped).area2AndWindingOrder .release = .ok (0, .clockwise) ∧
    keptRings [.points exHalfDropped] = [] :=
  ⟨by decide +kernel, exHalfDropped_once, by decide +kernel, by decide +kernel⟩

end TopoGeo
