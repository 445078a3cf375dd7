import Verif.Proofs.AreaRings
/-!
# Triangles wind once
-/

namespace TopoGeo
open Spec MeasureTheory

/-- Twice the area of the triangle, positive if it runs clockwise (`y` downwards). -/
def triCross (a b c : Point) : ℤ := (b.xi - a.xi) * (c.yi - a.yi) - (c.xi - a.xi) * (b.yi - a.yi)

theorem triCross_rotate (a b c : Point) : triCross b c a = triCross a b c := by unfold triCross; ring

theorem shoelace_triangle (a b c : Point) : shoelace [a, b, c, a] = triCross a b c := by
  simp only [shoelace, cross, triCross, Point.xi, Point.yi]; ring

/-- How far apart two sides that meet in `a` are at height `y`. -/
theorem crossX_sub (a b c : Point) (y : ℝ) (hb : b.yi ≠ a.yi) (hc : c.yi ≠ a.yi) :
    crossX y (a, b) - crossX y (c, a) =
      (y - a.yi) * triCross a b c / ((b.yi - a.yi) * (c.yi - a.yi)) := by
  have hb' : (b.yi : ℝ) - a.yi ≠ 0 := by rw [sub_ne_zero]; exact_mod_cast hb
  have hc' : (c.yi : ℝ) - a.yi ≠ 0 := by rw [sub_ne_zero]; exact_mod_cast hc
  have h1 : crossX y (c, a) = crossX y (a, c) := crossX_swap y (a, c) hc.symm
  rw [h1]
  unfold crossX triCross
  simp only
  push_cast
  field_simp
  ring

theorem apex_low {a b c : Point} {y : ℝ} (h : 0 ≤ triCross a b c) (ha : (a.yi : ℝ) ≤ y) (hb : y < b.yi) (hc : y < c.yi) :
    crossX y (c, a) ≤ crossX y (a, b) := by
  have hb' : (0 : ℝ) < b.yi - a.yi := by linarith
  have hc' : (0 : ℝ) < c.yi - a.yi := by linarith
  have hr : (0 : ℝ) ≤ triCross a b c := by exact_mod_cast h
  rw [← sub_nonneg, crossX_sub a b c y (fun h0 => by rw [h0] at hb'; linarith) (fun h0 => by rw [h0] at hc'; linarith)]
  exact div_nonneg (mul_nonneg (by linarith) hr) (mul_pos hb' hc').le

theorem apex_high {a b c : Point} {y : ℝ} (h : 0 ≤ triCross a b c) (ha : y < a.yi) (hb : (b.yi : ℝ) ≤ y) (hc : (c.yi : ℝ) ≤ y) :
    crossX y (a, b) ≤ crossX y (c, a) := by
  have hb' : (b.yi : ℝ) - a.yi < 0 := by linarith
  have hc' : (c.yi : ℝ) - a.yi < 0 := by linarith
  have hr : (0 : ℝ) ≤ triCross a b c := by exact_mod_cast h
  rw [← sub_nonpos, crossX_sub a b c y (fun h0 => by rw [h0] at hb'; linarith) (fun h0 => by rw [h0] at hc'; linarith)]
  exact div_nonpos_of_nonpos_of_nonneg (mul_nonpos_of_nonpos_of_nonneg (by linarith) hr) (mul_pos_of_neg_of_neg hb' hc').le

theorem triangle_windsOnce {a b c : Point} (h : 0 ≤ triCross a b c) : WindsOnce (segs [a, b, c, a]) := by
  classical
  intro x y
  have hw : winding (segs [a, b, c, a]) x y =
      (if x < crossX y (a, b) then above y a - above y b else 0) +
      ((if x < crossX y (b, c) then above y b - above y c else 0) +
      ((if x < crossX y (c, a) then above y c - above y a else 0) + 0)) := by
    simp only [winding, segs, List.map_cons, List.map_nil, List.sum_cons, List.sum_nil, turn_eq]
  have h1 : 0 ≤ triCross b c a := by rw [triCross_rotate]; exact h
  have h2 : 0 ≤ triCross c a b := by rw [triCross_rotate]; exact h1
  have key : ∀ u v : ℝ, u ≤ v → ((if x < v then (1 : ℤ) else 0) + (if x < u then -1 else 0) = 0 ∨
      (if x < v then (1 : ℤ) else 0) + (if x < u then -1 else 0) = 1) := by
    intro u v huv
    by_cases hv : x < v <;> by_cases hu : x < u
    · simp [hu, hv]
    · simp [hu, hv]
    · exact absurd (lt_of_lt_of_le hu huv) hv
    · simp [hu, hv]
  rw [hw]
  unfold above
  by_cases ha : (a.yi : ℝ) ≤ y <;> by_cases hb : (b.yi : ℝ) ≤ y <;> by_cases hc : (c.yi : ℝ) ≤ y
  · simp [ha, hb, hc]
  · have := key _ _ (apex_high h2 (not_le.mp hc) ha hb)
    simp only [ha, hb, hc, if_true, if_false]; simp; simpa [add_comm] using this
  · have := key _ _ (apex_high h1 (not_le.mp hb) hc ha)
    simp only [ha, hb, hc, if_true, if_false]; simp; simpa [add_comm] using this
  · have := key _ _ (apex_low h ha (not_le.mp hb) (not_le.mp hc))
    simp only [ha, hb, hc, if_true, if_false]; simp; simpa [add_comm] using this
  · have := key _ _ (apex_high h (not_le.mp ha) hb hc)
    simp only [ha, hb, hc, if_true, if_false]; simp; simpa [add_comm] using this
  · have := key _ _ (apex_low h1 hb (not_le.mp hc) (not_le.mp ha))
    simp only [ha, hb, hc, if_true, if_false]; simp; simpa [add_comm] using this
  · have := key _ _ (apex_low h2 hc (not_le.mp ha) (not_le.mp hb))
    simp only [ha, hb, hc, if_true, if_false]; simp; simpa [add_comm] using this
  · simp [ha, hb, hc]

theorem triangle_back (a b c : Point) (x y : ℝ) : winding (segs [a, c, b, a]) x y = -winding (segs [a, b, c, a]) x y := by
  have h1 := turn_swap x y (a, b)
  have h2 := turn_swap x y (b, c)
  have h3 := turn_swap x y (c, a)
  simp only [Prod.swap] at h1 h2 h3
  simp only [winding, segs, List.map_cons, List.map_nil, List.sum_cons, List.sum_nil, h1, h2, h3]
  ring

theorem triangle_windsOnceBack {a b c : Point} (h : triCross a b c ≤ 0) : WindsOnceBack (segs [a, b, c, a]) := by
  have h1 : 0 ≤ triCross a c b := by unfold triCross at h ⊢; linarith
  intro x y
  have := triangle_windsOnce h1 x y
  rw [triangle_back a b c] at this
  rcases this with h0 | h0
  · left; omega
  · right; omega

/-- The area of a triangle. -/
theorem triangle_area (a b c : Point) : areaOf (enclosed (segs [a, b, c, a])) = ENNReal.ofReal (|(triCross a b c : ℝ)| / 2) := by
  have hc : Circular (segs [a, b, c, a]) := circular_segs rfl
  rcases le_total 0 (triCross a b c) with h | h
  · rw [area_of_windsOnce hc (triangle_windsOnce h), ← shoelace_eq_sum, shoelace_triangle]
    rw [abs_of_nonneg (by exact_mod_cast h)]
  · rw [area_of_windsOnceBack hc (triangle_windsOnceBack h), ← shoelace_eq_sum, shoelace_triangle]
    rw [abs_of_nonpos (by exact_mod_cast h)]

end TopoGeo
