import Verif.Proofs.Triangle
/-!
# From rational to real points
-/

namespace TopoGeo
open Spec MeasureTheory

theorem crossX_shift (s : Point × Point) (y y' : ℝ) :
    crossX y' s = crossX y s + (y' - y) * (((s.2.xi : ℝ) - s.1.xi) / (s.2.yi - s.1.yi)) := by
  unfold crossX; ring

/-- A segment is crossed by the rays from points slightly further right and down as by
the one from the point. -/
theorem turn_near (s : Point × Point) (x y : ℝ) : ∃ d > 0, ∃ K ≥ (0 : ℝ), ∀ x' y' : ℝ, y ≤ y' → y' < y + d → x ≤ x' →
    x' < x + d → K * (y' - y) ≤ x' - x → turn x' y' s = turn x y s := by
  classical
  have hab : ∀ p : Point, ∃ d > 0, ∀ y' : ℝ, y ≤ y' → y' < y + d → above y' p = above y p := by
    intro p
    by_cases hp : (p.yi : ℝ) ≤ y
    · refine ⟨1, one_pos, fun y' h1 _ => ?_⟩
      unfold above
      rw [if_pos hp, if_pos (hp.trans h1)]
    · refine ⟨p.yi - y, by linarith [not_le.mp hp], fun y' _ h2 => ?_⟩
      unfold above
      rw [if_neg hp, if_neg (by linarith)]
  obtain ⟨d1, h1, k1⟩ := hab s.1
  obtain ⟨d2, h2, k2⟩ := hab s.2
  set k : ℝ := ((s.2.xi : ℝ) - s.1.xi) / (s.2.yi - s.1.yi) with hk
  by_cases hx : x < crossX y s
  · refine ⟨min (min d1 d2) ((crossX y s - x) / 2), lt_min (lt_min h1 h2) (by linarith), |k|, abs_nonneg k, ?_⟩
    intro x' y' e1 e2 e3 e4 e5
    have l1 : y' < y + d1 := lt_of_lt_of_le e2 (by linarith [(min_le_left (min d1 d2) ((crossX y s - x) / 2)).trans (min_le_left d1 d2)])
    have l2 : y' < y + d2 := lt_of_lt_of_le e2 (by linarith [(min_le_left (min d1 d2) ((crossX y s - x) / 2)).trans (min_le_right d1 d2)])
    have l3 : x' < x + (crossX y s - x) / 2 := lt_of_lt_of_le e4 (by linarith [min_le_right (min d1 d2) ((crossX y s - x) / 2)])
    have l4 : x' < crossX y' s := by
      rw [crossX_shift s y y', ← hk]
      have : -|k| * (y' - y) ≤ k * (y' - y) := mul_le_mul_of_nonneg_right (neg_abs_le k) (by linarith)
      nlinarith
    rw [turn_eq, turn_eq, if_pos hx, if_pos l4, k1 y' e1 l1, k2 y' e1 l2]
  · refine ⟨1, one_pos, |k|, abs_nonneg k, ?_⟩
    intro x' y' e1 e2 e3 e4 e5
    have l4 : ¬ x' < crossX y' s := by
      rw [crossX_shift s y y', ← hk]
      have : k * (y' - y) ≤ |k| * (y' - y) := mul_le_mul_of_nonneg_right (le_abs_self k) (by linarith)
      have := not_lt.mp hx
      rw [not_lt]
      nlinarith
    rw [turn_eq, turn_eq, if_neg hx, if_neg l4]

theorem turns_near (l : List (Point × Point)) (x y : ℝ) : ∃ d > 0, ∃ K ≥ (0 : ℝ), ∀ x' y' : ℝ, y ≤ y' → y' < y + d → x ≤ x' →
    x' < x + d → K * (y' - y) ≤ x' - x → ∀ s ∈ l, turn x' y' s = turn x y s := by
  induction l with
  | nil => exact ⟨1, one_pos, 0, le_refl _, by simp⟩
  | cons s l ih =>
    obtain ⟨d1, h1, K1, g1, k1⟩ := turn_near s x y
    obtain ⟨d2, h2, K2, g2, k2⟩ := ih
    refine ⟨min d1 d2, lt_min h1 h2, max K1 K2, le_trans g1 (le_max_left _ _), ?_⟩
    intro x' y' e1 e2 e3 e4 e5 u hu
    have m1 := min_le_left d1 d2
    have m2 := min_le_right d1 d2
    have f1 : K1 * (y' - y) ≤ x' - x := (mul_le_mul_of_nonneg_right (le_max_left _ _) (by linarith)).trans e5
    have f2 : K2 * (y' - y) ≤ x' - x := (mul_le_mul_of_nonneg_right (le_max_right _ _) (by linarith)).trans e5
    rcases List.mem_cons.mp hu with rfl | hu
    · exact k1 x' y' e1 (by linarith) e3 (by linarith) f1
    · exact k2 x' y' e1 (by linarith) e3 (by linarith) f2 u hu

/-- There is a rational point, as near as one likes, that given segments wind around as
they do around a real one. -/
theorem exists_rational (l : List (Point × Point)) (x y e : ℝ) (he : 0 < e) :
    ∃ x' y' : ℚ, x < x' ∧ (x' : ℝ) < x + e ∧ y < y' ∧ (y' : ℝ) < y + e ∧ ∀ s ∈ l, turn x' y' s = turn x y s := by
  obtain ⟨d, hd, K, hK, h⟩ := turns_near l x y
  obtain ⟨x', a1, a2⟩ := exists_rat_btwn (show x < x + min d e by linarith [lt_min hd he])
  have hpos : 0 < ((x' : ℝ) - x) / (K + 1) := div_pos (by linarith) (by linarith)
  obtain ⟨y', b1, b2⟩ := exists_rat_btwn (show y < y + min (min d e) (((x' : ℝ) - x) / (K + 1)) by
    linarith [lt_min (lt_min hd he) hpos])
  have m1 := min_le_left d e
  have m2 := min_le_right d e
  have m3 := min_le_left (min d e) (((x' : ℝ) - x) / (K + 1))
  have m4 := min_le_right (min d e) (((x' : ℝ) - x) / (K + 1))
  refine ⟨x', y', a1, by linarith, b1, by linarith, h x' y' b1.le (by linarith) a1.le (by linarith) ?_⟩
  have h1 : (y' : ℝ) - y ≤ ((x' : ℝ) - x) / (K + 1) := by linarith
  have h2 := (le_div_iff₀ (by linarith : (0 : ℝ) < K + 1)).mp h1
  nlinarith

theorem winding_congr {l : List (Point × Point)} {x y x' y' : ℝ} (h : ∀ s ∈ l, turn x' y' s = turn x y s) :
    winding l x' y' = winding l x y := by
  unfold winding
  rw [List.map_congr_left h]

/-- The same for several lists of segments at once, in terms of what they enclose. -/
theorem exists_rational_encloses (ls : List (List (Point × Point))) (x y e : ℝ) (he : 0 < e) :
    ∃ x' y' : ℚ, x < x' ∧ (x' : ℝ) < x + e ∧ y < y' ∧ (y' : ℝ) < y + e ∧
      ∀ l ∈ ls, (Encloses l x' y' ↔ (x, y) ∈ enclosed l) := by
  obtain ⟨x', y', h1, h2, h3, h4, h5⟩ := exists_rational ls.flatten x y e he
  refine ⟨x', y', h1, h2, h3, h4, fun l hl => ?_⟩
  rw [encloses_iff]
  unfold enclosed
  simp only [Set.mem_ofPred_eq]
  rw [winding_congr fun s hs => h5 s (List.mem_flatten.mpr ⟨l, hl, hs⟩)]

theorem enclosed_congr {l l' : List (Point × Point)} (h : ∀ x y : ℚ, Encloses l x y ↔ Encloses l' x y) :
    enclosed l = enclosed l' := by
  ext ⟨x, y⟩
  obtain ⟨x', y', _, _, _, _, h5⟩ := exists_rational_encloses [l, l'] x y 1 one_pos
  rw [← h5 l (by simp), ← h5 l' (by simp), h]

end TopoGeo
