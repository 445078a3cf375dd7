import Verif.Proofs.RealArea
import Verif.Proofs.AreaRings
import Verif.Spec.RealPlane
/-!
# Polygons whose vertices are moved a little
-/

namespace TopoGeo
open Spec MeasureTheory

theorem segsR_cons (p q : ℝ × ℝ) (l : List (ℝ × ℝ)) : segsR (p :: q :: l) = (p, q) :: segsR (q :: l) := rfl

theorem windingR_cons (s : RSeg) (l : List RSeg) (x y : ℝ) : windingR (s :: l) x y = turnR x y s + windingR l x y := by
  simp [windingR]

/-- The triangles between a path and the same path with its points moved. -/
def stripTris : List RSeg → List (List RSeg)
  | v :: w :: l => triR v.1 w.1 w.2 :: triR v.1 w.2 v.2 :: stripTris (w :: l)
  | _ => []

theorem turnR_back (x y : ℝ) (a b : ℝ × ℝ) : turnR x y (b, a) = -turnR x y (a, b) := turnR_swap x y (a, b)

theorem turnR_self (x y : ℝ) (a : ℝ × ℝ) : turnR x y (a, a) = 0 := by rw [turnR_eq]; simp

theorem triR_winding (x y : ℝ) (a b c : ℝ × ℝ) :
    windingR (triR a b c) x y = turnR x y (a, b) + (turnR x y (b, c) + turnR x y (c, a)) := by
  simp [windingR, triR]

/-- What lies between the two paths is what the triangles wind around. -/
theorem windingR_stripTris (x y : ℝ) (v : RSeg) (l : List RSeg) : ∀ w, (v :: l).getLast? = some w →
    windingR (segsR ((v :: l).map (·.1))) x y - windingR (segsR ((v :: l).map (·.2))) x y + turnR x y w - turnR x y v =
      ((stripTris (v :: l)).map fun t => windingR t x y).sum := by
  induction l generalizing v with
  | nil =>
    intro w hw
    obtain rfl : v = w := by simpa using hw
    simp [segsR, stripTris, windingR]
  | cons u l ih =>
    intro w hw
    rw [List.getLast?_cons_cons] at hw
    have ih := ih u w hw
    simp only [List.map_cons, stripTris, List.sum_cons] at ih ⊢
    rw [segsR_cons, segsR_cons, windingR_cons, windingR_cons, triR_winding, triR_winding, ← ih]
    have h1 := turnR_back x y v.1 u.2
    have h2 := turnR_back x y v.2 u.2
    have h3 := turnR_back x y v.1 v.2
    have h4 : ∀ s : RSeg, turnR x y s = turnR x y (s.1, s.2) := fun _ => rfl
    rw [h1, h2, h3, h4 w, h4 v, h4 u]
    ring

theorem odd_sum_mem (l : List ℤ) (h : Odd l.sum) : ∃ a ∈ l, Odd a := by
  induction l with
  | nil => simp at h
  | cons a l ih =>
    by_cases ha : Odd a
    · exact ⟨a, by simp, ha⟩
    · rw [List.sum_cons, Int.odd_add] at h
      have h1 : Odd l.sum := by
        by_contra hc
        exact ha (h.mpr (by simpa using hc))
      obtain ⟨b, hb, hb'⟩ := ih h1
      exact ⟨b, by simp [hb], hb'⟩

theorem areaOf_exists_le {α : Type} (l : List α) (f : α → Set (ℝ × ℝ)) :
    areaOf {p | ∃ a ∈ l, p ∈ f a} ≤ (l.map fun a => areaOf (f a)).sum := by
  induction l with
  | nil => simp [areaOf]
  | cons a l ih =>
    have h1 : {p | ∃ b ∈ a :: l, p ∈ f b} ⊆ f a ∪ {p | ∃ b ∈ l, p ∈ f b} := by
      rintro p ⟨b, hb, hp⟩
      rcases List.mem_cons.mp hb with rfl | hb
      · exact .inl hp
      · exact .inr ⟨b, hb, hp⟩
    rw [List.map_cons, List.sum_cons]
    exact (measure_mono h1).trans ((measure_union_le _ _).trans (add_le_add le_rfl ih))

/-- The paths enclose the same up to the triangles between them. -/
theorem stripTris_cover (ws : List RSeg) (hc : ws.head? = ws.getLast?) :
    changed (enclosedR (segsR (ws.map (·.1)))) (enclosedR (segsR (ws.map (·.2)))) ⊆
      {p | ∃ t ∈ stripTris ws, p ∈ enclosedR t} := by
  intro p hp
  cases ws with
  | nil => simp [changed, symmDiff] at hp
  | cons v l =>
    have h1 := windingR_stripTris p.1 p.2 v l v (by rw [← hc]; rfl)
    have h2 : Odd ((stripTris (v :: l)).map fun t => windingR t p.1 p.2).sum := by
      rw [← h1, add_sub_assoc, sub_self, add_zero, Int.odd_sub]
      simp only [changed, Set.mem_symmDiff, enclosedR, Set.mem_ofPred_eq] at hp
      rw [← Int.not_odd_iff_even]
      tauto
    obtain ⟨a, ha, ha'⟩ := odd_sum_mem _ h2
    obtain ⟨t, ht, rfl⟩ := List.mem_map.mp ha
    exact ⟨t, ht, ha'⟩

/-- The point is moved by at most `d` along each axis, and is to the right of the
axis before and after. -/
def MovedBy (d : ℝ) (w : RSeg) : Prop := RightR w ∧ |w.2.1 - w.1.1| ≤ d ∧ |w.2.2 - w.1.2| ≤ d

theorem cross_le (d a b u v : ℝ) (hu : |u| ≤ d) (hv : |v| ≤ d) : |a * v - u * b| ≤ d * (|a| + |b|) := by
  have h1 : |a * v - u * b| ≤ |a * v| + |u * b| := abs_sub _ _
  rw [abs_mul, abs_mul] at h1
  nlinarith [mul_le_mul_of_nonneg_left hv (abs_nonneg a), mul_le_mul_of_nonneg_right hu (abs_nonneg b)]

theorem lengthR_cons (p q : ℝ × ℝ) (l : List (ℝ × ℝ)) :
    lengthR (p :: q :: l) = |q.1 - p.1| + |q.2 - p.2| + lengthR (q :: l) := by
  simp [lengthR, segsR_cons]

theorem lengthR_nonneg (l : List (ℝ × ℝ)) : 0 ≤ lengthR l := by
  unfold lengthR
  apply List.sum_nonneg
  intro a ha
  obtain ⟨s, _, rfl⟩ := List.mem_map.mp ha
  positivity

theorem stripTris_area (d : ℝ) (hd : 0 ≤ d) (v : RSeg) (ws : List RSeg) (hm : ∀ w ∈ v :: ws, MovedBy d w) :
    ((stripTris (v :: ws)).map fun t => areaOf (enclosedR t)).sum ≤
      ENNReal.ofReal (d * (lengthR ((v :: ws).map (·.1)) + lengthR ((v :: ws).map (·.2))) / 2) := by
  induction ws generalizing v with
  | nil => simp [stripTris]
  | cons w ws ih =>
    have ih := ih w fun u hu => hm u (by simp [hu])
    obtain ⟨⟨v1, v2⟩, v3, v4⟩ := hm v (by simp)
    obtain ⟨⟨w1, w2⟩, w3, w4⟩ := hm w (by simp)
    simp only [stripTris, List.map_cons, List.sum_cons] at ih ⊢
    rw [lengthR_cons, lengthR_cons, triangleR_area _ _ _ v1 w1 w2, triangleR_area _ _ _ v1 w2 v2]
    have h1 : |triCrossR v.1 w.1 w.2| ≤ d * (|w.1.1 - v.1.1| + |w.1.2 - v.1.2|) := by
      have : triCrossR v.1 w.1 w.2 = (w.1.1 - v.1.1) * (w.2.2 - w.1.2) - (w.2.1 - w.1.1) * (w.1.2 - v.1.2) := by
        unfold triCrossR; ring
      rw [this]; exact cross_le d _ _ _ _ w3 w4
    have h2 : |triCrossR v.1 w.2 v.2| ≤ d * (|w.2.1 - v.2.1| + |w.2.2 - v.2.2|) := by
      have : triCrossR v.1 w.2 v.2 = (w.2.1 - v.2.1) * (v.2.2 - v.1.2) - (v.2.1 - v.1.1) * (w.2.2 - v.2.2) := by
        unfold triCrossR; ring
      rw [this]; exact cross_le d _ _ _ _ v3 v4
    refine (add_le_add (ENNReal.ofReal_le_ofReal (div_le_div_of_nonneg_right h1 two_pos.le))
      (add_le_add (ENNReal.ofReal_le_ofReal (div_le_div_of_nonneg_right h2 two_pos.le)) ih)).trans ?_
    have n1 := lengthR_nonneg (w.1 :: ws.map (·.1))
    have n2 := lengthR_nonneg (w.2 :: ws.map (·.2))
    rw [← ENNReal.ofReal_add (by positivity) (by positivity), ← ENNReal.ofReal_add (by positivity) (by positivity)]
    apply ENNReal.ofReal_le_ofReal
    linarith

/-- Moving the points of a closed path by at most `d` changes what it encloses by
at most `d` times the mean of the lengths. -/
theorem moved_area (d : ℝ) (hd : 0 ≤ d) (ws : List RSeg) (hc : ws.head? = ws.getLast?) (hm : ∀ w ∈ ws, MovedBy d w) :
    areaOf (changed (enclosedR (segsR (ws.map (·.1)))) (enclosedR (segsR (ws.map (·.2))))) ≤
      ENNReal.ofReal (d * (lengthR (ws.map (·.1)) + lengthR (ws.map (·.2))) / 2) := by
  refine (measure_mono (stripTris_cover ws hc)).trans ((areaOf_exists_le _ _).trans ?_)
  cases ws with
  | nil => simp [stripTris]
  | cons v ws => exact stripTris_area d hd v ws hm

theorem turn_onPlane (x y : ℝ) (s : Point × Point) : turnR x y (onPlane s.1, onPlane s.2) = turn x y s := rfl

theorem winding_onPlane (x y : ℝ) (l : List Point) : windingR (segsR (l.map onPlane)) x y = winding (segs l) x y := by
  induction l with
  | nil => rfl
  | cons p l ih =>
    cases l with
    | nil => rfl
    | cons q l =>
      simp only [List.map_cons, segsR_cons, windingR_cons, segs, winding, List.sum_cons] at ih ⊢
      rw [ih]
      rfl

theorem enclosed_onPlane (l : List Point) : enclosedR (segsR (l.map onPlane)) = enclosed (segs l) := by
  ext p
  simp only [enclosedR, enclosed, Set.mem_ofPred_eq, winding_onPlane]

end TopoGeo
