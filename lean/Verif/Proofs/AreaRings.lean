import Verif.Proofs.Area
import Verif.Proofs.Geo
/-!
# The area that rings and regions enclose
-/

namespace TopoGeo
open Spec MeasureTheory

theorem segs_fst (p : Point) (l : List Point) : ∀ q, (p :: l).getLast? = some q →
    (segs (p :: l)).map (·.1) ++ [q] = p :: l := by
  induction l generalizing p with
  | nil => intro q h; simp [segs] at h ⊢; exact h.symm
  | cons a l ih =>
    intro q h
    rw [List.getLast?_cons_cons] at h
    simp only [segs, List.map_cons, List.cons_append, ih a q h]

theorem segs_snd (p : Point) (l : List Point) : (segs (p :: l)).map (·.2) = l := by
  induction l generalizing p with
  | nil => rfl
  | cons a l ih => simp only [segs, List.map_cons, ih]

theorem segs_perm {l : List Point} {p q : Point} (hp : l.head? = some p) (hq : l.getLast? = some q) :
    ((segs l).map (·.1) ++ [q]).Perm (p :: (segs l).map (·.2)) := by
  cases l with
  | nil => cases hp
  | cons a l =>
    obtain rfl : a = p := by simpa using hp
    rw [segs_fst a l q hq, segs_snd]

theorem circular_segs {ps : List Point} (h : Closed ps) : Circular (segs ps) := by
  unfold Closed at h
  cases hp : ps.head? with
  | none =>
    rw [List.head?_eq_none_iff] at hp
    subst hp
    exact List.Perm.refl _
  | some p =>
    have := segs_perm hp (h ▸ hp)
    exact List.Perm.cons_inv ((List.perm_append_singleton p _).symm.trans this)

theorem Circular.append {l l' : List (Point × Point)} (h : Circular l) (h' : Circular l') : Circular (l ++ l') := by
  unfold Circular
  rw [List.map_append, List.map_append]
  exact List.Perm.append h h'

theorem Circular.flatMap {α : Type} {f : α → List (Point × Point)} {l : List α} (h : ∀ a ∈ l, Circular (f a)) :
    Circular (l.flatMap f) := by
  induction l with
  | nil => exact List.Perm.refl _
  | cons a l ih =>
    rw [List.flatMap_cons]
    exact (h a (by simp)).append (ih fun b hb => h b (by simp [hb]))

theorem leads_perm {paths : List (List Point)} {a b : Point} (h : Leads a paths b) :
    ((paths.flatMap segs).map (·.1) ++ [b]).Perm (a :: (paths.flatMap segs).map (·.2)) := by
  induction paths generalizing a with
  | nil =>
    obtain rfl : a = b := h
    exact List.Perm.refl _
  | cons e paths ih =>
    obtain ⟨h1, c, h2, h3⟩ := h
    have h4 := segs_perm h1 h2
    have h5 := ih h3
    rw [List.flatMap_cons, List.map_append, List.map_append, List.append_assoc]
    refine (List.Perm.append_left _ h5).trans ?_
    rw [← List.singleton_append, ← List.append_assoc]
    exact (List.Perm.append_right _ h4)

theorem circular_closed {paths : List (List Point)} (h : ClosedRing paths) : Circular (paths.flatMap segs) := by
  obtain ⟨_, a, ha⟩ := h
  exact List.Perm.cons_inv ((List.perm_append_singleton a _).symm.trans (leads_perm ha))

theorem circular_ring {r : Ring} (h : RingClosed r) : Circular (ringSegs r) := by
  cases r with
  | points ps => exact circular_segs h
  | edges es => exact circular_closed h

theorem shoelace_eq_sum (ps : List Point) : shoelace ps = ((segs ps).map fun s => cross s.1 s.2).sum := by
  induction ps with
  | nil => rfl
  | cons p l ih =>
    cases l with
    | nil => rfl
    | cons q l => simp only [shoelace, segs, List.map_cons, List.sum_cons, ih]

theorem shoelaceEdges_eq_sum (es : List (List Point)) :
    shoelaceEdges es = ((es.flatMap segs).map fun s => cross s.1 s.2).sum := by
  unfold shoelaceEdges
  induction es with
  | nil => rfl
  | cons e es ih => rw [List.map_cons, List.sum_cons, ih, List.flatMap_cons, List.map_append, List.sum_append, shoelace_eq_sum]

theorem ringShoelace_eq_sum (r : Ring) : ringShoelace r = ((ringSegs r).map fun s => cross s.1 s.2).sum := by
  cases r with
  | points ps => exact shoelace_eq_sum ps
  | edges es => exact shoelaceEdges_eq_sum es

theorem winding_append (l l' : List (Point × Point)) (x y : ℝ) : winding (l ++ l') x y = winding l x y + winding l' x y := by
  unfold winding; rw [List.map_append, List.sum_append]

theorem measurable_winding {l : List (Point × Point)} (h : Circular l) (k : ℤ) :
    NullMeasurableSet {p : ℝ × ℝ | winding l p.1 p.2 = k} := by
  have h1 := (winding_integral h).1.aestronglyMeasurable.aemeasurable
  have h2 := h1.nullMeasurable (measurableSet_singleton (k : ℝ))
  have h3 : {p : ℝ × ℝ | winding l p.1 p.2 = k} = (fun p : ℝ × ℝ => (winding l p.1 p.2 : ℝ)) ⁻¹' {(k : ℝ)} := by
    ext p; simp
  rw [h3]; exact h2

/-- What segments enclose that wind once around everything. -/
theorem area_of_windsOnce {l : List (Point × Point)} (h : Circular l) (hw : WindsOnce l) :
    areaOf (enclosed l) = ENNReal.ofReal (((l.map fun s => cross s.1 s.2).sum : ℤ) / 2) := by
  have h1 : enclosed l = {p : ℝ × ℝ | winding l p.1 p.2 = 1} := by
    ext p
    simp only [enclosed, Set.mem_ofPred_eq]
    rcases hw p.1 p.2 with h0 | h0 <;> simp [h0]
  have h2 : (fun p : ℝ × ℝ => (winding l p.1 p.2 : ℝ)) = (enclosed l).indicator fun _ => (1 : ℝ) := by
    funext p
    rw [h1]
    by_cases hp : winding l p.1 p.2 = 1
    · rw [Set.indicator_of_mem (by exact hp), hp]; simp
    · rw [Set.indicator_of_notMem (by exact hp), (hw p.1 p.2).resolve_right hp]; simp
  have h3 := (winding_integral h).2
  have hm := measurable_winding h 1
  rw [← h1] at hm
  have h4 := (winding_integral h).1
  have hfin : volume (enclosed l) ≠ ⊤ := by
    refine ((measure_mono ?_).trans_lt (h4.measure_gt_lt_top (ε := 1 / 2) (by norm_num))).ne
    intro p hp
    rw [h1] at hp
    have hp' : winding l p.1 p.2 = 1 := hp
    simp only [Set.mem_ofPred_eq, hp']
    norm_num
  rw [← h3, h2, integral_indicator₀ hm]
  simp [areaOf, Measure.real, ENNReal.ofReal_toReal hfin]

theorem turn_swap (x y : ℝ) (s : Point × Point) : turn x y s.swap = -turn x y s := by
  classical
  by_cases he : s.1.yi = s.2.yi
  · rw [turn_eq, turn_eq]
    unfold above
    simp [he]
  · rw [turn_eq, turn_eq, crossX_swap y s he]
    simp only [Prod.fst_swap, Prod.snd_swap]
    split <;> simp

theorem winding_swap (l : List (Point × Point)) (x y : ℝ) : winding (l.map Prod.swap) x y = -winding l x y := by
  unfold winding
  induction l with
  | nil => rfl
  | cons s l ih => simp only [List.map_cons, List.sum_cons, ih, turn_swap]; ring

theorem Circular.swap {l : List (Point × Point)} (h : Circular l) : Circular (l.map Prod.swap) := by
  unfold Circular
  rw [List.map_map, List.map_map]
  exact List.Perm.symm h

theorem area_of_windsOnceBack {l : List (Point × Point)} (h : Circular l) (hw : WindsOnceBack l) :
    areaOf (enclosed l) = ENNReal.ofReal (-((l.map fun s => cross s.1 s.2).sum : ℤ) / 2) := by
  have h1 := area_of_windsOnce h.swap (fun x y => by rw [winding_swap]; rcases hw x y with h0 | h0 <;> simp [h0])
  have h2 : enclosed (l.map Prod.swap) = enclosed l := by
    ext p
    simp only [enclosed, Set.mem_ofPred_eq, winding_swap, odd_neg]
  have h3 : ∀ k : List (Point × Point), ((k.map Prod.swap).map fun s => cross s.1 s.2).sum =
      -(k.map fun s => cross s.1 s.2).sum := by
    intro k
    induction k with
    | nil => rfl
    | cons a k ih =>
      simp only [List.map_cons, List.sum_cons, ih]
      simp only [cross, Prod.fst_swap, Prod.snd_swap]
      ring
  rw [h2, h3] at h1
  rw [h1]; push_cast; rfl

/-- The rule by which rational points are enclosed is the same. -/
theorem encloses_iff (l : List (Point × Point)) (x y : ℚ) : Encloses l x y ↔ ((x : ℝ), (y : ℝ)) ∈ enclosed l := by
  classical
  have h1 : ∀ s : Point × Point, RayCrosses x y s ↔ Odd (turn x y s) := by
    intro s
    have hx : ((x : ℝ) < crossX y s) ↔ x < s.1.xi + (y - s.1.yi) * (s.2.xi - s.1.xi) / (s.2.yi - s.1.yi) := by
      unfold crossX
      exact_mod_cast Iff.rfl
    have hb : ∀ p : Point, ((p.yi : ℝ) ≤ y) ↔ ((p.yi : ℚ) ≤ y) := fun p => by exact_mod_cast Iff.rfl
    rw [turn_eq]
    unfold RayCrosses above
    simp only [hx, hb]
    by_cases h2 : x < s.1.xi + (y - s.1.yi) * (s.2.xi - s.1.xi) / (s.2.yi - s.1.yi)
    · simp only [h2, and_true, if_true]
      by_cases ha : (s.1.yi : ℚ) ≤ y <;> by_cases hc : (s.2.yi : ℚ) ≤ y
      · simp [ha, hc, not_lt.mpr ha, not_lt.mpr hc]
      · simp [ha, hc, not_le.mp hc]
      · simp [ha, hc, not_le.mp ha]
      · simp [ha, hc]
    · simp [h2]
  unfold Encloses enclosed winding
  simp only [Set.mem_ofPred_eq]
  induction l with
  | nil => simp
  | cons s l ih =>
    rw [List.countP_cons, List.map_cons, List.sum_cons, Int.odd_add, ← Int.not_odd_iff_even, ← h1 s,
      Nat.odd_add, ← Nat.not_odd_iff_even]
    by_cases hs : RayCrosses x y s
    · simpa [hs] using not_congr ih
    · simpa [hs] using ih

end TopoGeo
