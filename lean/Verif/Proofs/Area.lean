import Mathlib.MeasureTheory.Integral.IntervalIntegral.FundThmCalculus
import Mathlib.Analysis.SpecialFunctions.Integrals.Basic
import Mathlib.MeasureTheory.Integral.Prod
import Verif.Spec.Area
/-!
# Green's theorem for polygons
-/

namespace TopoGeo
open Spec MeasureTheory

/-- `1` from the height of the point on. -/
noncomputable def above (y : ℝ) (p : Point) : ℤ := open Classical in if (p.yi : ℝ) ≤ y then 1 else 0

theorem turn_eq (x y : ℝ) (s : Point × Point) :
    turn x y s = open Classical in if x < crossX y s then above y s.1 - above y s.2 else 0 := by
  classical
  unfold turn above
  by_cases h1 : (s.1.yi : ℝ) ≤ y <;> by_cases h2 : (s.2.yi : ℝ) ≤ y <;>
    simp [h1, h2, not_lt.mpr, not_le.mp] 

/-- Every point is as often a start as an end of a segment. -/
def Circular (l : List (Point × Point)) : Prop := (l.map (·.1)).Perm (l.map (·.2))

theorem Circular.sum {β : Type} [AddCommGroup β] {l : List (Point × Point)} (h : Circular l) (f : Point → β) :
    (l.map fun s => f s.1 - f s.2).sum = 0 := by
  have h1 := (h.map f).sum_eq
  rw [List.map_map, List.map_map] at h1
  have h2 : ∀ k : List (Point × Point), (k.map fun s => f s.1 - f s.2).sum =
      (k.map (f ∘ fun x => x.1)).sum - (k.map (f ∘ fun x => x.2)).sum := by
    intro k
    induction k with
    | nil => simp
    | cons a k ih =>
      simp only [List.map_cons, List.sum_cons, ih, Function.comp_apply]
      abel
  rw [h2, h1, sub_self]

/-- The part of the plane between a rising segment and the axis. -/
def underSeg (s : Point × Point) : Set (ℝ × ℝ) :=
  {p | ((s.1.yi : ℝ) ≤ p.2 ∧ p.2 < s.2.yi) ∧ 0 ≤ p.1 ∧ p.1 < crossX p.2 s}

theorem Point.xi_nonneg' (p : Point) : (0 : ℝ) ≤ p.xi := by
  have : 0 ≤ p.xi := by simp [Point.xi]
  exact_mod_cast this

theorem crossX_between (s : Point × Point) (y : ℝ) (h1 : (s.1.yi : ℝ) ≤ y) (h2 : y < s.2.yi) :
    0 ≤ crossX y s ∧ crossX y s ≤ s.1.xi + s.2.xi := by
  have hd : (0 : ℝ) < s.2.yi - s.1.yi := by linarith
  have ha := Point.xi_nonneg' s.1
  have hb := Point.xi_nonneg' s.2
  have hc : crossX y s = (s.1.xi * (s.2.yi - y) + s.2.xi * (y - s.1.yi)) / (s.2.yi - s.1.yi) := by
    unfold crossX
    field_simp
    ring
  rw [hc]
  constructor
  · apply div_nonneg _ hd.le
    apply add_nonneg <;> apply mul_nonneg <;> linarith
  · rw [div_le_iff₀ hd]
    nlinarith [mul_nonneg ha (sub_nonneg.mpr h1), mul_nonneg hb (sub_nonneg.mpr h2.le)]

theorem measurableSet_underSeg (s : Point × Point) : MeasurableSet (underSeg s) := by
  have hc : Continuous fun p : ℝ × ℝ => crossX p.2 s := by unfold crossX; fun_prop
  refine MeasurableSet.inter (MeasurableSet.inter ?_ ?_) (MeasurableSet.inter ?_ ?_)
  · exact measurableSet_le measurable_const measurable_snd
  · exact measurableSet_lt measurable_snd measurable_const
  · exact measurableSet_le measurable_const measurable_fst
  · exact measurableSet_lt measurable_fst hc.measurable

theorem volume_underSeg_lt (s : Point × Point) : volume (underSeg s) < ⊤ := by
  have hsub : underSeg s ⊆ Set.Icc (0, (s.1.yi : ℝ)) ((s.1.xi : ℝ) + s.2.xi, (s.2.yi : ℝ)) := by
    rintro ⟨x, y⟩ ⟨⟨h1, h2⟩, h3, h4⟩
    have := crossX_between s y h1 h2
    simp only at h1 h2 h3 h4
    exact ⟨⟨h3, h1⟩, ⟨by simp only; linarith, h2.le⟩⟩
  exact lt_of_le_of_lt (measure_mono hsub) isCompact_Icc.measure_lt_top

theorem integral_underSeg (s : Point × Point) (h : s.1.yi ≤ s.2.yi) :
    ∫ p, (underSeg s).indicator (fun _ => (1 : ℝ)) p = (s.1.xi + s.2.xi) * (s.2.yi - s.1.yi) / 2 := by
  have hint : Integrable ((underSeg s).indicator (fun _ => (1 : ℝ))) (volume.prod volume) := by
    refine (integrable_indicator_iff (measurableSet_underSeg s)).mpr ?_
    exact integrableOn_const (volume_underSeg_lt s).ne
  rw [Measure.volume_eq_prod, integral_prod_symm _ hint]
  have hin : ∀ y : ℝ, ∫ x : ℝ, (underSeg s).indicator (fun _ => (1 : ℝ)) (x, y) =
      (Set.Ico (s.1.yi : ℝ) s.2.yi).indicator (fun y => crossX y s) y := by
    intro y
    by_cases hy : y ∈ Set.Ico (s.1.yi : ℝ) s.2.yi
    · rw [Set.indicator_of_mem hy]
      have he : (fun x : ℝ => (underSeg s).indicator (fun _ => (1 : ℝ)) (x, y)) =
          (Set.Ico 0 (crossX y s)).indicator fun _ => (1 : ℝ) := by
        funext x
        by_cases hx : x ∈ Set.Ico 0 (crossX y s)
        · rw [Set.indicator_of_mem hx, Set.indicator_of_mem]
          exact ⟨hy, hx⟩
        · rw [Set.indicator_of_notMem hx, Set.indicator_of_notMem]
          exact fun hh => hx hh.2
      rw [he, integral_indicator measurableSet_Ico]
      simp [(crossX_between s y hy.1 hy.2).1]
    · rw [Set.indicator_of_notMem hy]
      have he : (fun x : ℝ => (underSeg s).indicator (fun _ => (1 : ℝ)) (x, y)) = fun _ => 0 := by
        funext x
        rw [Set.indicator_of_notMem]
        exact fun hh => hy hh.1
      rw [he]; simp
  simp only [hin]
  rw [integral_indicator measurableSet_Ico]
  have hle : (s.1.yi : ℝ) ≤ s.2.yi := by exact_mod_cast h
  rw [integral_Ico_eq_integral_Ioc, ← intervalIntegral.integral_of_le hle]
  rcases eq_or_lt_of_le hle with he | hlt
  · rw [he]; simp
  · have hne : (s.2.yi : ℝ) - s.1.yi ≠ 0 := by linarith
    have hc : ∀ y : ℝ, crossX y s = (s.1.xi - s.1.yi * ((s.2.xi - s.1.xi) / (s.2.yi - s.1.yi)) : ℝ) +
        ((s.2.xi - s.1.xi) / (s.2.yi - s.1.yi)) * y := by
      intro y; unfold crossX; ring
    simp only [hc]
    rw [intervalIntegral.integral_add (by apply Continuous.intervalIntegrable; fun_prop)
      (by apply Continuous.intervalIntegrable; fun_prop),
      intervalIntegral.integral_const, intervalIntegral.integral_const_mul, integral_id]
    simp only [smul_eq_mul]
    field_simp
    ring

/-- What a segment contributes to the winding numbers to the right of the axis. -/
noncomputable def signedStrip (s : Point × Point) (p : ℝ × ℝ) : ℝ :=
  if s.1.yi ≤ s.2.yi then (underSeg s).indicator (fun _ => 1) p else -(underSeg s.swap).indicator (fun _ => 1) p

theorem crossX_swap (y : ℝ) (s : Point × Point) (h : s.1.yi ≠ s.2.yi) : crossX y s.swap = crossX y s := by
  have h1 : (s.1.yi : ℝ) - s.2.yi ≠ 0 := by
    rw [sub_ne_zero]; exact_mod_cast h
  have h2 : (s.2.yi : ℝ) - s.1.yi ≠ 0 := by
    rw [sub_ne_zero]; exact_mod_cast h.symm
  unfold crossX
  simp only [Prod.fst_swap, Prod.snd_swap]
  have h3 : (s.1.yi : ℝ) - s.2.yi = -(s.2.yi - s.1.yi) := by ring
  rw [h3]
  field_simp
  ring

theorem turn_pos (s : Point × Point) (p : ℝ × ℝ) (h0 : 0 ≤ p.1) : (turn p.1 p.2 s : ℝ) = signedStrip s p := by
  classical
  unfold turn signedStrip
  by_cases hy : s.1.yi ≤ s.2.yi
  · have hyr : (s.1.yi : ℝ) ≤ s.2.yi := by exact_mod_cast hy
    have hno : ¬ ((s.2.yi : ℝ) ≤ p.2 ∧ p.2 < s.1.yi) := by rintro ⟨h1, h2⟩; linarith
    rw [if_pos hy, if_neg hno]
    by_cases hs : p ∈ underSeg s
    · rw [Set.indicator_of_mem hs, if_pos hs.2.2, if_pos hs.1]; simp
    · rw [Set.indicator_of_notMem hs]
      by_cases hx : p.1 < crossX p.2 s
      · rw [if_pos hx, if_neg (fun hc => hs ⟨hc, h0, hx⟩)]; simp
      · rw [if_neg hx]; simp
  · have hyr : (s.2.yi : ℝ) < s.1.yi := by exact_mod_cast not_le.mp hy
    have hno : ¬ ((s.1.yi : ℝ) ≤ p.2 ∧ p.2 < s.2.yi) := by rintro ⟨h1, h2⟩; linarith
    have hcx := crossX_swap p.2 s (fun hc => hy hc.le)
    rw [if_neg hy, if_neg hno]
    by_cases hs : p ∈ underSeg s.swap
    · rw [Set.indicator_of_mem hs, if_pos (hcx ▸ hs.2.2),
        if_pos (show (s.2.yi : ℝ) ≤ p.2 ∧ p.2 < s.1.yi from hs.1)]; simp
    · rw [Set.indicator_of_notMem hs]
      by_cases hx : p.1 < crossX p.2 s
      · rw [if_pos hx, if_neg (fun hc : (s.2.yi : ℝ) ≤ p.2 ∧ p.2 < s.1.yi => hs ⟨hc, h0, hcx ▸ hx⟩)]; simp
      · rw [if_neg hx]; simp

theorem signedStrip_neg (s : Point × Point) (p : ℝ × ℝ) (h0 : p.1 < 0) : signedStrip s p = 0 := by
  unfold signedStrip
  have h1 : ∀ u, p ∉ underSeg u := fun u hc => absurd hc.2.1 (not_le.mpr h0)
  simp [h1]

theorem turn_left (s : Point × Point) (x y : ℝ) (h0 : x < 0) : turn x y s = above y s.1 - above y s.2 := by
  classical
  rw [turn_eq]
  by_cases hx : x < crossX y s
  · rw [if_pos hx]
  · rw [if_neg hx]
    by_contra hne
    apply hx
    refine lt_of_lt_of_le h0 ?_
    unfold above at hne
    by_cases h1 : (s.1.yi : ℝ) ≤ y <;> by_cases h2 : (s.2.yi : ℝ) ≤ y
    · simp [h1, h2] at hne
    · exact (crossX_between s y h1 (not_le.mp h2)).1
    · rw [← crossX_swap y s (fun hc => by rw [hc] at h1; exact h1 h2)]
      exact (crossX_between s.swap y h2 (not_le.mp h1)).1
    · simp [h1, h2] at hne

theorem winding_eq {l : List (Point × Point)} (h : Circular l) (p : ℝ × ℝ) :
    (winding l p.1 p.2 : ℝ) = (l.map fun s => signedStrip s p).sum := by
  unfold winding
  by_cases h0 : 0 ≤ p.1
  · rw [Int.cast_list_sum, List.map_map]
    congr 1
    apply List.map_congr_left
    intro s _
    exact turn_pos s p h0
  · have h0' := not_le.mp h0
    have h1 : l.map (turn p.1 p.2) = l.map fun s => above p.2 s.1 - above p.2 s.2 :=
      List.map_congr_left fun s _ => turn_left s p.1 p.2 h0'
    have h2 : l.map (fun s => signedStrip s p) = l.map fun _ => (0 : ℝ) :=
      List.map_congr_left fun s _ => signedStrip_neg s p h0'
    rw [h1, h.sum, h2]
    simp

theorem integrable_underSeg (s : Point × Point) : Integrable ((underSeg s).indicator (fun _ => (1 : ℝ))) := by
  refine (integrable_indicator_iff (measurableSet_underSeg s)).mpr ?_
  exact integrableOn_const (volume_underSeg_lt s).ne

theorem integrable_signedStrip (s : Point × Point) : Integrable (signedStrip s) := by
  by_cases hy : s.1.yi ≤ s.2.yi
  · have : signedStrip s = (underSeg s).indicator (fun _ => (1 : ℝ)) := by
      funext p; simp [signedStrip, hy]
    rw [this]; exact integrable_underSeg s
  · have : signedStrip s = -(underSeg s.swap).indicator (fun _ => (1 : ℝ)) := by
      funext p; simp [signedStrip, hy]
    rw [this]; exact (integrable_underSeg s.swap).neg

theorem integral_signedStrip (s : Point × Point) :
    ∫ p, signedStrip s p = (s.1.xi + s.2.xi) * (s.2.yi - s.1.yi) / 2 := by
  by_cases hy : s.1.yi ≤ s.2.yi
  · simp only [signedStrip, hy, if_true]
    exact integral_underSeg s hy
  · simp only [signedStrip, hy, if_false]
    rw [integral_neg, integral_underSeg s.swap (not_le.mp hy).le]
    simp only [Prod.fst_swap, Prod.snd_swap]
    ring

theorem integrable_integral_sum (l : List (Point × Point)) :
    Integrable (fun p => (l.map fun s => signedStrip s p).sum) ∧
    ∫ p, (l.map fun s => signedStrip s p).sum =
      (l.map fun s => ((s.1.xi : ℝ) + s.2.xi) * (s.2.yi - s.1.yi) / 2).sum := by
  induction l with
  | nil => simp
  | cons s l ih =>
    simp only [List.map_cons, List.sum_cons]
    refine ⟨(integrable_signedStrip s).add ih.1, ?_⟩
    rw [integral_add (integrable_signedStrip s) ih.1, integral_signedStrip, ih.2]

/-- Green's theorem: the winding numbers of a circular list of segments add up to
half of the sum of the cross products. -/
theorem winding_integral {l : List (Point × Point)} (h : Circular l) :
    Integrable (fun p : ℝ × ℝ => (winding l p.1 p.2 : ℝ)) ∧
    ∫ p : ℝ × ℝ, (winding l p.1 p.2 : ℝ) = ((l.map fun s => cross s.1 s.2).sum : ℤ) / 2 := by
  have h1 : (fun p : ℝ × ℝ => (winding l p.1 p.2 : ℝ)) = fun p => (l.map fun s => signedStrip s p).sum := by
    funext p; exact winding_eq h p
  rw [h1]
  refine ⟨(integrable_integral_sum l).1, ?_⟩
  rw [(integrable_integral_sum l).2]
  have h2 := h.sum fun p => ((p.xi : ℝ) * p.yi) / 2
  have h3 : ∀ k : List (Point × Point), (k.map fun s => ((s.1.xi : ℝ) + s.2.xi) * (s.2.yi - s.1.yi) / 2).sum =
      ((k.map fun s => cross s.1 s.2).sum : ℤ) / 2 -
        (k.map fun s => ((s.1.xi : ℝ) * s.1.yi) / 2 - ((s.2.xi : ℝ) * s.2.yi) / 2).sum := by
    intro k
    induction k with
    | nil => simp
    | cons a k ih =>
      simp only [List.map_cons, List.sum_cons, ih]
      have : cross a.1 a.2 = a.1.xi * a.2.yi - a.2.xi * a.1.yi := rfl
      rw [this]
      push_cast
      ring
  rw [h3, h2, sub_zero]

end TopoGeo
