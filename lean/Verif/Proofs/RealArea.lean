import Mathlib.MeasureTheory.Integral.IntervalIntegral.FundThmCalculus
import Mathlib.Analysis.SpecialFunctions.Integrals.Basic
import Mathlib.MeasureTheory.Integral.Prod
import Verif.Spec.QuantizedArea
/-!
# Areas of polygons with real vertices

The counterpart of `Proofs/Area.lean` for vertices that are not on the grid.
-/

namespace TopoGeo
open Spec MeasureTheory

def crossR (p q : ℝ × ℝ) : ℝ := p.1 * q.2 - q.1 * p.2

/-- `1` from the height of the point on. -/
noncomputable def aboveR (y : ℝ) (p : ℝ × ℝ) : ℤ := open Classical in if p.2 ≤ y then 1 else 0

theorem turnR_eq (x y : ℝ) (s : RSeg) :
    turnR x y s = open Classical in if x < crossXR y s then aboveR y s.1 - aboveR y s.2 else 0 := by
  classical
  unfold turnR aboveR
  by_cases h1 : s.1.2 ≤ y <;> by_cases h2 : s.2.2 ≤ y <;>
    simp [h1, h2, not_lt.mpr, not_le.mp] 

/-- Every point is as often a start as an end of a segment. -/
def CircularR (l : List RSeg) : Prop := (l.map (·.1)).Perm (l.map (·.2))

theorem CircularR.sum {β : Type} [AddCommGroup β] {l : List RSeg} (h : CircularR l) (f : ℝ × ℝ → β) :
    (l.map fun s => f s.1 - f s.2).sum = 0 := by
  have h1 := (h.map f).sum_eq
  rw [List.map_map, List.map_map] at h1
  have h2 : ∀ k : List RSeg, (k.map fun s => f s.1 - f s.2).sum =
      (k.map (f ∘ fun x => x.1)).sum - (k.map (f ∘ fun x => x.2)).sum := by
    intro k
    induction k with
    | nil => simp
    | cons a k ih =>
      simp only [List.map_cons, List.sum_cons, ih, Function.comp_apply]
      abel
  rw [h2, h1, sub_self]

/-- The part of the plane between a rising segment and the axis. -/
def underSegR (s : RSeg) : Set (ℝ × ℝ) :=
  {p | (s.1.2 ≤ p.2 ∧ p.2 < s.2.2) ∧ 0 ≤ p.1 ∧ p.1 < crossXR p.2 s}

/-- The segment is to the right of the axis. -/
def RightR (s : RSeg) : Prop := 0 ≤ s.1.1 ∧ 0 ≤ s.2.1

theorem RightR.swap {s : RSeg} (h : RightR s) : RightR s.swap := ⟨h.2, h.1⟩

theorem crossXR_between {s : RSeg} (h0 : RightR s) (y : ℝ) (h1 : s.1.2 ≤ y) (h2 : y < s.2.2) :
    0 ≤ crossXR y s ∧ crossXR y s ≤ s.1.1 + s.2.1 := by
  have hd : (0 : ℝ) < s.2.2 - s.1.2 := by linarith
  obtain ⟨ha, hb⟩ := h0
  have hc : crossXR y s = (s.1.1 * (s.2.2 - y) + s.2.1 * (y - s.1.2)) / (s.2.2 - s.1.2) := by
    unfold crossXR
    field_simp
    ring
  rw [hc]
  constructor
  · apply div_nonneg _ hd.le
    apply add_nonneg <;> apply mul_nonneg <;> linarith
  · rw [div_le_iff₀ hd]
    nlinarith [mul_nonneg ha (sub_nonneg.mpr h1), mul_nonneg hb (sub_nonneg.mpr h2.le)]

theorem measurableSet_underSegR (s : RSeg) : MeasurableSet (underSegR s) := by
  have hc : Continuous fun p : ℝ × ℝ => crossXR p.2 s := by unfold crossXR; fun_prop
  refine MeasurableSet.inter (MeasurableSet.inter ?_ ?_) (MeasurableSet.inter ?_ ?_)
  · exact measurableSet_le measurable_const measurable_snd
  · exact measurableSet_lt measurable_snd measurable_const
  · exact measurableSet_le measurable_const measurable_fst
  · exact measurableSet_lt measurable_fst hc.measurable

theorem volume_underSegR_lt {s : RSeg} (h0 : RightR s) : volume (underSegR s) < ⊤ := by
  have hsub : underSegR s ⊆ Set.Icc (0, s.1.2) (s.1.1 + s.2.1, s.2.2) := by
    rintro ⟨x, y⟩ ⟨⟨h1, h2⟩, h3, h4⟩
    have := crossXR_between h0 y h1 h2
    simp only at h1 h2 h3 h4
    exact ⟨⟨h3, h1⟩, ⟨by simp only; linarith, h2.le⟩⟩
  exact lt_of_le_of_lt (measure_mono hsub) isCompact_Icc.measure_lt_top

theorem integral_underSegR {s : RSeg} (h0 : RightR s) (h : s.1.2 ≤ s.2.2) :
    ∫ p, (underSegR s).indicator (fun _ => (1 : ℝ)) p = (s.1.1 + s.2.1) * (s.2.2 - s.1.2) / 2 := by
  have hint : Integrable ((underSegR s).indicator (fun _ => (1 : ℝ))) (volume.prod volume) := by
    refine (integrable_indicator_iff (measurableSet_underSegR s)).mpr ?_
    exact integrableOn_const (volume_underSegR_lt h0).ne
  rw [Measure.volume_eq_prod, integral_prod_symm _ hint]
  have hin : ∀ y : ℝ, ∫ x : ℝ, (underSegR s).indicator (fun _ => (1 : ℝ)) (x, y) =
      (Set.Ico s.1.2 s.2.2).indicator (fun y => crossXR y s) y := by
    intro y
    by_cases hy : y ∈ Set.Ico s.1.2 s.2.2
    · rw [Set.indicator_of_mem hy]
      have he : (fun x : ℝ => (underSegR s).indicator (fun _ => (1 : ℝ)) (x, y)) =
          (Set.Ico 0 (crossXR y s)).indicator fun _ => (1 : ℝ) := by
        funext x
        by_cases hx : x ∈ Set.Ico 0 (crossXR y s)
        · rw [Set.indicator_of_mem hx, Set.indicator_of_mem]
          exact ⟨hy, hx⟩
        · rw [Set.indicator_of_notMem hx, Set.indicator_of_notMem]
          exact fun hh => hx hh.2
      rw [he, integral_indicator measurableSet_Ico]
      simp [(crossXR_between h0 y hy.1 hy.2).1]
    · rw [Set.indicator_of_notMem hy]
      have he : (fun x : ℝ => (underSegR s).indicator (fun _ => (1 : ℝ)) (x, y)) = fun _ => 0 := by
        funext x
        rw [Set.indicator_of_notMem]
        exact fun hh => hy hh.1
      rw [he]; simp
  simp only [hin]
  rw [integral_indicator measurableSet_Ico]
  have hle : s.1.2 ≤ s.2.2 := by exact h
  rw [integral_Ico_eq_integral_Ioc, ← intervalIntegral.integral_of_le hle]
  rcases eq_or_lt_of_le hle with he | hlt
  · rw [he]; simp
  · have hne : s.2.2 - s.1.2 ≠ 0 := by linarith
    have hc : ∀ y : ℝ, crossXR y s = (s.1.1 - s.1.2 * ((s.2.1 - s.1.1) / (s.2.2 - s.1.2)) : ℝ) +
        ((s.2.1 - s.1.1) / (s.2.2 - s.1.2)) * y := by
      intro y; unfold crossXR; ring
    simp only [hc]
    rw [intervalIntegral.integral_add (by apply Continuous.intervalIntegrable; fun_prop)
      (by apply Continuous.intervalIntegrable; fun_prop),
      intervalIntegral.integral_const, intervalIntegral.integral_const_mul, integral_id]
    simp only [smul_eq_mul]
    field_simp
    ring

/-- What a segment contributes to the winding numbers to the right of the axis. -/
noncomputable def signedStripR (s : RSeg) (p : ℝ × ℝ) : ℝ :=
  if s.1.2 ≤ s.2.2 then (underSegR s).indicator (fun _ => 1) p else -(underSegR s.swap).indicator (fun _ => 1) p

theorem crossXR_swap (y : ℝ) (s : RSeg) (h : s.1.2 ≠ s.2.2) : crossXR y s.swap = crossXR y s := by
  have h1 : s.1.2 - s.2.2 ≠ 0 := by
    rw [sub_ne_zero]; exact h
  have h2 : s.2.2 - s.1.2 ≠ 0 := by
    rw [sub_ne_zero]; exact h.symm
  unfold crossXR
  simp only [Prod.fst_swap, Prod.snd_swap]
  have h3 : s.1.2 - s.2.2 = -(s.2.2 - s.1.2) := by ring
  rw [h3]
  field_simp
  ring

theorem turnR_pos (s : RSeg) (p : ℝ × ℝ) (h0 : 0 ≤ p.1) : (turnR p.1 p.2 s : ℝ) = signedStripR s p := by
  classical
  unfold turnR signedStripR
  by_cases hy : s.1.2 ≤ s.2.2
  · have hyr : s.1.2 ≤ s.2.2 := by exact hy
    have hno : ¬ (s.2.2 ≤ p.2 ∧ p.2 < s.1.2) := by rintro ⟨h1, h2⟩; linarith
    rw [if_pos hy, if_neg hno]
    by_cases hs : p ∈ underSegR s
    · rw [Set.indicator_of_mem hs, if_pos hs.2.2, if_pos hs.1]; simp
    · rw [Set.indicator_of_notMem hs]
      by_cases hx : p.1 < crossXR p.2 s
      · rw [if_pos hx, if_neg (fun hc => hs ⟨hc, h0, hx⟩)]; simp
      · rw [if_neg hx]; simp
  · have hyr : s.2.2 < s.1.2 := by exact not_le.mp hy
    have hno : ¬ (s.1.2 ≤ p.2 ∧ p.2 < s.2.2) := by rintro ⟨h1, h2⟩; linarith
    have hcx := crossXR_swap p.2 s (fun hc => hy hc.le)
    rw [if_neg hy, if_neg hno]
    by_cases hs : p ∈ underSegR s.swap
    · rw [Set.indicator_of_mem hs, if_pos (hcx ▸ hs.2.2),
        if_pos (show s.2.2 ≤ p.2 ∧ p.2 < s.1.2 from hs.1)]; simp
    · rw [Set.indicator_of_notMem hs]
      by_cases hx : p.1 < crossXR p.2 s
      · rw [if_pos hx, if_neg (fun hc : s.2.2 ≤ p.2 ∧ p.2 < s.1.2 => hs ⟨hc, h0, hcx ▸ hx⟩)]; simp
      · rw [if_neg hx]; simp

theorem signedStripR_neg (s : RSeg) (p : ℝ × ℝ) (h0 : p.1 < 0) : signedStripR s p = 0 := by
  unfold signedStripR
  have h1 : ∀ u, p ∉ underSegR u := fun u hc => absurd hc.2.1 (not_le.mpr h0)
  simp [h1]

theorem turnR_left {s : RSeg} (h0 : RightR s) (x y : ℝ) (hx0 : x < 0) : turnR x y s = aboveR y s.1 - aboveR y s.2 := by
  classical
  rw [turnR_eq]
  by_cases hx : x < crossXR y s
  · rw [if_pos hx]
  · rw [if_neg hx]
    by_contra hne
    apply hx
    refine lt_of_lt_of_le hx0 ?_
    unfold aboveR at hne
    by_cases h1 : s.1.2 ≤ y <;> by_cases h2 : s.2.2 ≤ y
    · simp [h1, h2] at hne
    · exact (crossXR_between h0 y h1 (not_le.mp h2)).1
    · rw [← crossXR_swap y s (fun hc => by rw [hc] at h1; exact h1 h2)]
      exact (crossXR_between h0.swap y h2 (not_le.mp h1)).1
    · simp [h1, h2] at hne

theorem windingR_eq {l : List RSeg} (h : CircularR l) (hr : ∀ s ∈ l, RightR s) (p : ℝ × ℝ) :
    (windingR l p.1 p.2 : ℝ) = (l.map fun s => signedStripR s p).sum := by
  unfold windingR
  by_cases h0 : 0 ≤ p.1
  · rw [Int.cast_list_sum, List.map_map]
    congr 1
    apply List.map_congr_left
    intro s _
    exact turnR_pos s p h0
  · have h0' := not_le.mp h0
    have h1 : l.map (turnR p.1 p.2) = l.map fun s => aboveR p.2 s.1 - aboveR p.2 s.2 :=
      List.map_congr_left fun s hs => turnR_left (hr s hs) p.1 p.2 h0'
    have h2 : l.map (fun s => signedStripR s p) = l.map fun _ => (0 : ℝ) :=
      List.map_congr_left fun s _ => signedStripR_neg s p h0'
    rw [h1, h.sum, h2]
    simp

theorem integrable_underSegR {s : RSeg} (h0 : RightR s) : Integrable ((underSegR s).indicator (fun _ => (1 : ℝ))) := by
  refine (integrable_indicator_iff (measurableSet_underSegR s)).mpr ?_
  exact integrableOn_const (volume_underSegR_lt h0).ne

theorem integrable_signedStripR {s : RSeg} (h0 : RightR s) : Integrable (signedStripR s) := by
  by_cases hy : s.1.2 ≤ s.2.2
  · have : signedStripR s = (underSegR s).indicator (fun _ => (1 : ℝ)) := by
      funext p; simp [signedStripR, hy]
    rw [this]; exact integrable_underSegR h0
  · have : signedStripR s = -(underSegR s.swap).indicator (fun _ => (1 : ℝ)) := by
      funext p; simp [signedStripR, hy]
    rw [this]; exact (integrable_underSegR h0.swap).neg

theorem integral_signedStripR {s : RSeg} (h0 : RightR s) :
    ∫ p, signedStripR s p = (s.1.1 + s.2.1) * (s.2.2 - s.1.2) / 2 := by
  by_cases hy : s.1.2 ≤ s.2.2
  · simp only [signedStripR, hy, if_true]
    exact integral_underSegR h0 hy
  · simp only [signedStripR, hy, if_false]
    rw [integral_neg, integral_underSegR h0.swap (not_le.mp hy).le]
    simp only [Prod.fst_swap, Prod.snd_swap]
    ring

theorem integrable_integral_sumR (l : List RSeg) (hr : ∀ s ∈ l, RightR s) :
    Integrable (fun p => (l.map fun s => signedStripR s p).sum) ∧
    ∫ p, (l.map fun s => signedStripR s p).sum =
      (l.map fun s => (s.1.1 + s.2.1) * (s.2.2 - s.1.2) / 2).sum := by
  induction l with
  | nil => simp
  | cons s l ih =>
    have h0 := hr s (by simp)
    have ih := ih fun s hs => hr s (by simp [hs])
    simp only [List.map_cons, List.sum_cons]
    refine ⟨(integrable_signedStripR h0).add ih.1, ?_⟩
    rw [integral_add (integrable_signedStripR h0) ih.1, integral_signedStripR h0, ih.2]

/-- Green's theorem: the winding numbers of a circular list of segments add up to
half of the sum of the cross products. -/
theorem windingR_integral {l : List RSeg} (h : CircularR l) (hr : ∀ s ∈ l, RightR s) :
    Integrable (fun p : ℝ × ℝ => (windingR l p.1 p.2 : ℝ)) ∧
    ∫ p : ℝ × ℝ, (windingR l p.1 p.2 : ℝ) = ((l.map fun s => crossR s.1 s.2).sum ) / 2 := by
  have h1 : (fun p : ℝ × ℝ => (windingR l p.1 p.2 : ℝ)) = fun p => (l.map fun s => signedStripR s p).sum := by
    funext p; exact windingR_eq h hr p
  rw [h1]
  refine ⟨(integrable_integral_sumR l hr).1, ?_⟩
  rw [(integrable_integral_sumR l hr).2]
  have h2 := h.sum fun p => (p.1 * p.2) / 2
  have h3 : ∀ k : List RSeg, (k.map fun s => (s.1.1 + s.2.1) * (s.2.2 - s.1.2) / 2).sum =
      ((k.map fun s => crossR s.1 s.2).sum ) / 2 -
        (k.map fun s => (s.1.1 * s.1.2) / 2 - (s.2.1 * s.2.2) / 2).sum := by
    intro k
    induction k with
    | nil => simp
    | cons a k ih =>
      simp only [List.map_cons, List.sum_cons, ih]
      have : crossR a.1 a.2 = a.1.1 * a.2.2 - a.2.1 * a.1.2 := rfl
      rw [this]
      ring
  rw [h3, h2, sub_zero]

theorem windingR_append (l l' : List RSeg) (x y : ℝ) : windingR (l ++ l') x y = windingR l x y + windingR l' x y := by
  unfold windingR; rw [List.map_append, List.sum_append]

theorem measurable_windingR {l : List RSeg} (h : CircularR l) (hr : ∀ s ∈ l, RightR s) (k : ℤ) :
    NullMeasurableSet {p : ℝ × ℝ | windingR l p.1 p.2 = k} := by
  have h1 := (windingR_integral h hr).1.aestronglyMeasurable.aemeasurable
  have h2 := h1.nullMeasurable (measurableSet_singleton (k : ℝ))
  have h3 : {p : ℝ × ℝ | windingR l p.1 p.2 = k} = (fun p : ℝ × ℝ => (windingR l p.1 p.2 : ℝ)) ⁻¹' {(k : ℝ)} := by
    ext p; simp
  rw [h3]; exact h2

/-- What segments enclose that wind once around everything. -/
theorem area_of_windsOnceR {l : List RSeg} (h : CircularR l) (hr : ∀ s ∈ l, RightR s)
    (hw : ∀ x y : ℝ, windingR l x y = 0 ∨ windingR l x y = 1) :
    areaOf (enclosedR l) = ENNReal.ofReal (((l.map fun s => crossR s.1 s.2).sum ) / 2) := by
  have h1 : enclosedR l = {p : ℝ × ℝ | windingR l p.1 p.2 = 1} := by
    ext p
    simp only [enclosedR, Set.mem_ofPred_eq]
    rcases hw p.1 p.2 with h0 | h0 <;> simp [h0]
  have h2 : (fun p : ℝ × ℝ => (windingR l p.1 p.2 : ℝ)) = (enclosedR l).indicator fun _ => (1 : ℝ) := by
    funext p
    rw [h1]
    by_cases hp : windingR l p.1 p.2 = 1
    · rw [Set.indicator_of_mem (by exact hp), hp]; simp
    · rw [Set.indicator_of_notMem (by exact hp), (hw p.1 p.2).resolve_right hp]; simp
  have h3 := (windingR_integral h hr).2
  have hm := measurable_windingR h hr 1
  rw [← h1] at hm
  have h4 := (windingR_integral h hr).1
  have hfin : volume (enclosedR l) ≠ ⊤ := by
    refine ((measure_mono ?_).trans_lt (h4.measure_gt_lt_top (ε := 1 / 2) (by norm_num))).ne
    intro p hp
    rw [h1] at hp
    have hp' : windingR l p.1 p.2 = 1 := hp
    simp only [Set.mem_ofPred_eq, hp']
    norm_num
  rw [← h3, h2, integral_indicator₀ hm]
  simp [areaOf, Measure.real, ENNReal.ofReal_toReal hfin]

theorem turnR_swap (x y : ℝ) (s : RSeg) : turnR x y s.swap = -turnR x y s := by
  classical
  by_cases he : s.1.2 = s.2.2
  · rw [turnR_eq, turnR_eq]
    unfold aboveR
    simp [he]
  · rw [turnR_eq, turnR_eq, crossXR_swap y s he]
    simp only [Prod.fst_swap, Prod.snd_swap]
    split <;> simp

theorem windingR_swap (l : List RSeg) (x y : ℝ) : windingR (l.map Prod.swap) x y = -windingR l x y := by
  unfold windingR
  induction l with
  | nil => rfl
  | cons s l ih => simp only [List.map_cons, List.sum_cons, ih, turnR_swap]; ring

theorem CircularR.swap {l : List RSeg} (h : CircularR l) : CircularR (l.map Prod.swap) := by
  unfold CircularR
  rw [List.map_map, List.map_map]
  exact List.Perm.symm h

/-- Twice the area of the triangle, positive if it runs clockwise (`y` downwards). -/
def triCrossR (a b c : ℝ × ℝ) : ℝ := (b.1 - a.1) * (c.2 - a.2) - (c.1 - a.1) * (b.2 - a.2)

theorem triCrossR_rotate (a b c : ℝ × ℝ) : triCrossR b c a = triCrossR a b c := by unfold triCrossR; ring

/-- The sides of a triangle. -/
def triR (a b c : ℝ × ℝ) : List RSeg := [(a, b), (b, c), (c, a)]

/-- How far apart two sides that meet in `a` are at height `y`. -/
theorem crossXR_sub (a b c : ℝ × ℝ) (y : ℝ) (hb : b.2 ≠ a.2) (hc : c.2 ≠ a.2) :
    crossXR y (a, b) - crossXR y (c, a) =
      (y - a.2) * triCrossR a b c / ((b.2 - a.2) * (c.2 - a.2)) := by
  have hb' : b.2 - a.2 ≠ 0 := by rw [sub_ne_zero]; exact hb
  have hc' : c.2 - a.2 ≠ 0 := by rw [sub_ne_zero]; exact hc
  have h1 : crossXR y (c, a) = crossXR y (a, c) := crossXR_swap y (a, c) hc.symm
  rw [h1]
  unfold crossXR triCrossR
  simp only
  field_simp
  ring

theorem apexR_low {a b c : ℝ × ℝ} {y : ℝ} (h : 0 ≤ triCrossR a b c) (ha : a.2 ≤ y) (hb : y < b.2) (hc : y < c.2) :
    crossXR y (c, a) ≤ crossXR y (a, b) := by
  have hb' : (0 : ℝ) < b.2 - a.2 := by linarith
  have hc' : (0 : ℝ) < c.2 - a.2 := by linarith
  have hr : (0 : ℝ) ≤ triCrossR a b c := by exact h
  rw [← sub_nonneg, crossXR_sub a b c y (fun h0 => by rw [h0] at hb'; linarith) (fun h0 => by rw [h0] at hc'; linarith)]
  exact div_nonneg (mul_nonneg (by linarith) hr) (mul_pos hb' hc').le

theorem apexR_high {a b c : ℝ × ℝ} {y : ℝ} (h : 0 ≤ triCrossR a b c) (ha : y < a.2) (hb : b.2 ≤ y) (hc : c.2 ≤ y) :
    crossXR y (a, b) ≤ crossXR y (c, a) := by
  have hb' : b.2 - a.2 < 0 := by linarith
  have hc' : c.2 - a.2 < 0 := by linarith
  have hr : (0 : ℝ) ≤ triCrossR a b c := by exact h
  rw [← sub_nonpos, crossXR_sub a b c y (fun h0 => by rw [h0] at hb'; linarith) (fun h0 => by rw [h0] at hc'; linarith)]
  exact div_nonpos_of_nonpos_of_nonneg (mul_nonpos_of_nonpos_of_nonneg (by linarith) hr) (mul_pos_of_neg_of_neg hb' hc').le

theorem triangleR_windsOnce {a b c : ℝ × ℝ} (h : 0 ≤ triCrossR a b c) : ∀ x y : ℝ, windingR (triR a b c) x y = 0 ∨ windingR (triR a b c) x y = 1 := by
  classical
  intro x y
  have hw : windingR (triR a b c) x y =
      (if x < crossXR y (a, b) then aboveR y a - aboveR y b else 0) +
      ((if x < crossXR y (b, c) then aboveR y b - aboveR y c else 0) +
      ((if x < crossXR y (c, a) then aboveR y c - aboveR y a else 0) + 0)) := by
    simp only [windingR, triR, List.map_cons, List.map_nil, List.sum_cons, List.sum_nil, turnR_eq]
  have h1 : 0 ≤ triCrossR b c a := by rw [triCrossR_rotate]; exact h
  have h2 : 0 ≤ triCrossR c a b := by rw [triCrossR_rotate]; exact h1
  have key : ∀ u v : ℝ, u ≤ v → ((if x < v then (1 : ℤ) else 0) + (if x < u then -1 else 0) = 0 ∨
      (if x < v then (1 : ℤ) else 0) + (if x < u then -1 else 0) = 1) := by
    intro u v huv
    by_cases hv : x < v <;> by_cases hu : x < u
    · simp [hu, hv]
    · simp [hu, hv]
    · exact absurd (lt_of_lt_of_le hu huv) hv
    · simp [hu, hv]
  rw [hw]
  unfold aboveR
  by_cases ha : a.2 ≤ y <;> by_cases hb : b.2 ≤ y <;> by_cases hc : c.2 ≤ y
  · simp [ha, hb, hc]
  · have := key _ _ (apexR_high h2 (not_le.mp hc) ha hb)
    simp only [ha, hb, hc, if_true, if_false]; simp; simpa [add_comm] using this
  · have := key _ _ (apexR_high h1 (not_le.mp hb) hc ha)
    simp only [ha, hb, hc, if_true, if_false]; simp; simpa [add_comm] using this
  · have := key _ _ (apexR_low h ha (not_le.mp hb) (not_le.mp hc))
    simp only [ha, hb, hc, if_true, if_false]; simp; simpa [add_comm] using this
  · have := key _ _ (apexR_high h (not_le.mp ha) hb hc)
    simp only [ha, hb, hc, if_true, if_false]; simp; simpa [add_comm] using this
  · have := key _ _ (apexR_low h1 hb (not_le.mp hc) (not_le.mp ha))
    simp only [ha, hb, hc, if_true, if_false]; simp; simpa [add_comm] using this
  · have := key _ _ (apexR_low h2 hc (not_le.mp ha) (not_le.mp hb))
    simp only [ha, hb, hc, if_true, if_false]; simp; simpa [add_comm] using this
  · simp [ha, hb, hc]

theorem triangleR_back (a b c : ℝ × ℝ) (x y : ℝ) : windingR (triR a c b) x y = -windingR (triR a b c) x y := by
  have h1 := turnR_swap x y (a, b)
  have h2 := turnR_swap x y (b, c)
  have h3 := turnR_swap x y (c, a)
  simp only [Prod.swap] at h1 h2 h3
  simp only [windingR, triR, List.map_cons, List.map_nil, List.sum_cons, List.sum_nil, h1, h2, h3]
  ring

/-- The area of a triangle. -/
theorem triangleR_area (a b c : ℝ × ℝ) (ha : 0 ≤ a.1) (hb : 0 ≤ b.1) (hc : 0 ≤ c.1) :
    areaOf (enclosedR (triR a b c)) = ENNReal.ofReal (|triCrossR a b c| / 2) := by
  have main : ∀ a b c : ℝ × ℝ, 0 ≤ a.1 → 0 ≤ b.1 → 0 ≤ c.1 → 0 ≤ triCrossR a b c →
      areaOf (enclosedR (triR a b c)) = ENNReal.ofReal (triCrossR a b c / 2) := by
    intro a b c ha hb hc h
    have h1 : CircularR (triR a b c) := by
      show ([a, b, c] : List (ℝ × ℝ)).Perm [b, c, a]
      exact (List.perm_append_singleton a [b, c]).symm
    have h2 : ∀ s ∈ triR a b c, RightR s := by
      intro s hs
      simp only [triR, List.mem_cons, List.not_mem_nil, or_false] at hs
      rcases hs with rfl | rfl | rfl
      · exact ⟨ha, hb⟩
      · exact ⟨hb, hc⟩
      · exact ⟨hc, ha⟩
    rw [area_of_windsOnceR h1 h2 (triangleR_windsOnce h)]
    congr 2
    simp only [triR, crossR, triCrossR, List.map_cons, List.map_nil, List.sum_cons, List.sum_nil]
    ring
  rcases le_total 0 (triCrossR a b c) with h | h
  · rw [main a b c ha hb hc h, abs_of_nonneg h]
  · have h1 : triCrossR a c b = -triCrossR a b c := by unfold triCrossR; ring
    have h2 : enclosedR (triR a b c) = enclosedR (triR a c b) := by
      ext p
      simp only [enclosedR, Set.mem_ofPred_eq, triangleR_back a b c, odd_neg]
    rw [h2, main a c b ha hc hb (by linarith), h1, abs_of_nonpos h]

end TopoGeo
