import Mathlib.MeasureTheory.Measure.Lebesgue.Basic
import Mathlib.Topology.Order.Compact
import Verif.Spec.ClipArea
import Verif.Proofs.RealPlane
/-!
# The zone next to cut segments
-/

namespace TopoGeo
open Spec MeasureTheory

/-- A rational point can be had in any open part that contains the real one. -/
theorem exists_rational_in (ls : List (List (Point × Point))) (U : Set (ℝ × ℝ)) (hU : IsOpen U) (x y : ℝ) (h : (x, y) ∈ U) :
    ∃ x' y' : ℚ, ((x' : ℝ), (y' : ℝ)) ∈ U ∧ ∀ l ∈ ls, (Encloses l x' y' ↔ (x, y) ∈ enclosed l) := by
  obtain ⟨e, he, hb⟩ := Metric.isOpen_iff.mp hU _ h
  obtain ⟨x', y', h1, h2, h3, h4, h5⟩ := exists_rational_encloses ls x y e he
  refine ⟨x', y', hb ?_, h5⟩
  rw [Metric.mem_ball, Prod.dist_eq]
  refine max_lt ?_ ?_ <;> simp only [Real.dist_eq] <;> rw [abs_lt] <;> constructor <;> linarith

theorem isOpen_insideOf (mask : ClipMask) : IsOpen (insideOf mask) := by
  cases mask
  · exact isOpen_lt continuous_const continuous_fst
  · exact isOpen_lt continuous_fst continuous_const
  · exact isOpen_lt continuous_const continuous_snd
  · exact isOpen_lt continuous_snd continuous_const

theorem isClosed_nearSegment (mask : ClipMask) (s : Point × Point) : IsClosed (nearSegment mask s) := by
  have h : nearSegment mask s = (fun w : ℝ × ℝ => placed mask (tested mask s.1 + w.1 * (tested mask s.2 - tested mask s.1))
      (other mask s.1 + w.1 * (other mask s.2 - other mask s.1) + w.2)) '' (Set.Icc 0 1 ×ˢ Set.Icc (-1) 1) := by
    ext p
    constructor
    · rintro ⟨u, v, h1, h2, h3, h4, h5⟩
      exact ⟨(u, v), ⟨⟨h1, h2⟩, ⟨h3, h4⟩⟩, h5.symm⟩
    · rintro ⟨⟨u, v⟩, ⟨⟨h1, h2⟩, ⟨h3, h4⟩⟩, h5⟩
      exact ⟨u, v, h1, h2, h3, h4, h5.symm⟩
  rw [h]
  refine ((isCompact_Icc.prod isCompact_Icc).image ?_).isClosed
  cases mask <;> simp only [placed] <;> fun_prop

theorem isClosed_nearSegments (mask : ClipMask) (l : List (Point × Point)) :
    IsClosed {p | ∃ s ∈ l, p ∈ nearSegment mask s} := by
  induction l with
  | nil => simp
  | cons s l ih =>
    have : {p | ∃ s' ∈ s :: l, p ∈ nearSegment mask s'} = nearSegment mask s ∪ {p | ∃ s ∈ l, p ∈ nearSegment mask s} := by
      ext p
      simp [Set.mem_union]
    rw [this]
    exact (isClosed_nearSegment mask s).union ih

theorem within_iff (mask : ClipMask) (x y : ℚ) : Within mask x y ↔ ((x : ℝ), (y : ℝ)) ∈ insideOf mask := by
  cases mask <;> simp only [Within, insideOf, Set.mem_ofPred_eq] <;> norm_cast

/-- A rational point near a segment is in the zone. -/
theorem nearSegment_of {mask : ClipMask} {p q : Point} {x y : ℚ} (h : NearSegment mask p q x y) :
    ((x : ℝ), (y : ℝ)) ∈ nearSegment mask (p, q) := by
  obtain ⟨u, h1, h2, h3, h4, h5⟩ := h
  have h3 : ((across mask x y : ℚ) : ℝ) = tested mask p + u * (tested mask q - tested mask p) := by rw [h3]; push_cast; rfl
  have h4 : ((alongside mask x y : ℚ) : ℝ) < other mask p + u * (other mask q - other mask p) + 1 := by
    have := (Rat.cast_lt (K := ℝ)).mpr h4; push_cast at this; exact this
  have h5 : (other mask p : ℝ) + u * (other mask q - other mask p) < (alongside mask x y : ℚ) + 1 := by
    have := (Rat.cast_lt (K := ℝ)).mpr h5; push_cast at this; exact this
  refine ⟨u, (alongside mask x y : ℚ) - (other mask p + u * (other mask q - other mask p)), by exact_mod_cast h1,
    by exact_mod_cast h2, by linarith, by linarith, ?_⟩
  simp only [← h3, add_sub_cancel]
  cases mask <;> rfl

/-- The area of a band two units wide. -/
theorem volume_band (lo hi : ℝ) (g : ℝ → ℝ) (hg : Continuous g) :
    volume {z : ℝ × ℝ | lo ≤ z.1 ∧ z.1 ≤ hi ∧ |z.2 - g z.1| ≤ 1} ≤ ENNReal.ofReal (2 * (hi - lo)) := by
  have hm : MeasurableSet {z : ℝ × ℝ | lo ≤ z.1 ∧ z.1 ≤ hi ∧ |z.2 - g z.1| ≤ 1} := by
    refine IsClosed.measurableSet ?_
    refine (isClosed_le continuous_const continuous_fst).inter ((isClosed_le continuous_fst continuous_const).inter ?_)
    have hc : Continuous fun z : ℝ × ℝ => |z.2 - g z.1| := by fun_prop
    exact isClosed_le hc continuous_const
  rw [Measure.volume_eq_prod, Measure.prod_apply hm]
  have h1 : ∀ x : ℝ, volume (Prod.mk x ⁻¹' {z : ℝ × ℝ | lo ≤ z.1 ∧ z.1 ≤ hi ∧ |z.2 - g z.1| ≤ 1}) =
      (Set.Icc lo hi).indicator (fun _ => ENNReal.ofReal 2) x := by
    intro x
    by_cases hx : x ∈ Set.Icc lo hi
    · rw [Set.indicator_of_mem hx]
      have : Prod.mk x ⁻¹' {z : ℝ × ℝ | lo ≤ z.1 ∧ z.1 ≤ hi ∧ |z.2 - g z.1| ≤ 1} = Set.Icc (g x - 1) (g x + 1) := by
        ext y
        simp only [Set.mem_preimage, Set.mem_ofPred_eq, Set.mem_Icc, abs_le]
        constructor
        · rintro ⟨_, _, h3, h4⟩; constructor <;> linarith
        · rintro ⟨h3, h4⟩; exact ⟨hx.1, hx.2, by linarith, by linarith⟩
      rw [this, Real.volume_Icc]
      congr 1; ring
    · rw [Set.indicator_of_notMem hx]
      have : Prod.mk x ⁻¹' {z : ℝ × ℝ | lo ≤ z.1 ∧ z.1 ≤ hi ∧ |z.2 - g z.1| ≤ 1} = ∅ := by
        ext y
        simp only [Set.mem_preimage, Set.mem_ofPred_eq, Set.mem_empty_iff_false, iff_false]
        rintro ⟨h1, h2, _⟩
        exact hx ⟨h1, h2⟩
      rw [this]; simp
  simp only [h1]
  rw [lintegral_indicator measurableSet_Icc, setLIntegral_const, Real.volume_Icc, ← ENNReal.ofReal_mul (by norm_num)]

theorem volume_band_swap (lo hi : ℝ) (g : ℝ → ℝ) (hg : Continuous g) :
    volume {z : ℝ × ℝ | lo ≤ z.2 ∧ z.2 ≤ hi ∧ |z.1 - g z.2| ≤ 1} ≤ ENNReal.ofReal (2 * (hi - lo)) := by
  have h := volume_band lo hi g hg
  have h2 := (Measure.measurePreserving_swap (μ := (volume : Measure ℝ)) (ν := (volume : Measure ℝ))).measure_preimage_equiv
    (f := MeasurableEquiv.prodComm) {z : ℝ × ℝ | lo ≤ z.1 ∧ z.1 ≤ hi ∧ |z.2 - g z.1| ≤ 1}
  rw [← Measure.volume_eq_prod] at h2
  rw [← h2] at h
  exact h

/-- Next to a segment that the line cuts there is little room inside of the mask. -/
theorem nearSegment_area (mask : ClipMask) (s : Point × Point) (hs : Crosses mask s.1 s.2) :
    areaOf (insideOf mask ∩ nearSegment mask s) ≤ 2 * ((max (depth mask s.1) (depth mask s.2)).toNat : ENNReal) := by
  have hne : (tested mask s.2 : ℝ) - tested mask s.1 ≠ 0 := by
    intro h0
    have h0 : tested mask s.2 = tested mask s.1 := by
      have := sub_eq_zero.mp h0; exact_mod_cast this
    rcases hs with ⟨h1, h2⟩ | ⟨h1, h2⟩ <;> cases mask <;> simp only [depth, tested] at h0 h1 h2 <;> omega
  set D : ℕ := (max (depth mask s.1) (depth mask s.2)).toNat with hD
  set k : ℝ := ((other mask s.2 : ℝ) - other mask s.1) / (tested mask s.2 - tested mask s.1) with hk
  set g : ℝ → ℝ := fun a => other mask s.1 + (a - tested mask s.1) * k with hg
  have hgc : Continuous g := by rw [hg]; fun_prop
  have hfin : 2 * (D : ENNReal) = ENNReal.ofReal (2 * D) := by
    rw [ENNReal.ofReal_mul (by norm_num)]; simp
  have key : ∀ u v : ℝ, -1 ≤ v → v ≤ 1 →
      |other mask s.1 + u * (other mask s.2 - other mask s.1) + v - g (tested mask s.1 + u * (tested mask s.2 - tested mask s.1))| ≤ 1 := by
    intro u v h1 h2
    have : g (tested mask s.1 + u * (tested mask s.2 - tested mask s.1)) = other mask s.1 + u * (other mask s.2 - other mask s.1) := by
      rw [hg, hk]; field_simp; ring
    rw [this, add_sub_cancel_left]
    exact abs_le.mpr ⟨h1, h2⟩
  have hd : ∀ u : ℝ, 0 ≤ u → u ≤ 1 → (1 - u) * depth mask s.1 + u * depth mask s.2 ≤ (D : ℝ) := by
    intro u h1 h2
    have e1 : (depth mask s.1 : ℝ) ≤ D := by
      have : depth mask s.1 ≤ (D : ℤ) := by rw [hD]; omega
      exact_mod_cast this
    have e2 : (depth mask s.2 : ℝ) ≤ D := by
      have : depth mask s.2 ≤ (D : ℤ) := by rw [hD]; omega
      exact_mod_cast this
    nlinarith
  rw [hfin]
  unfold areaOf
  clear_value D
  cases mask with
  | minX c =>
    refine le_trans (measure_mono ?_) (le_of_le_of_eq (volume_band (c.toNat : ℝ) (c.toNat + D) g hgc) (by congr 1; ring))
    rintro z ⟨hz, u, v, h1, h2, h3, h4, rfl⟩
    have := hd u h1 h2
    simp only [depth, insideOf, placed, Set.mem_ofPred_eq, tested] at hz this ⊢
    push_cast at hz this ⊢
    exact ⟨hz.le, by linarith, by simpa [tested] using key u v h3 h4⟩
  | maxX c =>
    refine le_trans (measure_mono ?_) (le_of_le_of_eq (volume_band ((c.toNat : ℝ) - D) c.toNat g hgc) (by congr 1; ring))
    rintro z ⟨hz, u, v, h1, h2, h3, h4, rfl⟩
    have := hd u h1 h2
    simp only [depth, insideOf, placed, Set.mem_ofPred_eq, tested] at hz this ⊢
    push_cast at hz this ⊢
    exact ⟨by linarith, hz.le, by simpa [tested] using key u v h3 h4⟩
  | minY c =>
    refine le_trans (measure_mono ?_) (le_of_le_of_eq (volume_band_swap (c.toNat : ℝ) (c.toNat + D) g hgc) (by congr 1; ring))
    rintro z ⟨hz, u, v, h1, h2, h3, h4, rfl⟩
    have := hd u h1 h2
    simp only [depth, insideOf, placed, Set.mem_ofPred_eq, tested] at hz this ⊢
    push_cast at hz this ⊢
    exact ⟨hz.le, by linarith, by simpa [tested] using key u v h3 h4⟩
  | maxY c =>
    refine le_trans (measure_mono ?_) (le_of_le_of_eq (volume_band_swap ((c.toNat : ℝ) - D) c.toNat g hgc) (by congr 1; ring))
    rintro z ⟨hz, u, v, h1, h2, h3, h4, rfl⟩
    have := hd u h1 h2
    simp only [depth, insideOf, placed, Set.mem_ofPred_eq, tested] at hz this ⊢
    push_cast at hz this ⊢
    exact ⟨by linarith, hz.le, by simpa [tested] using key u v h3 h4⟩

theorem cutZone_area (mask : ClipMask) (l : List (Point × Point)) : areaOf (cutZone mask l) ≤ 2 * (cutDepth mask l : ENNReal) := by
  unfold cutZone cutDepth
  have : ∀ l' : List (Point × Point), (∀ s ∈ l', Crosses mask s.1 s.2) →
      areaOf {p | p ∈ insideOf mask ∧ ∃ s ∈ l', p ∈ nearSegment mask s} ≤
        2 * (((l'.map fun s => (max (depth mask s.1) (depth mask s.2)).toNat).sum : ℕ) : ENNReal) := by
    intro l' hl
    induction l' with
    | nil => simp [areaOf]
    | cons s l' ih =>
      have h1 : {p | p ∈ insideOf mask ∧ ∃ s' ∈ s :: l', p ∈ nearSegment mask s'} ⊆
          (insideOf mask ∩ nearSegment mask s) ∪ {p | p ∈ insideOf mask ∧ ∃ s ∈ l', p ∈ nearSegment mask s} := by
        rintro p ⟨h1, s', hs', h2⟩
        rcases List.mem_cons.mp hs' with rfl | hs'
        · exact .inl ⟨h1, h2⟩
        · exact .inr ⟨h1, s', hs', h2⟩
      refine (measure_mono h1).trans ((measure_union_le _ _).trans ?_)
      rw [List.map_cons, List.sum_cons, Nat.cast_add, mul_add]
      exact add_le_add (nearSegment_area mask s (hl s (by simp))) (ih fun s hs => hl s (List.mem_cons_of_mem _ hs))
  exact this _ fun s hs => (show CutAskew mask s by simpa [cutSegs] using (List.mem_filter.mp hs).2).1

/-- The line of a mask has no area. -/
theorem maskLine_area (mask : ClipMask) : areaOf {p | p ∉ insideOf mask ∧ p ∉ insideOf (mirror mask)} = 0 := by
  have h1 : ∀ c : ℝ, volume {p : ℝ × ℝ | p.1 = c} = 0 := by
    intro c
    have : {p : ℝ × ℝ | p.1 = c} = {c} ×ˢ Set.univ := by ext p; simp
    rw [this, Measure.volume_eq_prod, Measure.prod_prod]; simp
  have h2 : ∀ c : ℝ, volume {p : ℝ × ℝ | p.2 = c} = 0 := by
    intro c
    have : {p : ℝ × ℝ | p.2 = c} = Set.univ ×ˢ {c} := by ext p; simp
    rw [this, Measure.volume_eq_prod, Measure.prod_prod]; simp
  unfold areaOf
  cases mask with
  | minX c | maxX c =>
    refine measure_mono_null ?_ (h1 c.toNat)
    rintro p ⟨h3, h4⟩
    simp only [insideOf, mirror, Set.mem_ofPred_eq, not_lt] at h3 h4 ⊢
    linarith
  | minY c | maxY c =>
    refine measure_mono_null ?_ (h2 c.toNat)
    rintro p ⟨h3, h4⟩
    simp only [insideOf, mirror, Set.mem_ofPred_eq, not_lt] at h3 h4 ⊢
    linarith

theorem clippedBy_unique {m : Build} {mask : ClipMask} {edges : List TopoEdge} {cs cs' : List (List Point)}
    (h : ClippedBy m mask edges cs) (h' : ClippedBy m mask edges cs') : cs = cs' := by
  unfold ClippedBy at h h'
  induction h generalizing cs' with
  | nil => cases h'; rfl
  | cons h1 _ ih =>
    cases h' with
    | cons h2 h3 =>
      rw [h1] at h2
      rw [ih h3, Except.ok.inj h2]

end TopoGeo
