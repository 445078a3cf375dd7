import Verif.Proofs.EvenOdd
import Verif.Props.NormalizeShared
/-!
# Property C78: normalizing does not change the area of regions
-/

namespace TopoGeo

open Spec

/-! ## The even-odd rule -/

theorem rayCrosses_horizontal (x y : ℚ) (p q : Point) (h : p.yi = q.yi) : ¬ RayCrosses x y (p, q) := by
  rintro ⟨⟨h1, h2⟩ | ⟨h1, h2⟩, _⟩
  · simp only [h] at h1
    linarith
  · simp only [h] at h2
    linarith

theorem rayCrosses_vertical (x y : ℚ) (p q : Point) (h : p.xi = q.xi) (hy : p.yi < q.yi) :
    RayCrosses x y (p, q) ↔ ((p.yi : ℚ) ≤ y ∧ y < q.yi) ∧ x < p.xi := by
  have hy' : (p.yi : ℚ) < q.yi := by exact_mod_cast hy
  unfold RayCrosses
  simp only [h, sub_self, mul_zero, zero_div, add_zero]
  constructor
  · rintro ⟨h1 | ⟨h1, h2⟩, h3⟩
    · exact ⟨h1, h3⟩
    · linarith
  · rintro ⟨h1, h3⟩
    exact ⟨Or.inl h1, h3⟩

/-- The area of a rectangle by the even-odd rule. -/
theorem encloses_rectangle (a b : Point) (hx : a.xi < b.xi) (hy : a.yi < b.yi) (x y : ℚ) :
    Encloses (ringSegs (.points [a, ⟨b.x, a.y⟩, b, ⟨a.x, b.y⟩, a])) x y ↔
      ((a.xi : ℚ) ≤ x ∧ x < b.xi) ∧ (a.yi : ℚ) ≤ y ∧ y < b.yi := by
  have hx' : (a.xi : ℚ) < b.xi := by exact_mod_cast hx
  have h1 : ¬ RayCrosses x y (a, ⟨b.x, a.y⟩) := rayCrosses_horizontal x y _ _ rfl
  have h2 := rayCrosses_vertical x y ⟨b.x, a.y⟩ b rfl hy
  have h3 : ¬ RayCrosses x y (b, ⟨a.x, b.y⟩) := rayCrosses_horizontal x y _ _ rfl
  have h4 := rayCrosses_vertical x y a ⟨a.x, b.y⟩ rfl hy
  rw [← rayCrosses_swap] at h4
  simp only [Prod.swap] at h4
  have e2 : (Point.mk b.x a.y).yi = a.yi := rfl
  have e3 : (Point.mk b.x a.y).xi = b.xi := rfl
  have e4 : (Point.mk a.x b.y).yi = b.yi := rfl
  rw [e2, e3] at h2
  rw [e4] at h4
  unfold Encloses ringSegs
  simp only [segs, List.countP_cons, List.countP_nil, h1, h2, h3, h4, decide_false, Bool.false_eq_true, if_false]
  by_cases hyy : (a.yi : ℚ) ≤ y ∧ y < b.yi
  · by_cases hxa : (a.xi : ℚ) ≤ x
    · have : ¬ x < a.xi := by linarith
      by_cases hxb : x < b.xi <;> simp [hyy, hxa, hxb, this]
    · have h5 : x < a.xi := by linarith
      have h6 : x < b.xi := by linarith
      simp only [hyy, hxa, h5, h6, and_self, decide_true, if_true, false_and, iff_false]
      decide
  · simp [hyy]

/-! ## C78 -/

/-- Crossings of what is given and of what is left. -/
theorem crossings_boundary {δ : Type} {t : Topology δ} (order : WindingOrder) (rings : List TopoRing) (x y : ℚ) :
    ((boundary t order rings).map (·.1)).countP (fun s => RayCrosses x y s) =
      (((rings.flatMap (·.directedEdges)).filter fun de => ((sides t de.edge).1 ≠ (sides t de.edge).2 : Bool)).map
        fun de => crossings x y (pathOf t de)).sum := by
  induction rings with
  | nil => rfl
  | cons ring rest ih =>
    unfold boundary at ih ⊢
    rw [List.flatMap_cons, List.map_append, List.countP_append, ih, List.flatMap_cons, List.filter_append,
      List.map_append, List.sum_append, countP_sidedSegs]
    congr 1
    exact sum_wound t order ring x y fun s => (s.1 ≠ s.2 : Bool)

theorem ringSegs_ringOf (bs : List Bound) : ringSegs (ringOf bs) = (sidedSegs bs).map (·.1) := by
  show (pathsIn bs).flatMap segs = _
  unfold pathsIn sidedSegs
  rw [List.flatMap_map, List.map_flatMap]
  congr 1
  funext b
  rw [List.map_map]
  exact (List.map_id _).symm

theorem flatMap_ringSegs (out : List (List Bound)) :
    (out.map ringOf).flatMap ringSegs = (out.flatMap sidedSegs).map (·.1) := by
  rw [List.flatMap_map, List.map_flatMap]
  congr 1
  funext bs
  exact ringSegs_ringOf bs

/-- C78: normalizing does not change the area of a region by the even-odd rule,
whatever is turned round, joined, merged or left out. -/
theorem C78_even_odd {δ : Type} (m : Build) (t t' : Topology δ) (hb : BackPointersExact t) (hc : RingsClosed t)
    (h : normalize m t = .ok t') :
    ∃ rs : List (Region δ), buildTopology m rs = .ok t' ∧
      List.Forall₂ (fun r r' => r'.data = r.data ∧
        ∀ x y, Encloses (regionSegs r') x y ↔ Encloses (topoRegionSegs t r) x y) t.regions rs := by
  obtain ⟨rs, h1, h2⟩ := C15_conserved m t t' hb hc h
  refine ⟨rs, h1, forall₂_imp_mem h2 ?_⟩
  rintro r hr r' ⟨hd, outer, inner, ho, hi, po, pi⟩
  refine ⟨hd, fun x y => ?_⟩
  obtain ⟨n, hn⟩ := List.mem_iff_getElem?.mp hr
  unfold Encloses
  have e1 : (regionSegs r').countP (fun s => RayCrosses x y s) =
      (((regionEdges r).filter fun de => ((sides t de.edge).1 ≠ (sides t de.edge).2 : Bool)).map
        fun de => crossings x y (pathOf t de)).sum := by
    unfold regionSegs regionEdges
    rw [List.flatMap_append, List.countP_append, ho, hi, flatMap_ringSegs, flatMap_ringSegs,
      (po.map _).countP_eq, (pi.map _).countP_eq, crossings_boundary, crossings_boundary, List.flatMap_append,
      List.filter_append, List.map_append, List.sum_append]
  have e2 : (topoRegionSegs t r).countP (fun s => RayCrosses x y s) =
      ((regionEdges r).map fun de => crossings x y (pathOf t de)).sum := by
    rw [← countP_flatMap_segs]
    congr 1
    unfold topoRegionSegs regionEdges pathsOf
    rw [List.flatMap_assoc]
    congr 1
    funext ring
    rw [List.flatMap_map]
  have e3 := sum_filter_not (fun de => ((sides t de.edge).1 ≠ (sides t de.edge).2 : Bool))
    (fun de => crossings x y (pathOf t de)) (regionEdges r)
  rw [e1, e2, ← e3, Nat.odd_add]
  exact (iff_true_right (even_self hb hn x y)).symm

/-- C78: if no edge has the same region on both sides, the regions of the
normalized topology cover what the given ones cover. -/
theorem C78_topology {δ : Type} (m : Build) (t t' : Topology δ) (hw : WellFormed t) (hs : NoSelfEdges t (allRings t))
    (ho : ∀ r ∈ t.regions, r.outerRings ≠ []) (h : normalize m t = .ok t') :
    List.Forall₂ (fun r r' => r'.data = r.data ∧
      ∀ x y, Encloses (topoRegionSegs t' r') x y ↔ Encloses (topoRegionSegs t r) x y) t.regions t'.regions := by
  have key : ∀ (order : WindingOrder) (rings : List TopoRing) (x y : ℚ),
      (rings.flatMap fun ring => (sidedSegs (wound t order ring)).map (·.1)).countP (fun s => RayCrosses x y s) =
        (rings.flatMap fun ring => (pathsOf t ring).flatMap segs).countP (fun s => RayCrosses x y s) := by
    intro order rings x y
    induction rings with
    | nil => rfl
    | cons ring rest ih =>
      rw [List.flatMap_cons, List.flatMap_cons, List.countP_append, List.countP_append, ih, countP_sidedSegs]
      congr 1
      have := sum_wound t order ring x y fun _ => true
      rw [List.filter_eq_self.mpr (fun _ _ => rfl), List.filter_eq_self.mpr (fun _ _ => rfl)] at this
      rw [this, ← countP_flatMap_segs]
      unfold pathsOf
      rw [List.flatMap_map]
  refine (C15_topology m t t' hw hs ho h).imp ?_
  rintro r r' ⟨hd, _, _, h1, h2⟩
  refine ⟨hd, fun x y => ?_⟩
  unfold Encloses topoRegionSegs
  rw [List.flatMap_append, List.flatMap_append, List.countP_append, List.countP_append, h1.countP_eq, h2.countP_eq,
    key, key]

-- `A` is two squares that are merged; a point of the edge that is left out, a
-- point of each square and a point of `B`
example : ∃ rs, buildTopology .debug rs = .ok exNormal ∧
    List.Forall₂ (fun r r' => r'.data = r.data ∧
      ∀ x y, Encloses (regionSegs r') x y ↔ Encloses (topoRegionSegs exNorm r) x y) exNorm.regions rs ∧
    [((3 : ℚ) / 2, (2 : ℚ)), (3 / 2, 3 / 2), (3 / 2, 5 / 2), (5 / 2, 2), (3 / 2, 7 / 2)].map (fun z => exNorm.regions.map
      fun r => decide (Encloses (topoRegionSegs exNorm r) z.1 z.2)) =
      [[true, false], [true, false], [true, false], [false, true], [false, false]] := by
  obtain ⟨rs, h1, h2⟩ := C78_even_odd .debug exNorm exNormal exNorm_wellFormed.pointers exNorm_wellFormed.closed
    exNorm_normalize
  exact ⟨rs, h1, h2, by decide +kernel⟩

-- the map with the island in the lake: the lake belongs to the island
example : NoSelfEdges exMap (allRings exMap) ∧ (∀ r ∈ exMap.regions, r.outerRings ≠ []) ∧
    (normalize .debug exMap).toOption.isSome ∧
    [((2 : ℚ), (2 : ℚ)), (11 / 2, 5), (23 / 4, 1), (10, 2)].map (fun z => exMap.regions.map
      fun r => decide (Encloses (topoRegionSegs exMap r) z.1 z.2)) =
      [[false, false, true], [true, false, false], [false, true, false], [false, false, false]] := by
  obtain ⟨hw, ho, ha⟩ := wellFormed_of_built exMap_built (by decide +kernel)
  exact ⟨(tidy_of_clean hw (by decide +kernel) ha exMap_clean).1, ho, by decide +kernel, by decide +kernel⟩

end TopoGeo
