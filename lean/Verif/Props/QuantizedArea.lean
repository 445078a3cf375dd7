import Verif.Proofs.QuantizedArea
import Verif.Props.ReadGeo
import Verif.Props.RealPlane
import Verif.Spec.Example
/-!
# How far reading a shapefile changes the area of a polygon

C102: the polygon that is read differs from the polygon in the file by no more
area than a strip along its border has that is as wide as the error of the
coordinates.
-/

namespace TopoGeo

open Spec MeasureTheory

theorem isAt_unique {p : ShpPoint} {x y x' y' : Rat} (h : IsAt p x y) (h' : IsAt p x' y') : x = x' ∧ y = y' := by
  have h1 := h.x.symm.trans h'.x
  have h2 := h.y.symm.trans h'.y
  exact ⟨by simpa using h1, by simpa using h2⟩

/-- C102: every point of the file that lies in the box is moved by less than
1 + 2^-18 along each axis. -/
theorem C102_point {b : ShpBoundingBox} {west south east north : Rat} (hb : IsBox b west south east north)
    (p : ShpPoint) (hp : InsideBox west south east north p) :
    0 ≤ (exactPlace west south east north p).1 ∧
    |(onPlane ((ShapefileQuantizer.new b).quantize p)).1 - (exactPlace west south east north p).1| < 1 + 1 / 2 ^ 18 ∧
    |(onPlane ((ShapefileQuantizer.new b).quantize p)).2 - (exactPlace west south east north p).2| < 1 + 1 / 2 ^ 18 := by
  obtain ⟨x, y, hat, hx, hy⟩ := hp
  obtain ⟨⟨h1, h2⟩, h3, h4⟩ := C62_accuracy hb hat hx hy
  set q := (ShapefileQuantizer.new b).quantize p
  have ex : exactPlace west south east north p =
      ((((x - west) / (east - west) * (2 ^ 32 - 1) : Rat) : ℝ), (((north - y) / (north - south) * (2 ^ 32 - 1) : Rat) : ℝ)) := by
    unfold exactPlace
    rw [hat.x, hat.y]
    rfl
  rw [ex]
  have e1 : (onPlane q).1 = ((q.x.toNat : Rat) : ℝ) := by simp [onPlane, Point.xi]
  have e2 : (onPlane q).2 = ((q.y.toNat : Rat) : ℝ) := by simp [onPlane, Point.yi]
  rw [e1, e2]
  have key : ∀ e n : Rat, e - 1 - 1 / 2 ^ 18 < n → n < e + 1 / 2 ^ 18 → |(n : ℝ) - (e : ℝ)| < 1 + 1 / 2 ^ 18 := by
    intro e n h5 h6
    have h7 : |n - e| < 1 + 1 / 2 ^ 18 := by rw [abs_lt]; constructor <;> linarith
    have h8 : ((|n - e| : Rat) : ℝ) < ((1 + 1 / 2 ^ 18 : Rat) : ℝ) := by exact_mod_cast h7
    push_cast at h8
    exact h8
  refine ⟨?_, key _ _ h1 h2, key _ _ h3 h4⟩
  have hw := hb.wide
  have : (0 : Rat) ≤ (x - west) / (east - west) * (2 ^ 32 - 1) :=
    mul_nonneg (div_nonneg (by linarith [hx.1]) (by linarith)) (by norm_num)
  exact Rat.cast_nonneg.mpr this

/-- C102: what a closed ring of the file encloses and what it encloses after
reading differ in area by at most 1 + 2^-18 times the mean of their lengths. -/
theorem C102_ring {b : ShpBoundingBox} {west south east north : Rat} (hb : IsBox b west south east north)
    (ring : ShpPolygonRing) (hc : ring.head? = ring.getLast?) (hi : ∀ p ∈ ring, InsideBox west south east north p) :
    areaOf (changed (enclosedR (segsR (ring.map (exactPlace west south east north))))
        (enclosed (segs (ring.map (ShapefileQuantizer.new b).quantize)))) ≤
      ENNReal.ofReal (readingError (ring.map (exactPlace west south east north)) (ring.map (ShapefileQuantizer.new b).quantize)) := by
  let f : ShpPoint → RSeg := fun p => (exactPlace west south east north p, onPlane ((ShapefileQuantizer.new b).quantize p))
  have h1 := moved_area (1 + 1 / 2 ^ 18) (by positivity) (ring.map f)
    (by rw [List.head?_map, List.getLast?_map, hc])
    (by
      intro w hw
      obtain ⟨p, hp, rfl⟩ := List.mem_map.mp hw
      obtain ⟨h1, h2, h3⟩ := C102_point hb p (hi p hp)
      exact ⟨⟨h1, Point.xi_nonneg' _⟩, h2.le, h3.le⟩)
  have e1 : (ring.map f).map (·.1) = ring.map (exactPlace west south east north) := by
    rw [List.map_map]; rfl
  have e2 : (ring.map f).map (·.2) = (ring.map (ShapefileQuantizer.new b).quantize).map onPlane := by
    rw [List.map_map, List.map_map]; rfl
  rw [e1, e2, enclosed_onPlane] at h1
  exact h1

/-- C102: the length after reading, in terms of the length before. -/
theorem C102_length {b : ShpBoundingBox} {west south east north : Rat} (hb : IsBox b west south east north)
    (ring : ShpPolygonRing) (hi : ∀ p ∈ ring, InsideBox west south east north p) :
    lengthR ((ring.map (ShapefileQuantizer.new b).quantize).map onPlane) ≤
      lengthR (ring.map (exactPlace west south east north)) + (ring.length - 1 : Nat) * (4 * (1 + 1 / 2 ^ 18)) := by
  induction ring with
  | nil => simp [lengthR, segsR]
  | cons p ring ih =>
    cases ring with
    | nil => simp [lengthR, segsR]
    | cons q ring =>
      have ih := ih fun r hr => hi r (by simp [hr])
      obtain ⟨_, p1, p2⟩ := C102_point hb p (hi p (by simp))
      obtain ⟨_, q1, q2⟩ := C102_point hb q (hi q (by simp))
      simp only [List.map_cons, lengthR_cons, List.length_cons, Nat.add_sub_cancel, Nat.cast_add, Nat.cast_one] at ih ⊢
      have key : ∀ a a' c c' : ℝ, |a' - a| < 1 + 1 / 2 ^ 18 → |c' - c| < 1 + 1 / 2 ^ 18 →
          |c' - a'| ≤ |c - a| + 2 * (1 + 1 / 2 ^ 18) := by
        intro a a' c c' h1 h2
        have : c' - a' = (c - a) + (c' - c) - (a' - a) := by ring
        rw [this]
        have h3 := abs_sub ((c - a) + (c' - c)) (a' - a)
        have h4 := abs_add_le (c - a) (c' - c)
        linarith
      have k1 := key _ _ _ _ p1 q1
      have k2 := key _ _ _ _ p2 q2
      linarith

theorem windingR_flatMap {α : Type} (l : List α) (f : α → List RSeg) (x y : ℝ) :
    windingR (l.flatMap f) x y = (l.map fun a => windingR (f a) x y).sum := by
  induction l with
  | nil => rfl
  | cons a l ih => rw [List.flatMap_cons, windingR_append, ih, List.map_cons, List.sum_cons]

theorem winding_flatMap_sum {α : Type} (l : List α) (f : α → List (Point × Point)) (x y : ℝ) :
    winding (l.flatMap f) x y = (l.map fun a => winding (f a) x y).sum := by
  induction l with
  | nil => rfl
  | cons a l ih => rw [List.flatMap_cons, winding_append, ih, List.map_cons, List.sum_cons]

theorem changed_flatMap {α : Type} (l : List α) (f : α → List RSeg) (g : α → List (Point × Point)) :
    changed (enclosedR (l.flatMap f)) (enclosed (l.flatMap g)) ⊆
      {p | ∃ a ∈ l, p ∈ changed (enclosedR (f a)) (enclosed (g a))} := by
  intro p hp
  have h1 : Odd (windingR (l.flatMap f) p.1 p.2 - winding (l.flatMap g) p.1 p.2) := by
    rw [Int.odd_sub, ← Int.not_odd_iff_even]
    simp only [changed, Set.mem_symmDiff, enclosedR, enclosed, Set.mem_ofPred_eq] at hp
    tauto
  rw [windingR_flatMap, winding_flatMap_sum] at h1
  have h2 : (l.map fun a => windingR (f a) p.1 p.2).sum - (l.map fun a => winding (g a) p.1 p.2).sum =
      (l.map fun a => windingR (f a) p.1 p.2 - winding (g a) p.1 p.2).sum := by
    clear hp h1
    induction l with
    | nil => rfl
    | cons a l ih =>
      simp only [List.map_cons, List.sum_cons]
      rw [← ih]
      ring
  rw [h2] at h1
  obtain ⟨z, hz, hz'⟩ := odd_sum_mem _ h1
  obtain ⟨a, ha, rfl⟩ := List.mem_map.mp hz
  refine ⟨a, ha, ?_⟩
  rw [Int.odd_sub, ← Int.not_odd_iff_even] at hz'
  simp only [changed, Set.mem_symmDiff, enclosedR, enclosed, Set.mem_ofPred_eq]
  tauto

/-- C102: a region that is made of a record differs from the polygon of the record by
no more than the sum over the rings, however the rings are divided into outer and
inner. -/
theorem C102_record {m : Build} {b : ShpBoundingBox} {west south east north : Rat} (hb : IsBox b west south east north)
    {record : ShapefileRecord} {region : Region DbfRecord} (h : IsRegionOf m (ShapefileQuantizer.new b) record region)
    (hr : ∀ ring ∈ record.rings, ring.head? = ring.getLast? ∧ ∀ p ∈ ring, InsideBox west south east north p) :
    areaOf (changed (enclosedR (exactSegs west south east north record.rings)) (enclosed (regionSegs region))) ≤
      polygonError b west south east north record.rings := by
  have hp := (C59_permutation h.rings).1
  have e1 : enclosed (regionSegs region) =
      enclosed (record.rings.flatMap fun ring => segs (ring.map (ShapefileQuantizer.new b).quantize)) := by
    ext z
    have := (hp.map fun r => winding (ringSegs r) z.1 z.2).sum_eq
    simp only [enclosed, Set.mem_ofPred_eq, regionSegs, winding_flatMap_sum]
    rw [this, List.map_map]
    rfl
  rw [e1]
  refine (measure_mono (changed_flatMap _ _ _)).trans ((areaOf_exists_le _ _).trans ?_)
  unfold polygonError
  refine List.sum_le_sum fun ring hring => ?_
  exact C102_ring hb ring (hr ring hring).1 (hr ring hring).2

/-- C102: the same, for a region that the iterator yields. -/
theorem C102_region {σ τ : Type} [Source σ] [Source τ] (m : Build) (it it' : ShapefileGeoIterator σ τ)
    {b : ShpBoundingBox} {west south east north : Rat} (hb : IsBox b west south east north)
    (hq : it.quantizer = ShapefileQuantizer.new b) (region : Region DbfRecord) (h : it.next m = .ok (some (.ok region), it')) :
    ∃ record reader', it.reader.next = .ok (some (.ok record), reader') ∧ region.data = record.data ∧
      ((∀ ring ∈ record.rings, ring.head? = ring.getLast? ∧ ∀ p ∈ ring, InsideBox west south east north p) →
        areaOf (changed (enclosedR (exactSegs west south east north record.rings)) (enclosed (regionSegs region))) ≤
          polygonError b west south east north record.rings) := by
  obtain ⟨record, reader', h1, _, h2, h3⟩ := C59_region m it it' region h
  exact ⟨record, reader', h1, h2, C102_record hb ⟨h2, hq ▸ h3⟩⟩

theorem areaOf_le_changed (s s' : Set (ℝ × ℝ)) : areaOf s ≤ areaOf s' + areaOf (changed s s') := by
  refine (measure_mono (?_ : s ⊆ s' ∪ changed s s')).trans (measure_union_le _ _)
  intro p hp
  by_cases h : p ∈ s'
  · exact .inl h
  · exact .inr (.inl ⟨hp, h⟩)

/-- C102: hence the areas differ by no more than that. -/
theorem C102_area {s s' : Set (ℝ × ℝ)} {e : ENNReal} (h : areaOf (changed s s') ≤ e) :
    areaOf s ≤ areaOf s' + e ∧ areaOf s' ≤ areaOf s + e := by
  refine ⟨(areaOf_le_changed s s').trans (add_le_add le_rfl h), (areaOf_le_changed s' s).trans (add_le_add le_rfl ?_)⟩
  unfold changed at h ⊢
  rw [symmDiff_comm]
  exact h

theorem build_step_error {δ : Type} {t : Topology δ} {r : Region δ} {o : Option (TopoRegion δ)} (hs : BuildStep t r o)
    {s : Set (ℝ × ℝ)} {e : ENNReal} (he : areaOf (changed s (enclosed (regionSegs r))) ≤ e) :
    areaOf (changed s {p | ∃ r' ∈ o, p ∈ enclosed (topoRegionSegs t r')}) ≤ areaOf (lostPart r) + e := by
  refine (measure_mono (?_ : _ ⊆ lostPart r ∪ changed s (enclosed (regionSegs r)))).trans
    ((measure_union_le _ _).trans (add_le_add le_rfl he))
  intro p hp
  by_cases hl : p ∈ lostPart r
  · exact .inl hl
  · refine .inr ?_
    have h4 := (build_step_real hs).2.1 p hl
    simp only [changed, Set.mem_symmDiff, Set.mem_ofPred_eq] at hp ⊢
    rw [h4] at hp
    exact hp

/-- C102: building a topology from regions that were read adds to the error at most
what the dropped rings enclose. -/
theorem C102_topology {δ : Type} (m : Build) (rs : List (Region δ)) (t : Topology δ) (h : buildTopology m rs = .ok t)
    (exact : Region δ → Set (ℝ × ℝ)) (e : Region δ → ENNReal)
    (he : ∀ r ∈ rs, areaOf (changed (exact r) (enclosed (regionSegs r))) ≤ e r) :
    ∃ L : List (Option (TopoRegion δ)), L.reduceOption = t.regions ∧
      List.Forall₂ (fun r o => (∀ r' ∈ o, r'.data = r.data) ∧
        areaOf (changed (exact r) {p | ∃ r' ∈ o, p ∈ enclosed (topoRegionSegs t r')}) ≤ areaOf (lostPart r) + e r) rs L := by
  obtain ⟨L, h1, h2⟩ := build_steps h
  exact ⟨L, h1, forall₂_imp_mem h2 fun r hr o hs => ⟨(build_step_real hs).1, build_step_error hs (he r hr)⟩⟩

/-! Non-vacuity: a triangle in the unit box whose corners are not on the grid. -/

def exHalfUnits : ShpPolygonRing := [⟨0, 0⟩, ⟨0, 0x3fe0000000000000⟩, ⟨0x3fe0000000000000, 0x3fe0000000000000⟩, ⟨0, 0⟩]

theorem exHalfUnits_inside : ∀ p ∈ exHalfUnits, InsideBox 0 0 1 1 p := by
  intro p hp
  simp only [exHalfUnits, List.mem_cons, List.not_mem_nil, or_false] at hp
  rcases hp with rfl | rfl | rfl | rfl
  · exact ⟨0, 0, ⟨by decide +kernel, by decide +kernel⟩, by norm_num, by norm_num⟩
  · exact ⟨0, 1 / 2, ⟨by decide +kernel, by decide +kernel⟩, by norm_num, by norm_num⟩
  · exact ⟨1 / 2, 1 / 2, ⟨by decide +kernel, by decide +kernel⟩, by norm_num, by norm_num⟩
  · exact ⟨0, 0, ⟨by decide +kernel, by decide +kernel⟩, by norm_num, by norm_num⟩

example : IsBox unitBox 0 0 1 1 ∧ exHalfUnits.head? = exHalfUnits.getLast? ∧
    exHalfUnits.map (ShapefileQuantizer.new unitBox).quantize =
      [⟨0, 4294967295⟩, ⟨0, 2147483647⟩, ⟨2147483647, 2147483647⟩, ⟨0, 4294967295⟩] ∧
    exactPlace 0 0 1 1 ⟨0x3fe0000000000000, 0x3fe0000000000000⟩ = (2147483647.5, 2147483647.5) := by
  refine ⟨?_, rfl, by decide +kernel, ?_⟩
  · exact ⟨by decide +kernel, by decide +kernel, by decide +kernel, by decide +kernel, by norm_num, by norm_num,
      by decide +kernel, by decide +kernel⟩
  · have h1 : doubleVal 0x3fe0000000000000 = some (1 / 2) := by decide +kernel
    simp only [exactPlace, h1, Option.getD_some]
    norm_num

end TopoGeo
