import Verif.Proofs.Normalize
import Verif.Proofs.Triangle
import Verif.Spec.Cover
/-!
# The computed area is the area

C98: the numbers that `area2` and `winding_order` compute from coordinates are
twice the area, in the sense of measure theory, of what the ring encloses, and the
way it runs.
-/

namespace TopoGeo

open Spec MeasureTheory

/-- The signed area that a pair of area and winding order stands for, doubled. -/
def signedOf : Nat × WindingOrder → ℤ
  | (n, .clockwise) => n
  | (n, .counterClockwise) => -n

theorem signedOf_area2 {m : Build} {r : Ring} {x : Nat × WindingOrder} (h : r.area2AndWindingOrder m = .ok x)
    (hf : m = .release → InI64 (ringShoelace r)) : signedOf x = ringShoelace r := by
  have h1 : x = ((ringShoelace r).natAbs, if 0 ≤ ringShoelace r then .clockwise else .counterClockwise) := by
    cases m with
    | debug => exact (ring_area2AndWindingOrder_debug h).1
    | release =>
      have := ring_area2AndWindingOrder_ok h
      rwa [wrap64_of_inI64 (hf rfl)] at this
  rw [h1]
  by_cases h0 : 0 ≤ ringShoelace r
  · simp only [if_pos h0, signedOf]; omega
  · simp only [if_neg h0, signedOf]; omega

/-- C98: add up, over the plane, how often a closed ring winds around each point.
The result is half of what `area2` returns, negative if `winding_order` says
counter-clockwise. -/
theorem C98_winding (m : Build) (r : Ring) (n : Nat) (o : WindingOrder) (hc : RingClosed r)
    (hf : m = .release → InI64 (ringShoelace r)) (h : r.area2AndWindingOrder m = .ok (n, o)) :
    Integrable (fun p : ℝ × ℝ => (winding (ringSegs r) p.1 p.2 : ℝ)) ∧
      ∫ p : ℝ × ℝ, (winding (ringSegs r) p.1 p.2 : ℝ) =
        (match o with | .clockwise => (n : ℝ) / 2 | .counterClockwise => -(n : ℝ) / 2) := by
  have h1 := winding_integral (circular_ring hc)
  refine ⟨h1.1, ?_⟩
  rw [h1.2, ← ringShoelace_eq_sum, ← signedOf_area2 h hf]
  cases o <;> simp [signedOf]

/-- C98: if a closed ring winds around each point at most once, then what `area2`
returns is twice the area that it encloses, and `winding_order` tells which way
it winds, unless the area is zero. -/
theorem C98_area (m : Build) (r : Ring) (n : Nat) (o : WindingOrder) (hc : RingClosed r)
    (hf : m = .release → InI64 (ringShoelace r)) (h : r.area2AndWindingOrder m = .ok (n, o)) :
    (WindsOnce (ringSegs r) → areaOf (enclosed (ringSegs r)) = n / 2 ∧ (n ≠ 0 → o = .clockwise)) ∧
    (WindsOnceBack (ringSegs r) → areaOf (enclosed (ringSegs r)) = n / 2 ∧ (n ≠ 0 → o = .counterClockwise)) := by
  have hs := signedOf_area2 h hf
  have hi := (winding_integral (circular_ring hc)).2
  rw [← ringShoelace_eq_sum, ← hs] at hi
  have hn : ENNReal.ofReal ((n : ℝ) / 2) = n / 2 := by
    rw [ENNReal.ofReal_div_of_pos (by norm_num)]; simp
  constructor
  · intro hw
    have h0 : 0 ≤ ∫ p : ℝ × ℝ, (winding (ringSegs r) p.1 p.2 : ℝ) := by
      apply integral_nonneg
      intro p
      simp only [Pi.zero_apply]
      rcases hw p.1 p.2 with h0 | h0 <;> simp [h0]
    have h1 := area_of_windsOnce (circular_ring hc) hw
    rw [← ringShoelace_eq_sum, ← hs] at h1
    cases o with
    | clockwise => exact ⟨by rw [h1, ← hn]; simp [signedOf], fun _ => rfl⟩
    | counterClockwise =>
      have h2 : n = 0 := by
        rw [hi] at h0
        simp only [signedOf, Int.cast_neg, Int.cast_natCast] at h0
        have : (n : ℝ) ≤ 0 := by linarith
        have : n ≤ 0 := by exact_mod_cast this
        omega
      subst h2
      exact ⟨by rw [h1]; simp [signedOf], fun h3 => absurd rfl h3⟩
  · intro hw
    have h0 : ∫ p : ℝ × ℝ, (winding (ringSegs r) p.1 p.2 : ℝ) ≤ 0 := by
      apply integral_nonpos
      intro p
      simp only [Pi.zero_apply]
      rcases hw p.1 p.2 with h0 | h0 <;> simp [h0]
    have h1 := area_of_windsOnceBack (circular_ring hc) hw
    rw [← ringShoelace_eq_sum, ← hs] at h1
    cases o with
    | counterClockwise => exact ⟨by rw [h1, ← hn]; simp [signedOf], fun _ => rfl⟩
    | clockwise =>
      have h2 : n = 0 := by
        rw [hi] at h0
        simp only [signedOf, Int.cast_natCast] at h0
        have : (n : ℝ) ≤ 0 := by linarith
        have : n ≤ 0 := by exact_mod_cast this
        omega
      subst h2
      exact ⟨by rw [h1]; simp [signedOf], fun h3 => absurd rfl h3⟩

/-- C98: triangles wind at most once, whatever their corners are. -/
theorem C98_triangle (m : Build) (a b c : Point) (n : Nat)
    (hf : m = .release → InI64 (shoelace [a, b, c, a])) (h : area2 m [a, b, c, a] = .ok n) :
    areaOf (enclosed (segs [a, b, c, a])) = n / 2 := by
  have h1 : (Ring.points [a, b, c, a]).area2 m = .ok n := h
  unfold Ring.area2 at h1
  cases hx : (Ring.points [a, b, c, a]).area2AndWindingOrder m with
  | error e => rw [hx] at h1; cases h1
  | ok x =>
    rw [hx] at h1
    obtain rfl : x.1 = n := Except.ok.inj h1
    have h2 := C98_area m (.points [a, b, c, a]) x.1 x.2 rfl hf hx
    rcases le_total 0 (triCross a b c) with h0 | h0
    · exact (h2.1 (triangle_windsOnce h0)).1
    · exact (h2.2 (triangle_windsOnceBack h0)).1

/-- The signed areas of rings, as computed, are those of their segments. -/
theorem rings_signed {m : Build} {o : WindingOrder} {rings : List Ring} {ns : List Nat}
    (h : List.Forall₂ (fun r n => r.area2AndWindingOrder m = .ok (n, o) ∧ (m = .release → InI64 (ringShoelace r))) rings ns) :
    ((rings.flatMap ringSegs).map fun s => cross s.1 s.2).sum = (ns.map fun n => signedOf (n, o)).sum := by
  induction h with
  | nil => rfl
  | cons h1 h2 ih =>
    rw [List.flatMap_cons, List.map_append, List.sum_append, ih, List.map_cons, List.sum_cons, signedOf_area2 h1.1 h1.2,
      ringShoelace_eq_sum]

/-- C98: the area of a region is the areas of its outer rings less those of its
inner rings, if the outer rings are clockwise, the inner ones are not, and they
all together wind around each point at most once. -/
theorem C98_region {δ : Type} (m : Build) (r : Region δ) (ns ks : List Nat)
    (hc : ∀ ring ∈ r.outerRings ++ r.innerRings, RingClosed ring)
    (ho : List.Forall₂ (fun ring n => ring.area2AndWindingOrder m = .ok (n, .clockwise) ∧
      (m = .release → InI64 (ringShoelace ring))) r.outerRings ns)
    (hi : List.Forall₂ (fun ring n => ring.area2AndWindingOrder m = .ok (n, .counterClockwise) ∧
      (m = .release → InI64 (ringShoelace ring))) r.innerRings ks)
    (hw : WindsOnce (regionSegs r)) :
    areaOf (enclosed (regionSegs r)) = ENNReal.ofReal (((ns.sum : ℝ) - ks.sum) / 2) := by
  have hcirc : Circular (regionSegs r) := Circular.flatMap fun ring h => circular_ring (hc ring h)
  rw [area_of_windsOnce hcirc hw]
  congr 2
  unfold regionSegs
  rw [List.flatMap_append, List.map_append, List.sum_append, rings_signed ho, rings_signed hi]
  have h1 : ∀ l : List Nat, (l.map fun n => signedOf (n, .clockwise)).sum = (l.sum : ℤ) := by
    intro l
    induction l with
    | nil => rfl
    | cons a l ih => rw [List.map_cons, List.sum_cons, ih, List.sum_cons, Nat.cast_add]; rfl
  have h2 : ∀ l : List Nat, (l.map fun n => signedOf (n, .counterClockwise)).sum = -(l.sum : ℤ) := by
    intro l
    induction l with
    | nil => rfl
    | cons a l ih => rw [List.map_cons, List.sum_cons, ih, List.sum_cons, Nat.cast_add, signedOf]; ring
  rw [h1, h2, Int.cast_add, Int.cast_neg, Int.cast_natCast, Int.cast_natCast]
  ring

/-- C98, for a region of a topology: the sum of the areas along its rings. -/
theorem C98_topology {δ : Type} (t : Topology δ) (hc : RingsClosed t) (r : TopoRegion δ) (hr : r ∈ t.regions)
    (hw : WindsOnce (topoRegionSegs t r)) :
    areaOf (enclosed (topoRegionSegs t r)) = ENNReal.ofReal ((regionShoelace t r : ℝ) / 2) := by
  have hcirc : Circular (topoRegionSegs t r) := by
    refine Circular.flatMap fun ring h => circular_closed (closed_pathsOf hc ?_)
    unfold allRings
    exact List.mem_flatMap.mpr ⟨r, hr, h⟩
  rw [area_of_windsOnce hcirc hw]
  congr 2
  unfold topoRegionSegs regionShoelace
  generalize r.outerRings ++ r.innerRings = rings
  congr 1
  induction rings with
  | nil => rfl
  | cons ring rings ih =>
    rw [List.flatMap_cons, List.map_append, List.sum_append, ih, List.map_cons, List.sum_cons, shoelaceEdges_eq_sum]

/-- C98: a rational point is enclosed in this sense iff it is by counting crossings,
as C78 and C92 to C94 do. -/
theorem C98_rational (l : List (Point × Point)) (x y : ℚ) : Encloses l x y ↔ ((x : ℝ), (y : ℝ)) ∈ enclosed l :=
  encloses_iff l x y

/-- Without the condition it is false: a triangle run along twice encloses nothing
by the even-odd rule, yet its computed area is that of two triangles. -/
theorem C98_refuted : ¬ ∀ (r : Ring) (n : Nat), RingClosed r → r.area2 .debug = .ok n →
    areaOf (enclosed (ringSegs r)) = n / 2 := by
  intro h
  have h1 := h (.points [⟨0, 0⟩, ⟨1, 0⟩, ⟨0, 1⟩, ⟨0, 0⟩, ⟨1, 0⟩, ⟨0, 1⟩, ⟨0, 0⟩]) 2 (by decide) (by decide +kernel)
  have h2 : enclosed (ringSegs (.points [⟨0, 0⟩, ⟨1, 0⟩, ⟨0, 1⟩, ⟨0, 0⟩, ⟨1, 0⟩, ⟨0, 1⟩, ⟨0, 0⟩])) = ∅ := by
    ext p
    simp only [enclosed, Set.mem_ofPred_eq, Set.mem_empty_iff_false, iff_false, Int.not_odd_iff_even]
    have h3 : ringSegs (.points [⟨0, 0⟩, ⟨1, 0⟩, ⟨0, 1⟩, ⟨0, 0⟩, ⟨1, 0⟩, ⟨0, 1⟩, ⟨0, 0⟩]) =
        segs [⟨0, 0⟩, ⟨1, 0⟩, ⟨0, 1⟩, ⟨0, 0⟩] ++ segs [⟨0, 0⟩, ⟨1, 0⟩, ⟨0, 1⟩, ⟨0, 0⟩] := rfl
    rw [h3, winding_append]
    exact ⟨_, rfl⟩
  rw [h2] at h1
  simp only [areaOf, measure_empty, Nat.cast_ofNat] at h1
  rw [ENNReal.div_self (by simp) (by simp)] at h1
  exact zero_ne_one h1

-- non-vacuity: a triangle, and a triangle with a triangular hole
example : (Ring.points [⟨0, 0⟩, ⟨4, 0⟩, ⟨0, 4⟩, ⟨0, 0⟩]).area2AndWindingOrder .debug = .ok (16, .clockwise) ∧
    RingClosed (.points [⟨0, 0⟩, ⟨4, 0⟩, ⟨0, 4⟩, ⟨0, 0⟩]) := by decide +kernel
example : WindsOnce (ringSegs (.points [⟨0, 0⟩, ⟨4, 0⟩, ⟨0, 4⟩, ⟨0, 0⟩])) := triangle_windsOnce (by decide)
example : areaOf (enclosed (ringSegs (.points [⟨0, 0⟩, ⟨4, 0⟩, ⟨0, 4⟩, ⟨0, 0⟩]))) = 8 := by
  have := ((C98_area .debug (.points [⟨0, 0⟩, ⟨4, 0⟩, ⟨0, 4⟩, ⟨0, 0⟩]) 16 .clockwise (by decide) (by simp)
    (by decide +kernel)).1 (triangle_windsOnce (by decide))).1
  rw [this]
  rw [show ((16 : ℕ) : ENNReal) = 8 * 2 by norm_num, ENNReal.mul_div_cancel_right (by simp) (by simp)]

/-- A triangle with a triangular hole. -/
def holed : Region String :=
  ⟨"a", [.points [⟨0, 0⟩, ⟨4, 0⟩, ⟨0, 4⟩, ⟨0, 0⟩]], [.points [⟨0, 0⟩, ⟨0, 2⟩, ⟨2, 0⟩, ⟨0, 0⟩]]⟩

theorem holed_windsOnce : WindsOnce (regionSegs holed) := by
  intro x y
  simp only [winding, regionSegs, holed, ringSegs, segs, List.cons_append, List.nil_append, List.flatMap_cons,
    List.flatMap_nil, List.map_cons, List.map_nil, List.sum_cons, List.sum_nil, turn_eq, above, crossX, Point.xi, Point.yi]
  norm_num
  by_cases h0 : 0 ≤ y <;> by_cases h2 : 2 ≤ y <;> by_cases h4 : 4 ≤ y <;> simp [h0, h2, h4] <;>
    first
    | (exfalso; linarith)
    | (split_ifs <;> first | (exfalso; linarith) | simp)

example : areaOf (enclosed (regionSegs holed)) = 6 := by
  have := C98_region .debug holed [16] [4] (by decide) (.cons ⟨by decide +kernel, by simp⟩ .nil)
    (.cons ⟨by decide +kernel, by simp⟩ .nil) holed_windsOnce
  rw [this]; norm_num

end TopoGeo
