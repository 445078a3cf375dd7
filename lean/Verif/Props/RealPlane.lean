import Verif.Spec.RealPlane
import Verif.Proofs.RealPlane
import Verif.Props.BuildCover
import Verif.Props.EvenOdd
import Verif.Props.Straighten
import Verif.Props.Area
/-!
# Regions as parts of the real plane, and their areas

C99: building and normalizing keep the part of the real plane that a region
covers, and with it its area. Simplifying changes its area by no more than
the triangles that it cuts off.
-/

namespace TopoGeo

open Spec MeasureTheory

theorem build_step_real {δ : Type} {t : Topology δ} {r : Region δ} {o : Option (TopoRegion δ)} (hs : BuildStep t r o) :
    (∀ r' ∈ o, r'.data = r.data) ∧
        (∀ p ∉ lostPart r, (∃ r' ∈ o, p ∈ enclosed (topoRegionSegs t r')) ↔ p ∈ enclosed (regionSegs r)) ∧
        (areaOf (lostPart r) = 0 → (∀ r' ∈ o, areaOf (enclosed (topoRegionSegs t r')) = areaOf (enclosed (regionSegs r))) ∧
          (o = none → areaOf (enclosed (regionSegs r)) = 0)) := by
  obtain ⟨h3, h4⟩ := build_step_cover hs
  have h5 : ∀ p ∉ lostPart r, (∃ r' ∈ o, p ∈ enclosed (topoRegionSegs t r')) ↔ p ∈ enclosed (regionSegs r) := by
    rintro ⟨x, y⟩ hp
    obtain ⟨x', y', _, _, _, _, h5⟩ := exists_rational_encloses
      (regionSegs r :: (o.toList.map (topoRegionSegs t) ++ (droppedRings r).map ringSegs)) x y 1 one_pos
    have h6 : NothingDropped r x' y' := by
      intro ring hr he
      rw [h5 _ (by simp only [List.mem_cons, List.mem_append, List.mem_map]; exact .inr (.inr ⟨ring, hr, rfl⟩))] at he
      exact hp ⟨ring, hr, he⟩
    have h7 := h4 x' y' h6
    rw [h5 _ (by simp)] at h7
    rw [← h7]
    refine exists_congr fun r' => and_congr_right fun hr' => ?_
    rw [h5]
    simp only [List.mem_cons, List.mem_append, List.mem_map]
    exact .inr (.inl ⟨r', by simpa using hr', rfl⟩)
  refine ⟨h3, h5, fun h0 => ⟨fun r' hr' => ?_, fun hn => ?_⟩⟩
  · refine measure_congr ?_
    have : ∀ᵐ p : ℝ × ℝ, p ∉ lostPart r := by rw [ae_iff]; simpa [areaOf] using h0
    filter_upwards [this] with p hp
    have h6 := h5 p hp
    cases o with
    | none => cases hr'
    | some r'' =>
      obtain rfl : r'' = r' := by simpa using hr'
      simp only [Option.mem_def, Option.some.injEq, exists_eq_left'] at h6
      exact propext h6
  · subst hn
    refine measure_mono_null (fun p hp => ?_) h0
    by_contra hc
    obtain ⟨r', hr', _⟩ := (h5 p hc).mpr hp
    cases hr'

/-- C99: building keeps the part of the plane that a region covers, up to what the
rings enclose that are dropped. -/
theorem C99_build {δ : Type} (m : Build) (rs : List (Region δ)) (t : Topology δ) (h : buildTopology m rs = .ok t) :
    ∃ L : List (Option (TopoRegion δ)), L.reduceOption = t.regions ∧
      List.Forall₂ (fun r o => (∀ r' ∈ o, r'.data = r.data) ∧
        (∀ p ∉ lostPart r, (∃ r' ∈ o, p ∈ enclosed (topoRegionSegs t r')) ↔ p ∈ enclosed (regionSegs r)) ∧
        (areaOf (lostPart r) = 0 → (∀ r' ∈ o, areaOf (enclosed (topoRegionSegs t r')) = areaOf (enclosed (regionSegs r))) ∧
          (o = none → areaOf (enclosed (regionSegs r)) = 0))) rs L := by
  obtain ⟨L, h1, h2⟩ := build_steps h
  exact ⟨L, h1, h2.imp fun _ _ => build_step_real⟩

/-- C99: a ring of area zero that winds at most once encloses next to nothing, so
that dropping it does not matter. -/
theorem C99_dropped (r : Ring) (hc : RingClosed r) (h0 : ringShoelace r = 0)
    (hw : WindsOnce (ringSegs r) ∨ WindsOnceBack (ringSegs r)) : areaOf (enclosed (ringSegs r)) = 0 := by
  rcases hw with hw | hw
  · rw [area_of_windsOnce (circular_ring hc) hw, ← ringShoelace_eq_sum, h0]; simp
  · rw [area_of_windsOnceBack (circular_ring hc) hw, ← ringShoelace_eq_sum, h0]; simp

/-- C99: if no edge has the same region on both sides, normalizing keeps the part of
the plane that a region covers, and so its area. -/
theorem C99_normalize {δ : Type} (m : Build) (t t' : Topology δ) (hw : WellFormed t) (hs : NoSelfEdges t (allRings t))
    (ho : ∀ r ∈ t.regions, r.outerRings ≠ []) (h : normalize m t = .ok t') :
    List.Forall₂ (fun r r' => r'.data = r.data ∧ enclosed (topoRegionSegs t' r') = enclosed (topoRegionSegs t r) ∧
      areaOf (enclosed (topoRegionSegs t' r')) = areaOf (enclosed (topoRegionSegs t r))) t.regions t'.regions := by
  refine (C78_topology m t t' hw hs ho h).imp ?_
  rintro r r' ⟨h1, h2⟩
  have := enclosed_congr h2
  exact ⟨h1, this, by rw [this]⟩

/-- C99: in general normalizing yields the topology of regions that cover the same
parts of the plane. -/
theorem C99_normalize_regions {δ : Type} (m : Build) (t t' : Topology δ) (hb : BackPointersExact t) (hc : RingsClosed t)
    (h : normalize m t = .ok t') :
    ∃ rs : List (Region δ), buildTopology m rs = .ok t' ∧
      List.Forall₂ (fun r r' => r'.data = r.data ∧ enclosed (regionSegs r') = enclosed (topoRegionSegs t r)) t.regions rs := by
  obtain ⟨rs, h1, h2⟩ := C78_even_odd m t t' hb hc h
  exact ⟨rs, h1, h2.imp fun r r' h3 => ⟨h3.1, enclosed_congr h3.2⟩⟩

theorem winding_cons (s : Point × Point) (l : List (Point × Point)) (x y : ℝ) :
    winding (s :: l) x y = turn x y s + winding l x y := by
  simp [winding]

theorem turn_self (x y : ℝ) (p : Point) : turn x y (p, p) = 0 := by
  rw [turn_eq]; simp

/-- A closed path winds as the triangles of its fan do. -/
theorem winding_fan (p q r : Point) (l : List Point) (x y : ℝ) :
    winding (segs (bow (p :: q :: r :: l))) x y =
      winding (segs [p, q, r, p]) x y + winding (segs (bow (p :: r :: l))) x y := by
  have h1 : turn x y (r, p) = -turn x y (p, r) := turn_swap x y (p, r)
  simp only [bow, List.head?_cons, Option.toList_some, List.cons_append, segs, winding_cons, h1]
  have h2 : winding [] x y = 0 := rfl
  rw [h2]
  cases l <;> simp only [List.nil_append, List.cons_append, segs, winding_cons] <;> ring

theorem triangleArea2_eq (a b c : Point) : (triangleArea2 a b c : ℤ) = |triCross a b c| := by
  unfold triangleArea2 triCross
  rw [Int.natCast_natAbs]

/-- What a stretch and the line that replaces it enclose is at most the triangles of
its fan. -/
theorem bow_area (l : List Point) : areaOf (enclosed (segs (bow l))) ≤ (fan l : ENNReal) / 2 := by
  match l with
  | [] => simp [bow, segs, enclosed, winding, areaOf]
  | [p] =>
    have : enclosed (segs (bow [p])) = ∅ := by
      ext z
      simp [bow, segs, enclosed, winding, turn_self]
    rw [this]; simp [areaOf]
  | [p, q] =>
    have : enclosed (segs (bow [p, q])) = ∅ := by
      ext z
      have h1 : turn z.1 z.2 (q, p) = -turn z.1 z.2 (p, q) := turn_swap z.1 z.2 (p, q)
      simp [bow, segs, enclosed, winding, h1]
    rw [this]; simp [areaOf]
  | p :: q :: r :: l =>
    have ih := bow_area (p :: r :: l)
    have h1 : enclosed (segs (bow (p :: q :: r :: l))) ⊆
        enclosed (segs [p, q, r, p]) ∪ enclosed (segs (bow (p :: r :: l))) := by
      intro z hz
      simp only [enclosed, Set.mem_ofPred_eq, winding_fan, Set.mem_union] at hz ⊢
      rw [Int.odd_add] at hz
      by_contra hc
      push Not at hc
      exact hc.1 (hz.mpr (by simpa using hc.2))
    have h2 : areaOf (enclosed (segs [p, q, r, p])) = (triangleArea2 p q r : ENNReal) / 2 := by
      rw [triangle_area]
      have : |(triCross p q r : ℝ)| = (triangleArea2 p q r : ℝ) := by
        have := triangleArea2_eq p q r
        have h3 : ((triangleArea2 p q r : ℤ) : ℝ) = ((|triCross p q r| : ℤ) : ℝ) := by rw [this]
        rw [Int.cast_abs] at h3
        rw [← h3]; simp
      rw [this, ENNReal.ofReal_div_of_pos (by norm_num)]
      simp
    refine (measure_mono h1).trans ((measure_union_le _ _).trans ?_)
    have h3 : (fan (p :: q :: r :: l) : ENNReal) / 2 = (triangleArea2 p q r : ENNReal) / 2 + (fan (p :: r :: l) : ENNReal) / 2 := by
      rw [fan, fanFrom, Nat.cast_add, ENNReal.add_div]; rfl
    rw [h3, ← h2]
    exact add_le_add (le_refl _) ih

open Classical in
/-- C99: what simplifying changes of a region is where an odd number of stretches,
closed by the lines that replace them, go around. The area of it is at most that of
the triangles of their fans. -/
theorem C99_simplify {δ : Type} (m : Build) (t t' : Topology δ) (s : Nat) (hs : s ≤ u64Max) (h : simplify m t s = .ok t') :
    ∃ keeps : List (List Nat), keeps.length = t.edges.length ∧
      (∀ (i : Nat) (e e' : TopoEdge) (k : List Nat), t.edges[i]? = some e → t'.edges[i]? = some e' → keeps[i]? = some k →
        ReducedTo e e' k) ∧
      ∀ r : TopoRegion δ,
        changed (enclosed (topoRegionSegs t' r)) (enclosed (topoRegionSegs t r)) =
          {p | Odd ((bypassed t keeps r).countP fun st => p ∈ enclosed (segs (bow st)))} ∧
        areaOf (changed (enclosed (topoRegionSegs t' r)) (enclosed (topoRegionSegs t r))) ≤
          (((bypassed t keeps r).map fan).sum : ℕ) / 2 := by
  obtain ⟨keeps, h1, h2, h3⟩ := C94_bows m t t' s hs h
  refine ⟨keeps, h1, h2, fun r => ?_⟩
  have h4 : changed (enclosed (topoRegionSegs t' r)) (enclosed (topoRegionSegs t r)) =
      {p | Odd ((bypassed t keeps r).countP fun st => p ∈ enclosed (segs (bow st)))} := by
    ext ⟨x, y⟩
    obtain ⟨x', y', _, _, _, _, h5⟩ := exists_rational_encloses
      (topoRegionSegs t' r :: topoRegionSegs t r :: (bypassed t keeps r).map fun st => segs (bow st)) x y 1 one_pos
    have h6 := h3 r x' y'
    rw [h5 _ (by simp), h5 _ (by simp)] at h6
    have h7 : (bypassed t keeps r).countP (fun st => Encloses (segs (bow st)) x' y') =
        (bypassed t keeps r).countP fun st => (x, y) ∈ enclosed (segs (bow st)) := by
      apply List.countP_congr
      intro st hst
      simp only [decide_eq_true_eq]
      exact h5 _ (by simp only [List.mem_cons, List.mem_map]; exact .inr (.inr ⟨st, hst, rfl⟩))
    rw [h7] at h6
    simp only [Set.mem_ofPred_eq, changed, Set.mem_symmDiff]
    rw [← Nat.not_even_iff_odd, ← h6]
    tauto
  refine ⟨h4, ?_⟩
  have h8 : ∀ l : List (List Point), areaOf {p | Odd (l.countP fun st => p ∈ enclosed (segs (bow st)))} ≤ ((l.map fan).sum : ℕ) / 2 := by
    intro l
    induction l with
    | nil => simp [areaOf]
    | cons st l ih =>
      have h9 : {p | Odd ((st :: l).countP fun st => p ∈ enclosed (segs (bow st)))} ⊆
          enclosed (segs (bow st)) ∪ {p | Odd (l.countP fun st => p ∈ enclosed (segs (bow st)))} := by
        intro p hp
        simp only [Set.mem_ofPred_eq, Set.mem_union, List.countP_cons, decide_eq_true_eq] at hp ⊢
        by_cases hm : p ∈ enclosed (segs (bow st))
        · exact .inl hm
        · rw [if_neg hm] at hp; exact .inr hp
      refine (measure_mono h9).trans ((measure_union_le _ _).trans ?_)
      rw [List.map_cons, List.sum_cons, Nat.cast_add, ENNReal.add_div]
      exact add_le_add (bow_area st) ih
  rw [h4]
  exact h8 _

/-! ## The hypotheses can be met -/

-- the shared edge of the two stacked regions is straightened: one triangle
example : simplify .debug exStack 300 = .ok exStackSimple := by decide +kernel
example : fan [⟨10, 50⟩, ⟨30, 52⟩, ⟨90, 50⟩] = 160 := by decide +kernel

end TopoGeo
