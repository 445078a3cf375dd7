import Verif.Proofs.ClipArea
import Verif.Props.ClipCover
import Verif.Props.RealPlane
/-!
# Property C100: clipping keeps the part of a region inside of the mask, up to a bounded area
-/

namespace TopoGeo

open Spec MeasureTheory

theorem clip_step_real {δ : Type} {m : Build} {mask : ClipMask} {t t' : Topology δ} {cs : List (List Point)}
    (hcs : ClippedBy m mask t.edges cs)
    (hlen : ∀ e ∈ t.edges, 2 ≤ e.points.length) (hclosed : RingsClosed t) (hprod : ProductsFit mask t) {r : TopoRegion δ}
    (hr : r ∈ t.regions) {o : Option (TopoRegion δ)} (ho : ClipStep cs t' r o) :
    ∀ p ∈ insideOf mask, p ∉ cutZone mask (topoRegionSegs t r) → p ∉ lostInside m mask t r →
      ((∃ r' ∈ o, p ∈ enclosed (topoRegionSegs t' r')) ↔ p ∈ enclosed (topoRegionSegs t r)) := by
  rintro ⟨x, y⟩ hp hz hl
  have hU : IsOpen (insideOf mask ∩ {p | ∃ s ∈ cutSegs mask (topoRegionSegs t r), p ∈ nearSegment mask s}ᶜ) :=
    (isOpen_insideOf mask).inter (isClosed_nearSegments mask _).isOpen_compl
  obtain ⟨x', y', ⟨h4, h5⟩, h6⟩ := exists_rational_in
    (topoRegionSegs t r :: (o.toList.map (topoRegionSegs t') ++ (lostRings cs r).map (topoRingSegs t))) _ hU x y
    ⟨hp, fun hc => hz ⟨hp, hc⟩⟩
  have h7 := clip_step_inside hcs hlen hclosed hprod hr ho x' y' ((within_iff mask x' y').mpr h4) (by
    rintro ⟨s, hs, hc, hn⟩
    exact h5 ⟨s, List.mem_filter.mpr ⟨hs, by simpa using hc⟩, nearSegment_of hn⟩) (by
    intro ring hring he
    rw [h6 _ (by simp only [List.mem_cons, List.mem_append, List.mem_map]; exact .inr (.inr ⟨ring, hring, rfl⟩))] at he
    exact hl ⟨hp, cs, hcs, ring, hring, he⟩)
  rw [h6 _ (by simp)] at h7
  rw [← h7]
  refine exists_congr fun r' => and_congr_right fun hr' => ?_
  rw [h6]
  simp only [List.mem_cons, List.mem_append, List.mem_map]
  exact .inr (.inl ⟨r', by simpa using hr', rfl⟩)

/-- C100: clipping does not change whether a region covers a point of the real plane
inside of the mask. Except where rounding may move the border, within one unit from
a segment that the mask line cuts, not at a right angle, and in rings that are
dropped. -/
theorem C100_inside {δ : Type} (m : Build) (mask : ClipMask) (t t' : Topology δ) (h : clipTopology m t mask = .ok t')
    (hlen : ∀ e ∈ t.edges, 2 ≤ e.points.length) (hclosed : RingsClosed t) (hprod : ProductsFit mask t) :
    ∃ L, Survivors t t' L ∧ List.Forall₂ (fun r o => ∀ p ∈ insideOf mask, p ∉ cutZone mask (topoRegionSegs t r) →
      p ∉ lostInside m mask t r →
      ((∃ r' ∈ o, p ∈ enclosed (topoRegionSegs t' r')) ↔ p ∈ enclosed (topoRegionSegs t r))) t.regions L := by
  obtain ⟨cs, L, hcs, hL, hs⟩ := clip_steps h
  exact ⟨L, hL, forall₂_imp_mem hs fun r hr o ho => clip_step_real hcs hlen hclosed hprod hr ho⟩

/-- C100: a clipped region covers no point of the real plane outside of the mask. -/
theorem C100_outside {δ : Type} (m : Build) (mask : ClipMask) (t t' : Topology δ) (h : clipTopology m t mask = .ok t')
    (r : TopoRegion δ) (hr : r ∈ t'.regions) : enclosed (topoRegionSegs t' r) ∩ insideOf (mirror mask) = ∅ := by
  ext ⟨x, y⟩
  simp only [Set.mem_inter_iff, Set.mem_empty_iff_false, iff_false, not_and]
  intro he hi
  obtain ⟨x', y', h4, h6⟩ := exists_rational_in [topoRegionSegs t' r] _ (isOpen_insideOf (mirror mask)) x y hi
  exact C92_outside m mask t t' h r hr x' y' ((within_iff _ _ _).mpr h4) ((h6 _ (by simp)).mpr he)

theorem survivor_mem {δ : Type} {t t' : Topology δ} {L : List (Option (TopoRegion δ))} (hL : Survivors t t' L) :
    ∀ o ∈ L, ∀ r' ∈ o, r' ∈ t'.regions := by
  intro o ho r' hr'
  rw [← hL.1]
  obtain rfl : o = some r' := hr'
  exact List.reduceOption_mem_iff.mpr ho

theorem clip_step_area {δ : Type} {m : Build} {mask : ClipMask} {t t' : Topology δ} {cs : List (List Point)}
    (h : clipTopology m t mask = .ok t') (hcs : ClippedBy m mask t.edges cs)
    (hlen : ∀ e ∈ t.edges, 2 ≤ e.points.length) (hclosed : RingsClosed t) (hprod : ProductsFit mask t) {r : TopoRegion δ}
    (hr : r ∈ t.regions) {o : Option (TopoRegion δ)} (hmem : ∀ r' ∈ o, r' ∈ t'.regions) (ho : ClipStep cs t' r o) :
    areaOf (changed {p | ∃ r' ∈ o, p ∈ enclosed (topoRegionSegs t' r')} (enclosed (topoRegionSegs t r) ∩ insideOf mask)) ≤
      areaOf (lostInside m mask t r) + 2 * cutDepth mask (topoRegionSegs t r) := by
  have h4 := clip_step_real hcs hlen hclosed hprod hr ho
  have hsub : changed {p | ∃ r' ∈ o, p ∈ enclosed (topoRegionSegs t' r')} (enclosed (topoRegionSegs t r) ∩ insideOf mask) ⊆
      lostInside m mask t r ∪ (cutZone mask (topoRegionSegs t r) ∪ {p | p ∉ insideOf mask ∧ p ∉ insideOf (mirror mask)}) := by
    intro p hp
    by_contra hc
    simp only [Set.mem_union, not_or] at hc
    obtain ⟨c1, c2, c3⟩ := hc
    by_cases hi : p ∈ insideOf mask
    · have h5 := h4 p hi c2 c1
      rcases hp with ⟨⟨r', hr', he⟩, hn⟩ | ⟨⟨he, _⟩, hn⟩
      · exact hn ⟨h5.mp ⟨r', hr', he⟩, hi⟩
      · exact hn (h5.mpr he)
    · rcases hp with ⟨⟨r', hr', he⟩, _⟩ | ⟨⟨_, hn⟩, _⟩
      · refine c3 ⟨hi, fun hi' => ?_⟩
        have := C100_outside m mask t t' h r' (hmem r' hr')
        exact (this ▸ (⟨he, hi'⟩ : p ∈ enclosed (topoRegionSegs t' r') ∩ insideOf (mirror mask)) : p ∈ (∅ : Set (ℝ × ℝ)))
      · exact hi hn
  refine (measure_mono hsub).trans ((measure_union_le _ _).trans (add_le_add (le_refl _) ((measure_union_le _ _).trans ?_)))
  have h0 := maskLine_area mask
  unfold areaOf at h0
  rw [h0, add_zero]
  exact cutZone_area mask _

theorem forall₂_imp_mems {α β : Type} {R S : α → β → Prop} {as : List α} {bs : List β} (h : List.Forall₂ R as bs)
    (himp : ∀ a ∈ as, ∀ b ∈ bs, R a b → S a b) : List.Forall₂ S as bs := by
  induction h with
  | nil => exact .nil
  | cons h1 _ ih => exact .cons (himp _ (by simp) _ (by simp) h1) (ih fun a ha b hb => himp a (by simp [ha]) b (by simp [hb]))

/-- C100: the clipped region and the part of the region inside of the mask differ by
at most twice the depth of the cut segments, in area, besides what dropped rings
enclose. This bounds too what a region that vanishes covers. -/
theorem C100_area {δ : Type} (m : Build) (mask : ClipMask) (t t' : Topology δ) (h : clipTopology m t mask = .ok t')
    (hlen : ∀ e ∈ t.edges, 2 ≤ e.points.length) (hclosed : RingsClosed t) (hprod : ProductsFit mask t) :
    ∃ L, Survivors t t' L ∧ List.Forall₂ (fun r o =>
      areaOf (changed {p | ∃ r' ∈ o, p ∈ enclosed (topoRegionSegs t' r')} (enclosed (topoRegionSegs t r) ∩ insideOf mask)) ≤
        areaOf (lostInside m mask t r) + 2 * cutDepth mask (topoRegionSegs t r)) t.regions L := by
  obtain ⟨cs, L, hcs, hL, hs⟩ := clip_steps h
  exact ⟨L, hL, forall₂_imp_mems hs fun r hr o ho hst =>
    clip_step_area h hcs hlen hclosed hprod hr (survivor_mem hL o ho) hst⟩

/-- C100: a region that the mask line cuts at right angles only, if at all, and of which no ring is dropped
that encloses anything inside, keeps the area that it has inside of the mask. -/
theorem C100_exact {δ : Type} (m : Build) (mask : ClipMask) (t t' : Topology δ) (h : clipTopology m t mask = .ok t')
    (hlen : ∀ e ∈ t.edges, 2 ≤ e.points.length) (hclosed : RingsClosed t) (hprod : ProductsFit mask t) :
    ∃ L, Survivors t t' L ∧ List.Forall₂ (fun r o =>
      (∀ s ∈ topoRegionSegs t r, Crosses mask s.1 s.2 → other mask s.1 = other mask s.2) → areaOf (lostInside m mask t r) = 0 →
        areaOf {p | ∃ r' ∈ o, p ∈ enclosed (topoRegionSegs t' r')} = areaOf (enclosed (topoRegionSegs t r) ∩ insideOf mask))
      t.regions L := by
  obtain ⟨L, hL, h2⟩ := C100_area m mask t t' h hlen hclosed hprod
  refine ⟨L, hL, h2.imp ?_⟩
  intro r o h3 hc h0
  have : cutDepth mask (topoRegionSegs t r) = 0 := by
    unfold cutDepth cutSegs
    rw [List.filter_eq_nil_iff.mpr (fun s hs => by
      rw [decide_eq_true_eq]
      exact fun h => h.2 (hc s hs h.1))]; rfl
  rw [this, h0] at h3
  have h3 : areaOf _ = 0 := le_antisymm (by simpa using h3) (bot_le)
  exact measure_congr (measure_symmDiff_eq_zero_iff.mp h3)

/-- C100: the same ring by ring. A ring of which an area of zero is left, and that
still winds at most once, covered little inside of the mask. -/
theorem C100_ring {δ : Type} (m : Build) (mask : ClipMask) (t t' : Topology δ) (h : clipTopology m t mask = .ok t')
    (hlen : ∀ e ∈ t.edges, 2 ≤ e.points.length) (hclosed : RingsClosed t) (hprod : ProductsFit mask t) :
    ∃ cs, ClippedBy m mask t.edges cs ∧ ∀ ring ∈ allRings t, ∀ left,
      left = ((clippedPieces cs ring).map (Piece.path cs)).flatMap segs →
      areaOf (changed (enclosed left) (enclosed (topoRingSegs t ring)) ∩ insideOf mask) ≤ 2 * cutDepth mask (topoRingSegs t ring) ∧
      (WindsOnce left ∨ WindsOnceBack left → leftArea cs ring = 0 →
        areaOf (enclosed (topoRingSegs t ring) ∩ insideOf mask) ≤ 2 * cutDepth mask (topoRingSegs t ring)) := by
  obtain ⟨cs, hcs, h2⟩ := C92_rings m mask t t' h hlen hclosed hprod
  refine ⟨cs, hcs, fun ring hring left hleft => ?_⟩
  have h3 : ∀ p ∈ insideOf mask, p ∉ cutZone mask (topoRingSegs t ring) →
      (p ∈ enclosed left ↔ p ∈ enclosed (topoRingSegs t ring)) := by
    rintro ⟨x, y⟩ hp hz
    have hU : IsOpen (insideOf mask ∩ {p | ∃ s ∈ cutSegs mask (topoRingSegs t ring), p ∈ nearSegment mask s}ᶜ) :=
      (isOpen_insideOf mask).inter (isClosed_nearSegments mask _).isOpen_compl
    obtain ⟨x', y', ⟨h4, h5⟩, h6⟩ := exists_rational_in [left, topoRingSegs t ring] _ hU x y ⟨hp, fun hc => hz ⟨hp, hc⟩⟩
    rw [← h6 _ (by simp), ← h6 _ (by simp), hleft]
    refine h2 ring hring x' y' ((within_iff mask x' y').mpr h4) ?_
    rintro ⟨s, hs, hc, hn⟩
    exact h5 ⟨s, List.mem_filter.mpr ⟨hs, by simpa using hc⟩, nearSegment_of hn⟩
  refine ⟨(measure_mono ?_).trans (cutZone_area mask _), fun hw h0 => ?_⟩
  · rintro p ⟨hp, hi⟩
    by_contra hz
    have := h3 p hi hz
    rcases hp with ⟨a, b⟩ | ⟨a, b⟩
    · exact b (this.mp a)
    · exact b (this.mpr a)
  · have hcirc : Circular left := by
      by_cases hne : clippedPieces cs ring = []
      · rw [hleft, hne]; exact List.Perm.refl _
      · rw [hleft]; exact circular_closed (clippedPieces_closed hne)
    have hsum : (left.map fun s => cross s.1 s.2).sum = leftArea cs ring := by
      rw [hleft, leftArea, shoelaceEdges]
      induction (clippedPieces cs ring).map (Piece.path cs) with
      | nil => rfl
      | cons a l ih => simp [shoelace_eq_sum, ih]
    have h4 : areaOf (enclosed left) = 0 := by
      rcases hw with hw | hw
      · rw [area_of_windsOnce hcirc hw, hsum, h0]; simp
      · rw [area_of_windsOnceBack hcirc hw, hsum, h0]; simp
    have hsub : enclosed (topoRingSegs t ring) ∩ insideOf mask ⊆ enclosed left ∪ cutZone mask (topoRingSegs t ring) := by
      rintro p ⟨hp, hi⟩
      by_cases hz : p ∈ cutZone mask (topoRingSegs t ring)
      · exact .inr hz
      · exact .inl ((h3 p hi hz).mpr hp)
    refine (measure_mono hsub).trans ((measure_union_le _ _).trans ?_)
    unfold areaOf at h4
    rw [h4, zero_add]
    exact cutZone_area mask _

/-! ## The hypotheses can be met

That the tilted triangle of C92 meets them is shown there. No ring of it is dropped;
the line cuts two of its segments. -/

example : ∀ r ∈ exTilted.regions, lostInside .debug (.minX 5) exTilted r = ∅ := by
  intro r hr
  ext p
  simp only [Set.mem_empty_iff_false, iff_false]
  rintro ⟨_, cs, hcs, ring, hring, _⟩
  have : lostRings cs r = [] := by
    rw [clippedBy_eq hcs]
    clear hring
    revert r
    decide +kernel
  rw [this] at hring
  cases hring
example : exTilted.regions.map (fun r => (cutSegs (.minX 5) (topoRegionSegs exTilted r), cutDepth (.minX 5) (topoRegionSegs exTilted r))) =
    [([(⟨0, 0⟩, ⟨9, 4⟩), (⟨9, 4⟩, ⟨2, 9⟩)], 8)] := by
  decide +kernel

end TopoGeo
