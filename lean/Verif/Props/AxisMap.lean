import Verif.Props.ClipSquare
import Verif.Props.ClipCover
import Verif.Proofs.ClipTwins
/-!
# C128: maps of horizontal and vertical borders go through the whole pipeline
-/

namespace TopoGeo

open Spec

/-- Borders that do not run along themselves pass a line that they cut squarely once
in a point. -/
theorem passesOnce_square {δ : Type} {mask : ClipMask} {t : Topology δ} (hd : DrawnTopology t) (hs : CutsSquare mask t) :
    PassesOnce mask t := fun _ hr c => (square_once hd hs hr c).trans (by omega)

/-- C128: if no point belongs to two regions, no border runs along itself or stays where
it is, and the mask line is passed at right angles only, then the topology can be
clipped, and what comes out can be normalized and simplified, before and after. -/
theorem C128_clipped {δ : Type} (mask : ClipMask) (t : Topology δ) (s : Nat) (hs : s ≤ u64Max) (hw : WellFormed t)
    (hused : ∀ i < t.edges.length, ∃ de ∈ allDirectedEdges t, de.edge = i) (hd : DrawnTopology t) (hc : CutsSquare mask t) :
    ∃ t1 t2, clipTopology .release t mask = .ok t1 ∧ normalize .release t1 = .ok t2 ∧
      NoSelfEdges t1 (allRings t1) ∧ (∀ p q, passes t1 p q ≤ 2) ∧
      (∃ u, simplify .release t1 s = .ok u) ∧ ∃ u, simplify .release t2 s = .ok u := by
  obtain ⟨t1, t2, h1, h2, h3, h4, _⟩ := C125_normalizes mask t hw hd (passesOnce_square hd hc) (square_apart hc)
  obtain ⟨u1, u2, g1, g2, g3, g4⟩ := C126_clipped mask t s hs hw hused hd (passesOnce_square hd hc) (square_apart hc)
  obtain rfl := Except.ok.inj (h1.symm.trans g1)
  obtain rfl := Except.ok.inj (h2.symm.trans g2)
  exact ⟨t1, t2, h1, h2, h3, h4, g3, g4⟩

/-- A map of horizontal and vertical borders passes every line at right angles, and
does so after it is normalized. -/
theorem axis_maps {δ : Type} {m : Build} {rs : List (Region δ)} {t t1 : Topology δ} (ht : buildTopology m rs = .ok t)
    (h1 : normalize m t = .ok t1) (hns : NoSelfEdges t (allRings t))
    (closed : ∀ r ∈ rs, ∀ ring ∈ r.outerRings ++ r.innerRings, ringArea ring ≠ 0 → ClosedRing (ringPaths ring))
    (hax : ∀ k ∈ keptRegions rs, ∀ s ∈ partSegs k.rings, AxisParallel s) (mask : ClipMask) :
    CutsSquare mask t ∧ CutsSquare mask t1 := by
  obtain ⟨hw, ho, _⟩ := wellFormed_of_built ht closed
  have hax0 : ∀ r ∈ t.regions, ∀ s ∈ topoRegionSegs t r, AxisParallel s := by
    intro r hr s hmem
    obtain ⟨k, hk, hkr⟩ := forall₂_exists_left (topoRegionSegs_built ht) hr
    rw [hkr] at hmem
    exact hax k hk s hmem
  have hax1 : ∀ r ∈ t1.regions, ∀ s ∈ topoRegionSegs t1 r, AxisParallel s := by
    intro r1 hr1 s hmem
    obtain ⟨r, hr, l, hl, hf⟩ := segsTurned_normalized hw hns ho h1 r1 hr1
    obtain ⟨s', hs', h⟩ := forall₂_exists_right hf (hl.mem_iff.mp hmem)
    rcases h with rfl | rfl
    · exact hax0 r hr _ hs'
    · exact (hax0 r hr _ hs').swap
  obtain ⟨rs', hb, _⟩ := normalize_rebuilt hw.pointers hw.closed h1
  exact ⟨square_of_axis (used_built ht) hax0 mask, square_of_axis (used_built hb) hax1 mask⟩

/-- C128: from the regions on. A map of horizontal and vertical borders is built,
normalized, clipped, normalized again and simplified, whatever the mask and the
threshold are, and could have been clipped before it was normalized. -/
theorem C128_pipeline {δ : Type} (mask : ClipMask) (s : Nat) (hs : s ≤ u64Max) (rs : List (Region δ)) (hd : DrawnMap rs)
    (closed : ∀ r ∈ rs, ∀ ring ∈ r.outerRings ++ r.innerRings, ringArea ring ≠ 0 → ClosedRing (ringPaths ring))
    (hax : ∀ k ∈ keptRegions rs, ∀ s ∈ partSegs k.rings, AxisParallel s) :
    ∃ t t1, buildTopology .release rs = .ok t ∧ normalize .release t = .ok t1 ∧
      ∀ u, (u = t ∨ u = t1) → ∃ u1 u2, clipTopology .release u mask = .ok u1 ∧ normalize .release u1 = .ok u2 ∧
        (∃ v, simplify .release u s = .ok v) ∧ (∃ v, simplify .release u1 s = .ok v) ∧ ∃ v, simplify .release u2 s = .ok v := by
  obtain ⟨t, t1, ht, h1, hns, _⟩ := C123_normalize rs hd closed
  obtain ⟨hw, ho, _⟩ := wellFormed_of_built ht closed
  have hdt := drawnTopology_of_map hd ht
  have hd1 := drawn_normalized hw hns ho hdt h1
  have hw1 := wellFormed_normalize hw h1
  obtain ⟨hc, hc1⟩ := axis_maps ht h1 hns closed hax mask
  obtain ⟨rs', hb, _⟩ := normalize_rebuilt hw.pointers hw.closed h1
  refine ⟨t, t1, ht, h1, ?_⟩
  rintro u (rfl | rfl)
  · obtain ⟨u1, u2, g1, g2, _, _, g3, g4⟩ := C128_clipped mask u s hs hw (used_built ht) hdt hc
    exact ⟨u1, u2, g1, g2, C126_simplifies u s hs hw (used_built ht) hdt, g3, g4⟩
  · obtain ⟨u1, u2, g1, g2, _, _, g3, g4⟩ := C128_clipped mask u s hs hw1 (used_built hb) hd1 hc1
    exact ⟨u1, u2, g1, g2, C126_simplifies u s hs hw1 (used_built hb) hd1, g3, g4⟩

/-- C128: if the coordinates have at most `k` bits, at most 21, and three times the number of
segments times 2^2k is below 2^63, then this holds for both builds. -/
theorem C128_small {δ : Type} (m : Build) (k : Nat) (hk : k ≤ 21) (mask : ClipMask) (s : Nat) (hs : s ≤ u64Max)
    (rs : List (Region δ)) (hd : DrawnMap rs)
    (closed : ∀ r ∈ rs, ∀ ring ∈ r.outerRings ++ r.innerRings, ringArea ring ≠ 0 → ClosedRing (ringPaths ring))
    (hax : ∀ k ∈ keptRegions rs, ∀ s ∈ partSegs k.rings, AxisParallel s)
    (hg : ∀ s ∈ givenSegs rs, OnGrid k s.1 ∧ OnGrid k s.2) (h : 3 * (givenSegs rs).length * 2 ^ (2 * k) < 2 ^ 63) :
    ∃ t t1 t2 t3 t4, buildTopology m rs = .ok t ∧ normalize m t = .ok t1 ∧ clipTopology m t1 mask = .ok t2 ∧
      normalize m t2 = .ok t3 ∧ simplify m t3 s = .ok t4 := by
  obtain ⟨t, t1, ht, h1, hrest⟩ := C126_small m k hk mask s hs rs hd closed hg h
  obtain ⟨u, u1, hu, hu1, hns, _⟩ := C123_normalize rs hd closed
  have e0 : t = u := by
    have hh : StopsOrSame (buildTopology .debug rs) (buildTopology .release rs) := .bind (addRegions_checked _ _) fun _ => .refl _
    cases m with
    | release => exact Except.ok.inj (ht.symm.trans hu)
    | debug =>
      rcases hh with hh | hh
      · rw [ht] at hh; cases hh
      · rw [ht, hu] at hh; exact Except.ok.inj hh
  subst e0
  obtain ⟨hw, ho, _⟩ := wellFormed_of_built ht closed
  have hd1 := drawn_normalized hw hns ho (drawnTopology_of_map hd ht) h1
  have hc1 := (axis_maps ht h1 hns closed hax mask).2
  obtain ⟨t2, t3, t4, g⟩ := hrest (passesOnce_square hd1 hc1) (square_apart hc1)
  exact ⟨t, t1, t2, t3, t4, ht, h1, g⟩

/-- Borders cut at right angles only: no product is too large. -/
theorem productsFit_square {δ : Type} {mask : ClipMask} {t : Topology δ} (hc : CutsSquare mask t) : ProductsFit mask t := by
  intro e he p q hpq hcross
  have hmem : (p, q) ∈ storedSegs t := List.mem_flatMap.mpr ⟨e, he, mem_segs_of_pairs hpq⟩
  have := hc (p, q) hmem (by unfold PassesLine; unfold Crosses at hcross; simp only; omega)
  rw [show other mask p = other mask q from this, sub_self, mul_zero]
  decide

/-- C128: no border moves. A region of the clipped topology covers precisely those points
inside of the mask that the region covered which it comes from, except for what rings
enclosed that are dropped because what is left of them has area zero. -/
theorem C128_covers {δ : Type} (m : Build) (mask : ClipMask) (t t' : Topology δ) (h : clipTopology m t mask = .ok t')
    (hw : WellFormed t) (hc : CutsSquare mask t) :
    ∃ L, Survivors t t' L ∧ List.Forall₂ (fun r o => ∀ x y, Within mask x y → KeepsRings m mask t r x y →
      ((∃ r' ∈ o, Encloses (topoRegionSegs t' r') x y) ↔ Encloses (topoRegionSegs t r) x y)) t.regions L := by
  obtain ⟨L, hL, hf⟩ := C92_inside m mask t t' h (fun e he => two_le_of_extended (hw.extended e he)) hw.closed (productsFit_square hc)
  refine ⟨L, hL, hf.imp ?_⟩
  intro r o hro x y hin hk
  refine hro x y hin ?_ hk
  rintro ⟨s, hs, ⟨hcross, hne⟩, _⟩
  obtain ⟨ring, _, hs⟩ := List.mem_flatMap.mp hs
  have hp : PassesLine mask s := by unfold PassesLine; unfold Crosses at hcross; omega
  rcases mem_topoRingSegs hs with hs | hs
  · exact hne (hc s hs hp)
  · exact hne (hc _ hs ((passesLine_swap mask s).mpr hp)).symm

-- non-vacuity: the spiral and the regions in it, clipped through the middle
example : DrawnMap exSpiral ∧
    (∀ r ∈ exSpiral, ∀ ring ∈ r.outerRings ++ r.innerRings, ringArea ring ≠ 0 → ClosedRing (ringPaths ring)) ∧
    (∀ k ∈ keptRegions exSpiral, ∀ s ∈ partSegs k.rings, AxisParallel s) ∧
    (∀ s ∈ givenSegs exSpiral, OnGrid 5 s.1 ∧ OnGrid 5 s.2) ∧ 3 * (givenSegs exSpiral).length * 2 ^ (2 * 5) < 2 ^ 63 :=
  ⟨spiralMap_drawn 0, spiralMap_closed 0, fun k hk s hs => (spiralMap_axis 0 k hk s hs).1, by decide +kernel, by decide +kernel⟩

end TopoGeo
