import Verif.Spec.ExactMap
import Verif.Props.ClipWinding
import Verif.Props.Budget
/-!
# Maps that go through the pipeline unharmed

C130: build a topology, clip it, normalize it and simplify it. If the lines of the masks
cut borders at right angles only and rings are simple, then nothing but simplifying
changes what the regions cover inside of the masks.
-/

namespace TopoGeo

open Spec MeasureTheory

theorem winding_zeroLength (x y : ℝ) {e : List Point} (h : ZeroLength e) : winding (segs e) x y = 0 := by
  rcases h with h | ⟨p, rfl⟩
  · match e, h with
    | [], _ => rfl
    | [_], _ => rfl
  · simp [segs, winding, turn_self]

theorem winding_nonzero (x y : ℝ) (l : List (List Point)) :
    winding ((l.filter fun e => ¬ ZeroLength e).flatMap segs) x y = winding (l.flatMap segs) x y := by
  induction l with
  | nil => rfl
  | cons e l ih =>
    rw [List.flatMap_cons, winding_append]
    by_cases h : ZeroLength e
    · rw [List.filter_cons_of_neg (by simpa using h), ih, winding_zeroLength x y h, zero_add]
    · rw [List.filter_cons_of_pos (by simpa using h), List.flatMap_cons, winding_append, ih]

theorem pairs_segs : ∀ ps : List Point, (pairs ps).flatMap segs = segs ps
  | [] => rfl
  | [_] => rfl
  | p :: q :: rest => by
    have := pairs_segs (q :: rest)
    simp only [pairs, List.flatMap_cons, this]
    rfl

/-- The paths of a ring wind as the ring does. -/
theorem ringPaths_winding (ring : Ring) (x y : ℝ) : winding ((ringPaths ring).flatMap segs) x y = winding (ringSegs ring) x y := by
  cases ring with
  | points ps => rw [ringPaths, winding_nonzero, pairs_segs]; rfl
  | edges es => rw [ringPaths, winding_nonzero]; rfl

theorem ringPaths_enclosed (ring : Ring) : enclosed ((ringPaths ring).flatMap segs) = enclosed (ringSegs ring) := by
  ext p
  show Odd _ ↔ Odd _
  rw [ringPaths_winding]

theorem ringPaths_simple {ring : Ring} (h : SimpleRing (ringSegs ring)) : SimpleRing ((ringPaths ring).flatMap segs) := by
  simpa only [SimpleRing, WindsOnce, WindsOnceBack, ringPaths_winding] using h

/-- A ring of a plain region that is dropped encloses nothing. -/
theorem plain_dropped {δ : Type} {r : Region δ} (hp : PlainGiven r) {ring : Ring} (hr : ring ∈ r.outerRings ++ r.innerRings)
    (h0 : ringArea ring = 0) : enclosed (ringSegs ring) = ∅ :=
  simple_empty (circular_ring (hp.closed ring hr)) (hp.simple ring hr)
    (by rw [← ringShoelace_eq_sum]; exact wrap64_zero_small (hp.fit ring hr) h0)

/-- C130: building a topology drops no part of the plane from plain regions. -/
theorem C130_nothing_lost {δ : Type} (r : Region δ) (hp : PlainGiven r) : lostPart r = ∅ := by
  rw [Set.eq_empty_iff_forall_notMem]
  rintro p ⟨ring, hring, hpe⟩
  unfold droppedRings at hring
  split at hring
  · rename_i hk
    have hout : ∀ ring ∈ r.outerRings, p ∉ enclosed (ringSegs ring) := by
      intro ring hr he
      have h0 : ringArea ring = 0 := by
        by_contra hne
        have : ring ∈ keptRings r.outerRings := List.mem_filter.mpr ⟨hr, by simpa using hne⟩
        rw [hk] at this
        cases this
      rw [plain_dropped hp (List.mem_append_left _ hr) h0] at he
      cases he
    rcases List.mem_append.mp hring with hr | hr
    · exact hout ring hr hpe
    · obtain ⟨outer, ho, he⟩ := hp.holes ring hr p hpe
      exact hout outer ho he
  · obtain ⟨hr, h0⟩ := List.mem_filter.mp hring
    rw [plain_dropped hp hr (by simpa using h0)] at hpe
    cases hpe

theorem plain_kept {δ : Type} {rs : List (Region δ)} (hp : ∀ r ∈ rs, PlainGiven r) : ∀ k ∈ keptRegions rs, PlainRegion k := by
  intro k hk
  obtain ⟨r, hr, rfl⟩ := List.mem_map.mp hk
  have hg := hp r (List.mem_filter.mp hr).1
  have hmem : ∀ paths ∈ (keptRings r.outerRings).map ringPaths ++ (keptRings r.innerRings).map ringPaths,
      ∃ ring ∈ r.outerRings ++ r.innerRings, paths = ringPaths ring := by
    intro paths hpaths
    rcases List.mem_append.mp hpaths with h | h
    · obtain ⟨ring, hk, rfl⟩ := List.mem_map.mp h
      exact ⟨ring, List.mem_append_left _ (List.mem_filter.mp hk).1, rfl⟩
    · obtain ⟨ring, hk, rfl⟩ := List.mem_map.mp h
      exact ⟨ring, List.mem_append_right _ (List.mem_filter.mp hk).1, rfl⟩
  refine ⟨fun paths hpaths => ?_, fun paths hpaths => ?_, fun inner hinner p he => ?_⟩
  · obtain ⟨ring, hring, rfl⟩ := hmem paths hpaths
    exact ringPaths_simple (hg.simple ring hring)
  · obtain ⟨ring, hring, rfl⟩ := hmem paths hpaths
    rw [shoelaceEdges_ringPaths]
    exact hg.fit ring hring
  · obtain ⟨ring, hring, rfl⟩ := List.mem_map.mp hinner
    rw [ringPaths_enclosed] at he
    obtain ⟨outer, ho, he⟩ := hg.holes ring (List.mem_filter.mp hring).1 p he
    refine ⟨ringPaths outer, List.mem_map.mpr ⟨outer, List.mem_filter.mpr ⟨ho, ?_⟩, rfl⟩, by rwa [ringPaths_enclosed]⟩
    by_contra h0
    rw [plain_dropped hg (List.mem_append_left _ ho) (by simpa using h0)] at he
    cases he

/-- Regions that clipping keeps have outer rings. -/
theorem outer_clipped {δ : Type} {m : Build} {masks : List ClipMask} {t t' : Topology δ}
    (h : masks.foldlM (fun t mask => clipTopology m t mask) t = .ok t') (ho : ∀ r ∈ t.regions, r.outerRings ≠ []) :
    ∀ r ∈ t'.regions, r.outerRings ≠ [] := by
  induction masks generalizing t with
  | nil => obtain rfl := Except.ok.inj h; exact ho
  | cons mask masks ih =>
    rw [List.foldlM_cons] at h
    obtain ⟨t1, h1, h2⟩ := bind_ok.mp h
    refine ih h2 ?_
    intro r hr
    obtain ⟨cs, L, _, hL, hs⟩ := clip_steps h1
    rw [← hL.1] at hr
    obtain ⟨r0, _, hstep⟩ := forall₂_exists_left hs (List.reduceOption_mem_iff.mp hr)
    rcases hstep with ⟨hne, c, hc, _, hf, _⟩ | ⟨_, hc⟩
    · obtain rfl := Option.some.inj hc
      intro h0
      rw [h0] at hf
      exact hne (List.forall₂_nil_right_iff.mp hf)
    · cases hc

theorem wellFormed_masks {δ : Type} {m : Build} {masks : List ClipMask} {t t' : Topology δ}
    (h : masks.foldlM (fun t mask => clipTopology m t mask) t = .ok t') (hw : WellFormed t) : WellFormed t' := by
  induction masks generalizing t with
  | nil => obtain rfl := Except.ok.inj h; exact hw
  | cons mask masks ih =>
    rw [List.foldlM_cons] at h
    obtain ⟨t1, h1, h2⟩ := bind_ok.mp h
    exact ih h2 (C82_clip m mask t t1 hw.extended h1)

/-- Parts of the plane that agree off the lines of some masks differ by an area of zero. -/
theorem off_lines {masks : List ClipMask} {a b : Set (ℝ × ℝ)}
    (h : ∀ p, (∀ mask ∈ masks, p ∈ insideOf mask ∨ p ∈ insideOf (mirror mask)) → (p ∈ a ↔ p ∈ b)) : areaOf (changed a b) = 0 := by
  have hline : volume (⋃ mask ∈ {mask | mask ∈ masks}, {p | p ∉ insideOf mask ∧ p ∉ insideOf (mirror mask)}) = 0 :=
    (measure_biUnion_null_iff (List.finite_toSet masks).countable).mpr fun mask _ => maskLine_area mask
  refine le_antisymm ((measure_mono ?_).trans hline.le) bot_le
  intro p hp
  by_contra hn
  simp only [Set.mem_ofPred_eq, Set.mem_iUnion, exists_prop, not_exists, not_and] at hn
  have := h p fun mask hm => by
    by_contra hh
    push Not at hh
    exact hn mask hm hh.1 hh.2
  simp only [changed, Set.mem_symmDiff] at hp
  tauto

/-- C130: whatever masks, and in either build, if the steps succeed, simplifying is the
only one that changes what regions cover off the lines of the masks. -/
theorem C130_steps {δ : Type} (m : Build) (masks : List ClipMask) (s : Nat) (hs : s ≤ u64Max) (rs : List (Region δ))
    (t t1 t2 t3 : Topology δ) (h0 : buildTopology m rs = .ok t)
    (h1 : masks.foldlM (fun t mask => clipTopology m t mask) t = .ok t1) (h2 : normalize m t1 = .ok t2)
    (h3 : simplify m t2 s = .ok t3)
    (closed : ∀ r ∈ rs, ∀ ring ∈ r.outerRings ++ r.innerRings, ringArea ring ≠ 0 → ClosedRing (ringPaths ring))
    (hc : ∀ mask ∈ masks, CutsSquare mask t) (hself : NoSelfEdges t1 (allRings t1)) (hp : ∀ r ∈ rs, PlainGiven r) :
    ∃ (L : List (Option (TopoRegion δ))) (keeps : List (List Nat)), L.reduceOption = t2.regions ∧ t2.regions = t3.regions ∧
      keeps.length = t2.edges.length ∧
      (∀ (i : Nat) (e e' : TopoEdge) (k : List Nat), t2.edges[i]? = some e → t3.edges[i]? = some e' → keeps[i]? = some k →
        ReducedTo e e' k) ∧
      List.Forall₂ (fun r o => (∀ r' ∈ o, r'.data = r.data) ∧
        (∀ p, (∀ mask ∈ masks, p ∈ insideOf mask ∨ p ∈ insideOf (mirror mask)) →
          (p ∈ covered t2 o ↔ p ∈ enclosed (Spec.regionSegs r) ∩ window masks)) ∧
        areaOf (covered t2 o) = areaOf (enclosed (Spec.regionSegs r) ∩ window masks) ∧
        areaOf (changed (covered t3 o) (enclosed (Spec.regionSegs r) ∩ window masks)) ≤ fans t2 keeps o / 2) rs L := by
  obtain ⟨hw, ho, _⟩ := wellFormed_of_built h0 closed
  obtain ⟨L0, e0, f0⟩ := C99_build m rs t h0
  obtain ⟨_, L1, hL1, f1⟩ := C129_masks m masks t t1 h1 hw hc (plain_built h0 (plain_kept hp))
  have hw1 : WellFormed t1 := wellFormed_masks h1 hw
  have f2 := C99_normalize m t1 t2 hw1 hself (outer_clipped h1 ho) h2
  obtain ⟨keeps, k1, k2, k3⟩ := C99_simplify m t2 t3 s hs h3
  have e3 := (C45_frame m t2 t3 s h3).1
  have f2' : List.Forall₂ (fun r o => ∃ r2, o = some r2 ∧ r2.data = r.data ∧
      enclosed (topoRegionSegs t2 r2) = enclosed (topoRegionSegs t1 r)) t1.regions (t2.regions.map some) := by
    rw [List.forall₂_map_right_iff]
    exact f2.imp fun r r2 h => ⟨r2, rfl, h.1, h.2.1⟩
  rw [← hL1.1] at f2'
  obtain ⟨L2, e2, f12⟩ := steps_comp (forall₂_both hL1.2 f1) f2'
  rw [reduceOption_map_some] at e2
  rw [← e0] at f12
  have f0' : List.Forall₂ (fun r o => (∀ r' ∈ o, r'.data = r.data) ∧ covered t o = enclosed (Spec.regionSegs r)) rs L0 :=
    forall₂_imp_mem f0 fun r hr o h => ⟨h.1, by
      ext p
      exact h.2.1 p (by rw [C130_nothing_lost r (hp r hr)]; exact Set.notMem_empty p)⟩
  obtain ⟨L, eL, fL⟩ := steps_comp f0' f12
  refine ⟨L, keeps, by rw [eL, e2], e3.symm, k1, k2, fL.imp ?_⟩
  intro r o hro
  have hcov : (∀ r' ∈ o, r'.data = r.data) ∧ ∀ p, (∀ mask ∈ masks, p ∈ insideOf mask ∨ p ∈ insideOf (mirror mask)) →
      (p ∈ covered t2 o ↔ p ∈ enclosed (Spec.regionSegs r) ∩ window masks) := by
    rcases hro with ⟨⟨_, g⟩, rfl⟩ | ⟨r0, ⟨d0, g0⟩, ⟨⟨_, g⟩, rfl⟩ | ⟨r1, ⟨d1, g1⟩, r2, rfl, d2, g2⟩⟩
    · refine ⟨by simp, fun p _ => ?_⟩
      rw [← g, covered_none, covered_none, Set.empty_inter]
    · refine ⟨by simp, fun p hside => ?_⟩
      have := g p hside
      rw [covered_none, ← g0, covered_some]
      simpa [window] using this
    · refine ⟨?_, fun p hside => ?_⟩
      · rintro r' hr'
        obtain rfl := Option.some.inj hr'
        rw [d2, d1 r1 rfl, d0 r0 rfl]
      · have := g1 p hside
        simp only [Option.mem_def, Option.some.injEq, exists_eq_left'] at this
        rw [covered_some, g2, this, ← g0, covered_some]
        rfl
  have hzero := off_lines hcov.2
  have a3 : areaOf (changed (covered t3 o) (covered t2 o)) ≤ (fans t2 keeps o : ENNReal) / 2 := by
    cases o with
    | none => rw [covered_none, covered_none]; simp [changed, areaOf]
    | some r => rw [covered_some, covered_some]; exact (k3 r).2
  refine ⟨hcov.1, hcov.2, measure_congr (measure_symmDiff_eq_zero_iff.mp hzero), ?_⟩
  refine (areaOf_changed_trans _ (covered t2 o) _).trans ?_
  rw [hzero, add_zero]
  exact a3

/-- C130: a map of horizontal and vertical borders that is clipped with one mask goes
through all steps, and only simplifying changes what regions cover off the line of the
mask. -/
theorem C130_map {δ : Type} (mask : ClipMask) (s : Nat) (hs : s ≤ u64Max) (rs : List (Region δ)) (hd : DrawnMap rs)
    (closed : ∀ r ∈ rs, ∀ ring ∈ r.outerRings ++ r.innerRings, ringArea ring ≠ 0 → ClosedRing (ringPaths ring))
    (hax : ∀ k ∈ keptRegions rs, ∀ s ∈ partSegs k.rings, AxisParallel s) (hp : ∀ r ∈ rs, PlainGiven r) :
    ∃ t t1 t2 t3, buildTopology .release rs = .ok t ∧ clipTopology .release t mask = .ok t1 ∧ normalize .release t1 = .ok t2 ∧
      simplify .release t2 s = .ok t3 ∧
      ∃ (L : List (Option (TopoRegion δ))) (keeps : List (List Nat)), L.reduceOption = t2.regions ∧ t2.regions = t3.regions ∧
        keeps.length = t2.edges.length ∧
        (∀ (i : Nat) (e e' : TopoEdge) (k : List Nat), t2.edges[i]? = some e → t3.edges[i]? = some e' → keeps[i]? = some k →
          ReducedTo e e' k) ∧
        List.Forall₂ (fun r o => (∀ r' ∈ o, r'.data = r.data) ∧
          (∀ p, p ∈ insideOf mask ∨ p ∈ insideOf (mirror mask) →
            (p ∈ covered t2 o ↔ p ∈ enclosed (Spec.regionSegs r) ∩ insideOf mask)) ∧
          areaOf (covered t2 o) = areaOf (enclosed (Spec.regionSegs r) ∩ insideOf mask) ∧
          areaOf (changed (covered t3 o) (enclosed (Spec.regionSegs r) ∩ insideOf mask)) ≤ fans t2 keeps o / 2) rs L := by
  obtain ⟨t, u, ht, hu, hns, _⟩ := C123_normalize rs hd closed
  obtain ⟨hw, _, _⟩ := wellFormed_of_built ht closed
  have hc := (axis_maps ht hu hns closed hax mask).1
  obtain ⟨t1, t2, h1, h2, hs1, _, _, t3, h3⟩ := C128_clipped mask t s hs hw (used_built ht) (drawnTopology_of_map hd ht) hc
  have hfold : [mask].foldlM (fun t mask => clipTopology .release t mask) t = .ok t1 := by
    rw [List.foldlM_cons, h1]; rfl
  refine ⟨t, t1, t2, t3, ht, h1, h2, h3, ?_⟩
  have := C130_steps .release [mask] s hs rs t t1 t2 t3 ht hfold h2 h3 closed (by simpa using hc) hs1 hp
  simpa [window] using this

/-! ## The hypotheses can be met -/

theorem given_cells {δ : Type} {n : Nat} {r : Region δ} (hc : ∀ ring ∈ r.outerRings ++ r.innerRings, RingClosed ring)
    (h : ∀ ring ∈ r.outerRings ++ r.innerRings, AlongGrid n (ringSegs ring))
    (hs : ∀ ring ∈ r.outerRings ++ r.innerRings,
      (∀ i ∈ gridCells n, ∀ j ∈ gridCells n, cellWinding (ringSegs ring) i j = 0 ∨ cellWinding (ringSegs ring) i j = 1) ∨
      (∀ i ∈ gridCells n, ∀ j ∈ gridCells n, cellWinding (ringSegs ring) i j = 0 ∨ cellWinding (ringSegs ring) i j = -1))
    (hf : ∀ ring ∈ r.outerRings ++ r.innerRings, (ringShoelace ring).natAbs < 2 ^ 64)
    (hh : ∀ ring ∈ r.innerRings, ∀ i ∈ gridCells n, ∀ j ∈ gridCells n,
      Odd (cellWinding (ringSegs ring) i j) → ∃ outer ∈ r.outerRings, Odd (cellWinding (ringSegs outer) i j)) :
    PlainGiven r := by
  refine ⟨hc, fun ring hr => (hs ring hr).imp ?_ ?_, hf, ?_⟩
  · intro hw x y
    rw [winding_cell (h ring hr)]
    exact hw _ (realCell_mem n x) _ (realCell_mem n y)
  · intro hw x y
    rw [winding_cell (h ring hr)]
    exact hw _ (realCell_mem n x) _ (realCell_mem n y)
  · intro ring hring p hp
    have hp : Odd (winding (ringSegs ring) p.1 p.2) := hp
    rw [winding_cell (h ring (List.mem_append_right _ hring))] at hp
    obtain ⟨outer, ho, heo⟩ := hh ring hring _ (realCell_mem n p.1) _ (realCell_mem n p.2) hp
    refine ⟨outer, ho, ?_⟩
    show Odd _
    rw [winding_cell (h outer (List.mem_append_left _ ho))]
    exact heo

/-- The yard, with a region that is flat, and a flat ring of the pond. -/
def exDitch : List (Region Nat) :=
  [⟨1, [.points [⟨0, 0⟩, ⟨9, 0⟩, ⟨9, 9⟩, ⟨0, 9⟩, ⟨0, 0⟩], .edges [[⟨3, 3⟩, ⟨4, 3⟩, ⟨4, 4⟩], [⟨4, 4⟩, ⟨3, 4⟩, ⟨3, 3⟩]]],
    [.points [⟨2, 2⟩, ⟨2, 5⟩, ⟨5, 5⟩, ⟨5, 2⟩, ⟨2, 2⟩]]⟩,
   ⟨3, [.points [⟨6, 6⟩, ⟨7, 6⟩, ⟨7, 8⟩, ⟨7, 6⟩, ⟨6, 6⟩]], []⟩,
   ⟨2, [.points [⟨6, 2⟩, ⟨8, 2⟩, ⟨6, 2⟩], .points [⟨2, 2⟩, ⟨5, 2⟩, ⟨5, 5⟩, ⟨2, 5⟩, ⟨2, 2⟩]],
    [.points [⟨3, 3⟩, ⟨3, 4⟩, ⟨4, 4⟩, ⟨4, 3⟩, ⟨3, 3⟩]]⟩]

theorem exDitch_drawn : DrawnMap exDitch :=
  ⟨by decide +kernel, covered_cells (n := 9) (by decide +kernel) (by decide +kernel), by decide +kernel, by decide +kernel⟩

theorem exDitch_plain : ∀ r ∈ exDitch, PlainGiven r := by
  have h1 : ∀ r ∈ exDitch, ∀ ring ∈ r.outerRings ++ r.innerRings, RingClosed ring := by decide +kernel
  have h2 : ∀ r ∈ exDitch, ∀ ring ∈ r.outerRings ++ r.innerRings, AlongGrid (9 : Nat) (ringSegs ring) := by decide +kernel
  have h3 : ∀ r ∈ exDitch, ∀ ring ∈ r.outerRings ++ r.innerRings,
      (∀ i ∈ gridCells 9, ∀ j ∈ gridCells 9, cellWinding (ringSegs ring) i j = 0 ∨ cellWinding (ringSegs ring) i j = 1) ∨
      (∀ i ∈ gridCells 9, ∀ j ∈ gridCells 9, cellWinding (ringSegs ring) i j = 0 ∨ cellWinding (ringSegs ring) i j = -1) := by
    decide +kernel
  have h4 : ∀ r ∈ exDitch, ∀ ring ∈ r.outerRings ++ r.innerRings, (ringShoelace ring).natAbs < 2 ^ 64 := by decide +kernel
  have h5 : ∀ r ∈ exDitch, ∀ ring ∈ r.innerRings, ∀ i ∈ gridCells 9, ∀ j ∈ gridCells 9,
      Odd (cellWinding (ringSegs ring) i j) → ∃ outer ∈ r.outerRings, Odd (cellWinding (ringSegs outer) i j) := by decide +kernel
  exact fun r hr => given_cells (h1 r hr) (h2 r hr) (h3 r hr) (h4 r hr) (h5 r hr)

-- non-vacuity: a yard with a pond, an island in it, a region that vanishes and a ring that does
example : DrawnMap exDitch ∧ (∀ r ∈ exDitch, PlainGiven r) ∧
    (∀ r ∈ exDitch, ∀ ring ∈ r.outerRings ++ r.innerRings, ringArea ring ≠ 0 → ClosedRing (ringPaths ring)) ∧
    ∀ k ∈ keptRegions exDitch, ∀ s ∈ partSegs k.rings, AxisParallel s :=
  ⟨exDitch_drawn, exDitch_plain, by decide +kernel, by decide +kernel⟩
-- what comes of it: two regions, the second without a hole if the island is outside
example : ((do
    let t ← buildTopology .release exDitch
    let t1 ← clipTopology .release t (.minX 4)
    let t2 ← normalize .release t1
    let t3 ← simplify .release t2 0
    pure (t3.regions.map fun r => (r.data, r.outerRings.length, r.innerRings.length)) : R _)).toOption =
    some [(1, 1, 1), (2, 1, 0)] := by decide +kernel

end TopoGeo
