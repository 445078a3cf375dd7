import Verif.Proofs.ClipCover
import Verif.Props.ClipHalves
/-!
# Property C92: clipping does not change what regions cover inside of the mask
-/

namespace TopoGeo

open Spec

theorem encloses_append (a b : List (Point × Point)) (x y : ℚ) :
    Encloses (a ++ b) x y ↔ (Encloses a x y ↔ ¬ Encloses b x y) := by
  unfold Encloses
  rw [List.countP_append, Nat.odd_add, Nat.not_odd_iff_even]

theorem not_encloses_flatMap {α : Type} (f : α → List (Point × Point)) (l : List α) (x y : ℚ)
    (h : ∀ a ∈ l, ¬ Encloses (f a) x y) : ¬ Encloses (l.flatMap f) x y := by
  induction l with
  | nil => simp [Encloses]
  | cons a l ih =>
    have h1 := h a (by simp)
    have h2 := ih fun b hb => h b (List.mem_cons_of_mem _ hb)
    rw [List.flatMap_cons, encloses_append]
    tauto

/-- Rings that are dropped do not count, the others count as before. -/
theorem kept_encloses {δ : Type} {t t' : Topology δ} {cs : List (List Point)} {rings rings' : List TopoRing} {x y : ℚ}
    (hk : ∀ ring ∈ rings, Encloses (((clippedPieces cs ring).map (Piece.path cs)).flatMap segs) x y ↔ Encloses (topoRingSegs t ring) x y)
    (hd : ∀ ring ∈ rings, piecesArea cs (clippedPieces cs ring) = 0 → ¬ Encloses (topoRingSegs t ring) x y)
    (h : List.Forall₂ (fun ps ring => ReadsAs t'.edges (ps.map (Piece.path cs)) ring) (keptClipped cs rings) rings') :
    Encloses (rings'.flatMap (topoRingSegs t')) x y ↔ Encloses (rings.flatMap (topoRingSegs t)) x y := by
  induction rings generalizing rings' with
  | nil =>
    cases h
    exact Iff.rfl
  | cons r rings ih =>
    have ih := fun {rings' : List TopoRing} => ih (rings' := rings') (fun a ha => hk a (List.mem_cons_of_mem _ ha))
      (fun a ha => hd a (List.mem_cons_of_mem _ ha))
    have h1 := hk r (by simp)
    have h2 := hd r (by simp)
    unfold keptClipped at ih h
    rw [List.map_cons] at h
    rw [List.flatMap_cons, encloses_append]
    by_cases hz : piecesArea cs (clippedPieces cs r) = 0
    · rw [List.filter_cons_of_neg (by simpa using hz)] at h
      have := h2 hz
      have := ih h
      tauto
    · rw [List.filter_cons_of_pos (by simpa using hz)] at h
      cases h with
      | cons h3 h4 =>
        have := ih h4
        rw [List.flatMap_cons, encloses_append, ← h1, this]
        unfold topoRingSegs at *
        rw [pathsOf_reads h3]

/-- C92: what is left of a ring encloses, inside of the mask, the points that the
ring encloses, except where rounding may have moved a border. -/
theorem C92_rings {δ : Type} (m : Build) (mask : ClipMask) (t t' : Topology δ) (h : clipTopology m t mask = .ok t')
    (hlen : ∀ e ∈ t.edges, 2 ≤ e.points.length) (hclosed : RingsClosed t) (hprod : ProductsFit mask t) :
    ∃ cs, ClippedBy m mask t.edges cs ∧ ∀ ring ∈ allRings t, ∀ x y, Within mask x y →
      ¬ NearCut mask (topoRingSegs t ring) x y →
      (Encloses (((clippedPieces cs ring).map (Piece.path cs)).flatMap segs) x y ↔ Encloses (topoRingSegs t ring) x y) := by
  obtain ⟨cs, hcs, _⟩ := clipTopology_ok h
  refine ⟨cs, hcs, fun ring hring x y hw hn => ?_⟩
  obtain ⟨paths, hr, hc⟩ := hclosed ring hring
  exact ring_encloses hcs hlen hprod hr hc hw hn

/-- How a region of a topology and what clipping makes of it go together. -/
def ClipStep {δ : Type} (cs : List (List Point)) (t' : Topology δ) (r : TopoRegion δ) (o : Option (TopoRegion δ)) : Prop :=
  (keptClipped cs r.outerRings ≠ [] ∧ ∃ c, o = some c ∧ c.data = r.data ∧
    List.Forall₂ (fun ps ring => ReadsAs t'.edges (ps.map (Piece.path cs)) ring) (keptClipped cs r.outerRings) c.outerRings ∧
    List.Forall₂ (fun ps ring => ReadsAs t'.edges (ps.map (Piece.path cs)) ring) (keptClipped cs r.innerRings) c.innerRings) ∨
  (keptClipped cs r.outerRings = [] ∧ o = none)

theorem clip_steps {δ : Type} {m : Build} {mask : ClipMask} {t t' : Topology δ} (h : clipTopology m t mask = .ok t') :
    ∃ cs L, ClippedBy m mask t.edges cs ∧ Survivors t t' L ∧ List.Forall₂ (ClipStep cs t') t.regions L := by
  obtain ⟨cs, hcs, hr⟩ := C31_regions m mask t t' h
  obtain ⟨L, h1, h2⟩ := forall₂_filter_map hr
  refine ⟨cs, L, hcs, ⟨h1, h2.imp ?_⟩, h2.imp ?_⟩
  · rintro r o (⟨_, c, rfl, hd, _⟩ | ⟨_, rfl⟩) r' hr'
    · obtain rfl := Option.some.inj hr'
      exact hd
    · cases hr'
  · rintro r o (⟨hne, c, rfl, hd, h3, h4⟩ | ⟨hnil, rfl⟩)
    · exact .inl ⟨by simpa using hne, c, rfl, hd, h3, h4⟩
    · exact .inr ⟨by simpa using hnil, rfl⟩

theorem clip_step_inside {δ : Type} {m : Build} {mask : ClipMask} {t t' : Topology δ} {cs : List (List Point)}
    (hcs : ClippedBy m mask t.edges cs)
    (hlen : ∀ e ∈ t.edges, 2 ≤ e.points.length) (hclosed : RingsClosed t) (hprod : ProductsFit mask t) {r : TopoRegion δ}
    (hr : r ∈ t.regions) {o : Option (TopoRegion δ)} (ho : ClipStep cs t' r o) (x y : ℚ) (hw : Within mask x y)
    (hn : ¬ NearCut mask (topoRegionSegs t r) x y) (hk : ∀ ring ∈ lostRings cs r, ¬ Encloses (topoRingSegs t ring) x y) :
    (∃ r' ∈ o, Encloses (topoRegionSegs t' r') x y) ↔ Encloses (topoRegionSegs t r) x y := by
  have key : ∀ ring ∈ r.outerRings ++ r.innerRings,
      (Encloses (((clippedPieces cs ring).map (Piece.path cs)).flatMap segs) x y ↔ Encloses (topoRingSegs t ring) x y) := by
    intro ring hring
    obtain ⟨paths, hp, hc⟩ := hclosed ring (List.mem_flatMap.mpr ⟨r, hr, hring⟩)
    refine ring_encloses hcs hlen hprod hp hc hw ?_
    rintro ⟨s, hs, h⟩
    exact hn ⟨s, List.mem_flatMap.mpr ⟨ring, hring, hs⟩, h⟩
  rcases ho with ⟨hne, c, rfl, _, h3, h4⟩ | ⟨hnil, rfl⟩
  · unfold lostRings at hk
    rw [if_neg hne] at hk
    have hd : ∀ ring ∈ r.outerRings ++ r.innerRings, piecesArea cs (clippedPieces cs ring) = 0 →
        ¬ Encloses (topoRingSegs t ring) x y := fun ring hring hz => hk ring (List.mem_filter.mpr ⟨hring, by simpa using hz⟩)
    have e1 := kept_encloses (t := t) (t' := t') (fun a ha => key a (List.mem_append_left _ ha))
      (fun a ha => hd a (List.mem_append_left _ ha)) h3
    have e2 := kept_encloses (t := t) (t' := t') (fun a ha => key a (List.mem_append_right _ ha))
      (fun a ha => hd a (List.mem_append_right _ ha)) h4
    have e3 : Encloses (topoRegionSegs t' c) x y ↔ Encloses (topoRegionSegs t r) x y := by
      show Encloses ((c.outerRings ++ c.innerRings).flatMap (topoRingSegs t')) x y ↔
        Encloses ((r.outerRings ++ r.innerRings).flatMap (topoRingSegs t)) x y
      rw [List.flatMap_append, List.flatMap_append, encloses_append, encloses_append, e1, e2]
    rw [← e3]
    simp
  · unfold lostRings at hk
    rw [if_pos hnil] at hk
    have : ¬ Encloses (topoRegionSegs t r) x y :=
      not_encloses_flatMap (topoRingSegs t) (r.outerRings ++ r.innerRings) x y hk
    simp [this]

/-- C92: clipping does not change whether a region covers a point inside of the
mask. Except: rounding may move a border by less than one unit where the mask line
cuts it, not at a right angle; and a ring whose area is zero once clipped is
dropped, whatever it encloses. -/
theorem C92_inside {δ : Type} (m : Build) (mask : ClipMask) (t t' : Topology δ) (h : clipTopology m t mask = .ok t')
    (hlen : ∀ e ∈ t.edges, 2 ≤ e.points.length) (hclosed : RingsClosed t) (hprod : ProductsFit mask t) :
    ∃ L, Survivors t t' L ∧ List.Forall₂ (fun r o => ∀ x y, Within mask x y → ¬ NearCut mask (topoRegionSegs t r) x y →
      KeepsRings m mask t r x y →
      ((∃ r' ∈ o, Encloses (topoRegionSegs t' r') x y) ↔ Encloses (topoRegionSegs t r) x y)) t.regions L := by
  obtain ⟨cs, L, hcs, hL, hs⟩ := clip_steps h
  exact ⟨L, hL, forall₂_imp_mem hs fun r hr o ho x y hw hn hk => clip_step_inside hcs hlen hclosed hprod hr ho x y hw hn (hk cs hcs)⟩

/-- C92: no region of a clipped map covers a point outside of the mask. -/
theorem C92_outside {δ : Type} (m : Build) (mask : ClipMask) (t t' : Topology δ) (h : clipTopology m t mask = .ok t')
    (r : TopoRegion δ) (hr : r ∈ t'.regions) (x y : ℚ) (hw : Within (mirror mask) x y) :
    ¬ Encloses (topoRegionSegs t' r) x y := by
  have hbox := (C67_rectangle m [mask] t t' (by simpa [List.foldlM] using h)).1 mask (by simp)
  apply not_encloses_flatMap (topoRingSegs t') (r.outerRings ++ r.innerRings) x y
  intro ring hring
  obtain ⟨paths, hp, hc⟩ := C30_closed m mask t t' h ring (List.mem_flatMap.mpr ⟨r, hr, hring⟩)
  unfold topoRingSegs
  rw [pathsOf_reads hp, encloses_away (mask := mirror mask) hc]
  have hz : (paths.map (sumAlong (awayCrosses (mirror mask) x y))).sum = 0 := by
    apply List.sum_eq_zero
    intro n hn
    obtain ⟨path, hpath, rfl⟩ := List.mem_map.mp hn
    have hpts : ∀ p ∈ path, depth (mirror mask) p ≤ 0 := by
      have : some path ∈ ring.directedEdges.map (walk t'.edges) := by
        rw [show ring.directedEdges.map (walk t'.edges) = paths.map some from hp]
        exact List.mem_map_of_mem hpath
      obtain ⟨de, _, hde⟩ := List.mem_map.mp this
      unfold walk at hde
      obtain ⟨e, he, rfl⟩ := Option.map_eq_some_iff.mp hde
      intro p hp
      have hpe : p ∈ e.points := by
        cases hd : de.direction <;> rw [hd] at hp <;> simpa using hp
      have := hbox e (List.mem_of_getElem? he) p hpe
      rw [depth_mirror]
      omega
    clear hn hpath
    induction path with
    | nil => rfl
    | cons p l ih =>
      cases l with
      | nil => rfl
      | cons q l =>
        rw [sumAlong, ih fun a ha => hpts a (List.mem_cons_of_mem _ ha),
          awayCrosses_far hw (hpts p (by simp)) (hpts q (by simp)), add_zero]
  rw [hz]
  simp

-- non-vacuity: a tilted triangle, and points on both sides of its border

theorem nearSegment_iff {mask : ClipMask} {p q : Point} (hc : Crosses mask p q) (x y : ℚ) :
    NearSegment mask p q x y ↔
      0 ≤ (across mask x y - tested mask p) / (tested mask q - tested mask p) ∧
      (across mask x y - tested mask p) / (tested mask q - tested mask p) ≤ 1 ∧
      alongside mask x y < other mask p +
        (across mask x y - tested mask p) / (tested mask q - tested mask p) * (other mask q - other mask p) + 1 ∧
      other mask p + (across mask x y - tested mask p) / (tested mask q - tested mask p) * (other mask q - other mask p) <
        alongside mask x y + 1 := by
  have hne : (tested mask q : ℚ) - tested mask p ≠ 0 := by
    have hb := crosses_between hc
    have : tested mask q - tested mask p ≠ 0 := by omega
    exact_mod_cast this
  constructor
  · rintro ⟨u, h0, h1, h2, h3, h4⟩
    have : u = (across mask x y - tested mask p) / (tested mask q - tested mask p) := by
      rw [h2, eq_div_iff hne]; ring
    rw [← this]
    exact ⟨h0, h1, h3, h4⟩
  · rintro ⟨h0, h1, h3, h4⟩
    exact ⟨_, h0, h1, by rw [div_mul_cancel₀ _ hne]; ring, h3, h4⟩

instance (mask : ClipMask) (segments : List (Point × Point)) (x y : ℚ) : Decidable (NearCut mask segments x y) :=
  have (s : Point × Point) : Decidable (CutAskew mask s ∧ NearSegment mask s.1 s.2 x y) :=
    if hc : CutAskew mask s then
      decidable_of_iff _ ((nearSegment_iff hc.1 x y).symm.trans ⟨fun h => ⟨hc, h⟩, fun h => h.2⟩)
    else .isFalse fun h => hc h.1
  inferInstanceAs (Decidable (∃ s ∈ segments, _))

/-- The right part of the triangle. -/
def exTiltedRight : Topology Nat :=
  match clipTopology .debug exTilted (.minX 5) with
  | .ok t => t
  | .error _ => ⟨[], []⟩

example : clipTopology .debug exTilted (.minX 5) = .ok exTiltedRight ∧ (∀ e ∈ exTilted.edges, 2 ≤ e.points.length) := by
  decide +kernel
example : RingsClosed exTilted := by
  intro ring hring
  refine ⟨ring.directedEdges.map fun de => (walk exTilted.edges de).getD [], ?_, ?_⟩
  · revert ring; unfold ReadsAs; decide +kernel
  · revert ring; decide +kernel
example : ProductsFit (.minX 5) exTilted := (C76_checked (.minX 5) exTilted exTiltedRight (by decide +kernel)).1
example : ∀ r ∈ exTilted.regions, ∀ x y, KeepsRings .debug (.minX 5) exTilted r x y := by
  intro r hr x y cs hcs ring hring
  have : lostRings cs r = [] := by
    rw [clippedBy_eq hcs]
    clear hring
    revert r
    decide +kernel
  rw [this] at hring
  cases hring
example : Within (.minX 5) (11 / 2) 4 ∧ Within (.minX 5) 6 9 := by decide +kernel
example : ∀ r ∈ exTilted.regions,
    (¬ NearCut (.minX 5) (topoRegionSegs exTilted r) (11 / 2) 4 ∧ Encloses (topoRegionSegs exTilted r) (11 / 2) 4) ∧
    ¬ NearCut (.minX 5) (topoRegionSegs exTilted r) 6 9 ∧ ¬ Encloses (topoRegionSegs exTilted r) 6 9 := by
  decide +kernel

-- next to the cut the border moves: this point is covered only once it is clipped
example : Within (.minX 5) (11 / 2) (12 / 5) ∧
    (∀ r ∈ exTilted.regions, ¬ Encloses (topoRegionSegs exTilted r) (11 / 2) (12 / 5) ∧
      NearCut (.minX 5) (topoRegionSegs exTilted r) (11 / 2) (12 / 5)) ∧
    ∀ r ∈ exTiltedRight.regions, Encloses (topoRegionSegs exTiltedRight r) (11 / 2) (12 / 5) := by
  decide +kernel

/-- Two rectangles that touch in a point, walked in opposite directions. -/
def exEight : Topology Nat :=
  match buildTopology .debug [⟨1, [.points [⟨10, 10⟩, ⟨30, 10⟩, ⟨30, 20⟩, ⟨10, 20⟩, ⟨10, 10⟩, ⟨10, 0⟩, ⟨0, 0⟩, ⟨0, 10⟩, ⟨10, 10⟩]], []⟩] with
  | .ok t => t
  | .error _ => ⟨[], []⟩

-- a ring may be dropped although it encloses points
example : exEight.regions.length = 1 ∧
    (∀ r ∈ exEight.regions, Encloses (topoRegionSegs exEight r) 15 15 ∧ Within (.maxX 20) 15 15 ∧
      ¬ NearCut (.maxX 20) (topoRegionSegs exEight r) 15 15) ∧
    (clipTopology .debug exEight (.maxX 20)).toOption.map (·.regions.length) = some 0 := by
  decide +kernel

end TopoGeo
