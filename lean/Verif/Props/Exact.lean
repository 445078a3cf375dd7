import Verif.Props.NormalizeMany
import Verif.Props.Geo
import Verif.Props.ClipTopology
import Verif.Proofs.ClipArea
/-!
# Exactly when the claims hold that do not hold always

C06, C16, C20 and C37 are refuted as they stand. Here are the conditions under
which they hold, for C06, C20 and C37 as equivalences.
-/

namespace TopoGeo

open Spec

/-- C06: what a release build reports is right exactly if the double area fits in
an `i64`. -/
theorem C06_release_exact (r : Ring) (a : Nat) (w : WindingOrder)
    (h : r.area2AndWindingOrder .release = .ok (a, w)) :
    (a = (ringShoelace r).natAbs ∧ (w = .clockwise ↔ 0 ≤ ringShoelace r)) ↔ InI64 (ringShoelace r) := by
  refine ⟨?_, fun hin => C06_release_partial r hin a w h⟩
  rw [ring_area2AndWindingOrder_release] at h
  obtain ⟨rfl, rfl⟩ := Prod.mk.inj (Except.ok.inj h)
  generalize ringShoelace r = z
  rintro ⟨h1, h2⟩
  have hw : -2 ^ 63 ≤ wrap64 z ∧ wrap64 z < 2 ^ 63 := inI64_wrap64 z
  by_cases hp : 0 ≤ wrap64 z
  · have := h2.mp (by simp [hp])
    unfold InI64
    omega
  · have : ¬ 0 ≤ z := fun hz => by
      have := h2.mpr hz
      simp [hp] at this
    unfold InI64
    omega

-- both cases occur
example : (∃ a w, (Ring.points exTriangle).area2AndWindingOrder .release = .ok (a, w)) ∧
    InI64 (ringShoelace (.points exTriangle)) ∧
    (∃ a w, (Ring.points exFullSquare).area2AndWindingOrder .release = .ok (a, w)) ∧
    ¬ InI64 (ringShoelace (.points exFullSquare)) := by
  refine ⟨⟨1, .clockwise, by decide +kernel⟩, by decide +kernel, ⟨17179869182, .counterClockwise, by decide +kernel⟩,
    by decide +kernel⟩

/-- C16, ring by ring: a ring that normalizing leaves with the wrong orientation
consists of parts of rings that had an edge with the same region on both sides
and at least one that had not. -/
theorem C16_ring_partial {δ : Type} (m : Build) (t t' : Topology δ) (hw : WellFormed t) (ha : AreasBounded t)
    (h : normalize m t = .ok t') :
    Rebuilt m t t' fun order rings out => ∀ bs ∈ out, ¬ Oriented order (pathsIn bs) → ∀ b ∈ bs, ∀ s ∈ segs b.path,
      ∃ ring ∈ rings, ¬ NoSelfEdges t [ring] ∧ ∃ de ∈ ring.directedEdges,
        b.sides = sides t de.edge ∧ b.sides.1 ≠ b.sides.2 ∧ (s ∈ segs (pathOf t de) ∨ s.swap ∈ segs (pathOf t de)) :=
  rebuilt_of_normalize hw.pointers hw.closed h fun order rings ns out merged hr hn bs hbs hbad b hb s hs => by
    obtain ⟨n, hno, rfl⟩ := List.mem_map.mp hbs
    rw [pathsIn_bound] at hbad
    have hx := extended_singles hw hr hn.single
    rcases List.mem_append.mp (hn.adjoined.parts.mem_iff.mp hno) with hp | hm
    · obtain ⟨ring, hring, hnr⟩ := forall₂_exists_left hn.single (List.mem_of_mem_filter hp)
      exact absurd (hnr.oriented (ha ring (hr ring hring))) hbad
    · obtain ⟨e, he, rfl⟩ := List.mem_map.mp hb
      have hmem : (s, e.regions) ∈ merged.flatMap nsegs :=
        List.mem_flatMap.mpr ⟨n, hm, List.mem_flatMap.mpr ⟨e, he, List.mem_map_of_mem hs⟩⟩
      obtain ⟨f, hf, hfs⟩ := List.mem_flatMap.mp (hn.adjoined.segs.mem_iff.mp hmem)
      obtain ⟨n', hn', hf⟩ := List.mem_flatMap.mp hf
      split at hf
      · simp at hf
      · rename_i hall
        obtain ⟨hf, hred⟩ := List.mem_filter.mp hf
        obtain ⟨ring, hring, hnr⟩ := forall₂_exists_left hn.single hn'
        obtain ⟨de, hde, h1, h2⟩ := walk_segment (hnr.segs.mem_iff.mp
          (List.mem_flatMap.mpr ⟨f, hf, hfs⟩ : (s, e.regions) ∈ nsegs n'))
        obtain ⟨s', hs', hse⟩ := List.mem_map.mp hfs
        have hreg : f.regions = e.regions := (Prod.mk.inj hse).2
        refine ⟨ring, hring, ?_, de, hde, h1, ?_, h2⟩
        · intro hno
          refine hall (List.all_eq_true.mpr fun g hg => ?_)
          obtain ⟨u, hu⟩ := segment_exists (hx n' hn' g hg)
          obtain ⟨de', hde', h3, _⟩ := walk_segment (hnr.segs.mem_iff.mp
            (List.mem_flatMap.mpr ⟨g, hg, List.mem_map_of_mem hu⟩ : (u, g.regions) ∈ nsegs n'))
          have := hno ring (by simp) de' hde'
          rw [← h3] at this
          simpa [NormEdge.isRedundant] using this
        · show e.regions.1 ≠ e.regions.2
          rw [← hreg]
          simpa [NormEdge.isRedundant] using hred

/-- C20: normalizing leaves exactly those topologies as they are that follow the
rules. -/
theorem C20_fixpoint_exact {δ : Type} (m : Build) (rs : List (Region δ)) (t : Topology δ)
    (hb : buildTopology m rs = .ok t) (hw : WellFormed t) (ha : AreasBounded t) :
    normalize .release t = .ok t ↔ Normal t := by
  refine ⟨fun h => ?_, fun hn => (C20_fixpoint_partial m rs t hb hn).2⟩
  rcases normal_or_fewer hw ha h h with hn | hlt
  · exact hn
  · exact absurd hlt (Nat.lt_irrefl _)

/-- C20: so normalizing once more changes nothing exactly if the first pass left a
topology that follows the rules. -/
theorem C20_idempotent_exact {δ : Type} (m : Build) (t t' : Topology δ) (hw : WellFormed t)
    (h : normalize m t = .ok t') (ha : AreasBounded t') :
    normalize .release t' = .ok t' ↔ NoSelfEdges t' (allRings t') ∧
      (∀ ring ∈ allRings t', CyclicallyDistinct (ring.directedEdges.map fun de => sides t' de.edge)) ∧
      ∀ r ∈ t'.regions, (∀ ring ∈ r.outerRings, Oriented .clockwise (pathsOf t' ring)) ∧
        ∀ ring ∈ r.innerRings, Oriented .counterClockwise (pathsOf t' ring) := by
  obtain ⟨rs, _, hb⟩ := normalize_ok.mp h
  refine ⟨fun h' => ?_, fun ⟨h1, h2, h3⟩ => (C20_idempotent_partial m t t' hw h h1 h2 h3).2⟩
  have hn := (C20_fixpoint_exact m rs t' hb (wellFormed_normalize hw h) ha).mp h'
  exact ⟨hn.noSelf, hn.distinct, fun r hr => ⟨hn.clockwise r hr, hn.counterClockwise r hr⟩⟩

-- the frame of two halves is not left alone, and does not follow the rules
example : AreasBounded exFrameNormal ∧ normalize .release exFrameNormal ≠ .ok exFrameNormal := by
  refine ⟨?_, by decide +kernel⟩
  unfold AreasBounded
  decide +kernel

/-- C37: an edge of a clipped topology is used exactly if a ring that is kept, of a
region that is kept, needs it; so all are used exactly if this is so for
everything that clipping makes an edge for. -/
theorem C37_exact {δ : Type} (m : Build) (mask : ClipMask) (t t' : Topology δ) (cs : List (List Point))
    (h : clipTopology m t mask = .ok t') (hcs : ClippedBy m mask t.edges cs) :
    (∀ i < t'.edges.length, ∃ de ∈ allDirectedEdges t', de.edge = i) ↔
      ∀ o, MakesEdge cs t.regions o → ∃ r ∈ t.regions, keptClipped cs r.outerRings ≠ [] ∧
        ∃ ring ∈ r.outerRings ++ r.innerRings, piecesArea cs (clippedPieces cs ring) ≠ 0 ∧
          ∃ pc ∈ clippedPieces cs ring, pc.edge = o := by
  obtain ⟨cs', hcs', origin, _, h2, h3⟩ := C72_edges m mask t t' h
  have : cs' = cs := by rw [clippedBy_eq hcs, clippedBy_eq hcs']
  subst this
  have hall : ∀ o, (∃ pc ∈ allPieces (clippedRegions cs' t.regions), pc.edge = o) ↔
      ∃ r ∈ t.regions, keptClipped cs' r.outerRings ≠ [] ∧
        ∃ ring ∈ r.outerRings ++ r.innerRings, piecesArea cs' (clippedPieces cs' ring) ≠ 0 ∧
          ∃ pc ∈ clippedPieces cs' ring, pc.edge = o := by
    intro o
    have hmem : ∀ (rings : List TopoRing) (pc : Spec.Piece), pc ∈ (keptClipped cs' rings).flatten ↔
        ∃ ring ∈ rings, piecesArea cs' (clippedPieces cs' ring) ≠ 0 ∧ pc ∈ clippedPieces cs' ring := by
      intro rings pc
      simp only [keptClipped, List.mem_flatten, List.mem_filter, List.mem_map]
      constructor
      · rintro ⟨ps, ⟨⟨ring, hr, rfl⟩, ha⟩, hpc⟩
        exact ⟨ring, hr, by simpa using ha, hpc⟩
      · rintro ⟨ring, hr, ha, hpc⟩
        exact ⟨_, ⟨⟨ring, hr, rfl⟩, by simpa using ha⟩, hpc⟩
    constructor
    · rintro ⟨pc, hpc, rfl⟩
      obtain ⟨k, hk, hpc⟩ := List.mem_flatMap.mp hpc
      obtain ⟨r, hr, rfl⟩ := List.mem_map.mp hk
      obtain ⟨hr, hne⟩ := List.mem_filter.mp hr
      refine ⟨r, hr, by simpa using hne, ?_⟩
      rcases List.mem_append.mp hpc with hpc | hpc
      · obtain ⟨ring, h1, h2, h3⟩ := (hmem _ _).mp hpc
        exact ⟨ring, List.mem_append_left _ h1, h2, pc, h3, rfl⟩
      · obtain ⟨ring, h1, h2, h3⟩ := (hmem _ _).mp hpc
        exact ⟨ring, List.mem_append_right _ h1, h2, pc, h3, rfl⟩
    · rintro ⟨r, hr, hne, ring, hring, ha, pc, hpc, rfl⟩
      refine ⟨pc, List.mem_flatMap.mpr ⟨_, List.mem_map.mpr ⟨r, List.mem_filter.mpr ⟨hr, by simpa using hne⟩, rfl⟩, ?_⟩, rfl⟩
      rcases List.mem_append.mp hring with hring | hring
      · exact List.mem_append_left _ ((hmem _ _).mpr ⟨ring, hring, ha, hpc⟩)
      · exact List.mem_append_right _ ((hmem _ _).mpr ⟨ring, hring, ha, hpc⟩)
  constructor
  · intro hu o ho
    obtain ⟨i, hi, rfl⟩ := (h2 o).mpr ho
    exact (hall _).mp ((h3 i _ (List.getElem?_eq_getElem hi)).2.mp (hu i hi))
  · intro hu i hi
    exact (h3 i _ (List.getElem?_eq_getElem hi)).2.mpr ((hall _).mpr (hu _ ((h2 _).mp ⟨i, hi, rfl⟩)))

-- the hypotheses are met by the example
example : ∃ t', clipTopology .debug exClipTopology (.maxX 20) = .ok t' ∧
    ClippedBy .debug (.maxX 20) exClipTopology.edges
      (exClipTopology.edges.map fun e => (clipEdge .debug (.maxX 20) e.points).toOption.getD []) := by
  have h : (clipTopology .debug exClipTopology (.maxX 20)).toOption ≠ none := by decide +kernel
  cases hc : clipTopology .debug exClipTopology (.maxX 20) with
  | error e => rw [hc] at h; exact absurd rfl h
  | ok t' =>
    obtain ⟨cs, hcs, _⟩ := C72_edges _ _ _ _ hc
    exact ⟨t', rfl, clippedBy_eq hcs ▸ hcs⟩

end TopoGeo
