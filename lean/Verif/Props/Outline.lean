import Verif.Proofs.Outline
import Verif.Proofs.Budget
import Verif.Proofs.Checked
import Verif.Props.Canonical
import Verif.Props.Exact
import Verif.Props.MovedMap
import Verif.Props.BuildSafe
import Verif.Props.GridFile
/-!
# Property C137: a topology can be saved ring by ring (`src/topology.rs`, `src/normalize.rs`)
-/

namespace TopoGeo

open Spec

section
variable {δ : Type} {m m' : Build} {rs : List (Region δ)} {t t' : Topology δ}

theorem ringPaths_outline (h : buildTopology m rs = .ok t) (hs : SegmentsOnce t) {ps : List (List Point)}
    (hin : ∀ p ∈ ps, p ∈ allPaths rs) (hc : ClosedRing ps) :
    ringPaths (.points (joinPath ps)) = cutPaths ps ∧ ringArea (.points (joinPath ps)) = wrap64 (shoelaceEdges ps) ∧
      Closed (joinPath ps) := by
  obtain ⟨hne, a, hl⟩ := hc
  obtain ⟨k1, k2⟩ := segs_joinPath hl
  have hp : ringPaths (.points (joinPath ps)) = cutPaths ps := by
    show (pairs (joinPath ps)).filter _ = _
    have he : pairs (joinPath ps) = cutPaths ps := by
      rw [pairs_of_segs, k1]
      unfold cutPaths
      rw [List.map_flatMap]
      simp only [← pairs_of_segs]
    rw [he, List.filter_eq_self]
    intro e hmem
    obtain ⟨p, hp, hmem⟩ := List.mem_flatMap.mp hmem
    rw [pairs_of_segs] at hmem
    obtain ⟨s, hseg, rfl⟩ := List.mem_map.mp hmem
    have hx := segment_extended h hs (hin p hp) hseg
    simp only [decide_eq_true_eq]
    rintro (hz | ⟨q, hz⟩)
    · simp at hz
    · simp only [List.cons.injEq, and_true] at hz
      exact hx (hz.1.trans hz.2.symm)
  refine ⟨hp, ?_, ?_⟩
  · unfold ringArea
    rw [← shoelaceEdges_ringPaths, hp, shoelaceEdges_cut]
  · unfold Closed
    rw [k2 hne]
    cases ps with
    | nil => exact absurd rfl hne
    | cons e ps =>
      have := hl.1
      cases e with
      | nil => simp at this
      | cons x e => simpa [joinPath] using this

theorem keptRings_outline (h : buildTopology m rs = .ok t) (hs : SegmentsOnce t) (hc : RingsClosed t)
    {rings : List TopoRing} (hmem : ∀ ring ∈ rings, ring ∈ allRings t) {pss : List (List (List Point))}
    (hin : ∀ ps ∈ pss, ∀ p ∈ ps, p ∈ allPaths rs)
    (hr : rings.map (·.directedEdges) = pss.map (·.map (directedFor (keysOf rs)))) :
    keptRings (rings.map fun ring => .points (ringOutline t ring)) = rings.map (fun ring => .points (ringOutline t ring)) ∧
      (rings.map fun ring => Ring.points (ringOutline t ring)).map ringPaths = pss.map cutPaths := by
  have hpaths : rings.map (pathsOf t) = pss := by
    induction rings generalizing pss with
    | nil => cases pss with
      | nil => rfl
      | cons a l => simp at hr
    | cons ring rings ih =>
      cases pss with
      | nil => simp at hr
      | cons ps pss =>
        rw [List.map_cons, List.map_cons] at hr
        obtain ⟨r1, r2⟩ := List.cons.inj hr
        rw [List.map_cons, (bounds_built h (hin ps (by simp)) r1).2,
          ih (fun x hx => hmem x (by simp [hx])) (fun x hx => hin x (by simp [hx])) r2]
  have hone : ∀ ring ∈ rings, ringPaths (.points (ringOutline t ring)) = cutPaths (pathsOf t ring) ∧
      ringArea (.points (ringOutline t ring)) ≠ 0 := by
    intro ring hring
    obtain ⟨k1, k2, _⟩ := ringPaths_outline h hs (ps := pathsOf t ring)
      (hin _ (by rw [← hpaths]; exact List.mem_map.mpr ⟨ring, hring, rfl⟩)) (closed_pathsOf hc (hmem ring hring))
    exact ⟨k1, by unfold ringOutline; rw [k2]; exact areas_of_built h ring (hmem ring hring)⟩
  constructor
  · unfold keptRings
    rw [List.filter_eq_self]
    intro x hx
    obtain ⟨ring, hring, rfl⟩ := List.mem_map.mp hx
    simpa using (hone ring hring).2
  · rw [← hpaths, List.map_map, List.map_map]
    exact List.map_congr_left fun ring hring => (hone ring hring).1

theorem keptRegions_outline (h : buildTopology m rs = .ok t) (hs : SegmentsOnce t) (hc : RingsClosed t) :
    keptRegions (outlineRegions t) = (keptRegions rs).map cutKept := by
  have hb := built_regions h
  have hin : ∀ {k : KeptRegion δ}, k ∈ keptRegions rs →
      (∀ ps ∈ k.outer, ∀ p ∈ ps, p ∈ allPaths rs) ∧ ∀ ps ∈ k.inner, ∀ p ∈ ps, p ∈ allPaths rs :=
    fun {k} hk => ⟨fun ps hps p hp => List.mem_flatMap.mpr ⟨k, hk, List.mem_append_left _ (List.mem_flatten.mpr ⟨ps, hps, hp⟩)⟩,
      fun ps hps p hp => List.mem_flatMap.mpr ⟨k, hk, List.mem_append_right _ (List.mem_flatten.mpr ⟨ps, hps, hp⟩)⟩⟩
  have houter := outerRings_of_built h
  have hone : List.Forall₂ (fun (k : KeptRegion δ) (r : TopoRegion δ) =>
      cutKept k = ⟨r.data, (keptRings (r.outerRings.map fun ring => .points (ringOutline t ring))).map ringPaths,
        (keptRings (r.innerRings.map fun ring => .points (ringOutline t ring))).map ringPaths⟩ ∧
      keptRings (r.outerRings.map fun ring => .points (ringOutline t ring)) ≠ []) (keptRegions rs) t.regions := by
    refine forall₂_imp_mems hb ?_
    rintro k hk r hr ⟨d, o, i⟩
    obtain ⟨a1, a2⟩ := keptRings_outline h hs hc (mem_allRings_outer hr) (hin hk).1 o
    obtain ⟨b1, b2⟩ := keptRings_outline h hs hc (mem_allRings_inner hr) (hin hk).2 i
    rw [a1, a2, b1, b2, d]
    exact ⟨rfl, by simpa using houter r hr⟩
  unfold keptRegions at hone ⊢
  generalize ((rs.filter fun r => keptRings r.outerRings ≠ []).map fun r =>
    (⟨r.data, (keptRings r.outerRings).map ringPaths, (keptRings r.innerRings).map ringPaths⟩ : KeptRegion δ)) = ks at hone ⊢
  unfold outlineRegions
  generalize t.regions = regions at hone
  induction hone with
  | nil => rfl
  | @cons k r ks regions h1 _ ih =>
    rw [List.map_cons, List.filter_cons, if_pos (by simpa using h1.2), List.map_cons, List.map_cons, ih, h1.1]

theorem kept_in {k : KeptRegion δ} (hk : k ∈ keptRegions rs) :
    (∀ ps ∈ k.outer, ∀ p ∈ ps, p ∈ allPaths rs) ∧ ∀ ps ∈ k.inner, ∀ p ∈ ps, p ∈ allPaths rs :=
  ⟨fun ps hps _ hp => List.mem_flatMap.mpr ⟨k, hk, List.mem_append_left _ (List.mem_flatten.mpr ⟨ps, hps, hp⟩)⟩,
    fun ps hps _ hp => List.mem_flatMap.mpr ⟨k, hk, List.mem_append_right _ (List.mem_flatten.mpr ⟨ps, hps, hp⟩)⟩⟩

/-- The rings of a topology that was built are the rings that were kept. -/
theorem ring_kept (hb : buildTopology m rs = .ok t) {ring : TopoRing} (hring : ring ∈ allRings t) :
    ∃ k ∈ keptRegions rs, ∃ ps ∈ k.outer ++ k.inner, (∀ p ∈ ps, p ∈ allPaths rs) ∧
      ring.directedEdges = ps.map (directedFor (keysOf rs)) ∧ pathsOf t ring = ps := by
  obtain ⟨r, hr, hring⟩ := List.mem_flatMap.mp hring
  obtain ⟨k, hk0, _, o, i⟩ := forall₂_exists_left (built_regions hb) hr
  have hsub : ∀ (rings : List TopoRing) (pss : List (List (List Point))), ring ∈ rings →
      rings.map (·.directedEdges) = pss.map (·.map (directedFor (keysOf rs))) →
      (∀ ps ∈ pss, ∀ p ∈ ps, p ∈ allPaths rs) → ∃ ps ∈ pss, (∀ p ∈ ps, p ∈ allPaths rs) ∧
        ring.directedEdges = ps.map (directedFor (keysOf rs)) ∧ pathsOf t ring = ps := by
    intro rings pss hmem heq hin
    have : ring.directedEdges ∈ rings.map (·.directedEdges) := List.mem_map.mpr ⟨ring, hmem, rfl⟩
    rw [heq] at this
    obtain ⟨ps, hps, he⟩ := List.mem_map.mp this
    exact ⟨ps, hps, hin ps hps, he.symm, (bounds_built hb (hin ps hps) he.symm).2⟩
  rcases List.mem_append.mp hring with hx | hx
  · obtain ⟨ps, h1, h2⟩ := hsub _ _ hx o (kept_in hk0).1
    exact ⟨k, hk0, ps, List.mem_append_left _ h1, h2⟩
  · obtain ⟨ps, h1, h2⟩ := hsub _ _ hx i (kept_in hk0).2
    exact ⟨k, hk0, ps, List.mem_append_right _ h1, h2⟩

/-- The rings that were kept are rings of the topology. -/
theorem kept_ring (hb : buildTopology m rs = .ok t) {k : KeptRegion δ} (hk : k ∈ keptRegions rs)
    {ps : List (List Point)} (hps : ps ∈ k.outer ++ k.inner) :
    ∃ ring ∈ allRings t, ring.directedEdges = ps.map (directedFor (keysOf rs)) := by
  obtain ⟨r, hr, _, o, i⟩ := forall₂_exists_left (List.Forall₂.flip (built_regions hb)) hk
  rcases List.mem_append.mp hps with hx | hx
  · have : ps.map (directedFor (keysOf rs)) ∈ k.outer.map (·.map (directedFor (keysOf rs))) := List.mem_map.mpr ⟨ps, hx, rfl⟩
    rw [← o] at this
    obtain ⟨ring, h1, h2⟩ := List.mem_map.mp this
    exact ⟨ring, mem_allRings_outer hr ring h1, h2⟩
  · have : ps.map (directedFor (keysOf rs)) ∈ k.inner.map (·.map (directedFor (keysOf rs))) := List.mem_map.mpr ⟨ps, hx, rfl⟩
    rw [← i] at this
    obtain ⟨ring, h1, h2⟩ := List.mem_map.mp this
    exact ⟨ring, mem_allRings_inner hr ring h1, h2⟩

theorem outline_closed (hb : buildTopology m rs = .ok t) (hc : RingsClosed t) (hs : SegmentsOnce t) :
    ∀ r ∈ outlineRegions t, ∀ ring ∈ r.outerRings ++ r.innerRings, ringArea ring ≠ 0 → ClosedRing (ringPaths ring) := by
  intro r hr ring hring harea
  obtain ⟨r0, hr0, rfl⟩ := List.mem_map.mp hr
  have : ∃ ring0 ∈ allRings t, ring = .points (ringOutline t ring0) := by
    rcases List.mem_append.mp hring with hx | hx
    · obtain ⟨ring0, hm, rfl⟩ := List.mem_map.mp hx; exact ⟨ring0, mem_allRings_outer hr0 ring0 hm, rfl⟩
    · obtain ⟨ring0, hm, rfl⟩ := List.mem_map.mp hx; exact ⟨ring0, mem_allRings_inner hr0 ring0 hm, rfl⟩
  obtain ⟨ring0, hm, rfl⟩ := this
  obtain ⟨_, _, ps, _, h1, _, h2⟩ := ring_kept hb hm
  obtain ⟨_, _, k3⟩ := ringPaths_outline hb hs (ps := pathsOf t ring0) (by rw [h2]; exact h1) (closed_pathsOf hc hm)
  exact closedRing_points k3 harea

/-- C137: a topology whose edges pass over each segment once is normalized to what the topology of its rings
is normalized to, if these are given as lists of points. So `normalize` finds where edges start and end. -/
theorem C137_outline (m1 m2 m3 m4 : Build) (rs : List (Region δ)) (t t' u u' : Topology δ)
    (hb : buildTopology m1 rs = .ok t) (hw : WellFormed t) (hs : SegmentsOnce t) (ho : PassedOnce t)
    (hb' : buildTopology m2 (outlineRegions t) = .ok t') (h : normalize m3 t = .ok u) (h' : normalize m4 t' = .ok u') :
    u' = u :=
  (C79_canonical m3 m4 t t' u u' hw (wellFormed_of_built hb' (outline_closed hb hw.closed hs)).1
    (sameBoundaries_cut hb hb' hs (keptRegions_outline hb hs hw.closed)) ho h h').symm

theorem allPaths_outline (hb : buildTopology m rs = .ok t) (hc : RingsClosed t) (hs : SegmentsOnce t) :
    allPaths (outlineRegions t) = cutPaths (allPaths rs) := by
  unfold allPaths
  rw [keptRegions_outline hb hs hc, List.flatMap_map]
  unfold cutPaths
  rw [List.flatMap_assoc]
  congr 1
  funext k
  show (k.outer.map cutPaths).flatten ++ (k.inner.map cutPaths).flatten = _
  rw [cutPaths_flatten, cutPaths_flatten, List.flatMap_append]
  rfl

theorem filter_stored (l : List (List Point)) (k : List Point) :
    (l.filter fun e => stored e = k).length = (l.map stored).count k := by
  rw [← List.countP_eq_length_filter, List.count, List.countP_map]
  congr 1
  funext e
  simp [beq_eq_decide]

/-- The outlines make a topology. -/
theorem outline_builds (hb : buildTopology m rs = .ok t) (hc : RingsClosed t) (hs : SegmentsOnce t) :
    ∃ t', buildTopology .release (outlineRegions t) = .ok t' := by
  have h2 : ∀ k, ((allPaths rs).filter fun e => stored e = k).length ≤ 2 := by
    obtain ⟨b, h1, h2⟩ := bind_ok.mp hb
    intro k
    by_contra hk
    rw [(C12_into_topology m rs b h1).1 ⟨k, by omega⟩] at h2
    cases h2
  obtain ⟨t', ht, _⟩ := build_of_users (rs := outlineRegions t) fun k => by
    rw [filter_stored, allPaths_outline hb hc hs]
    by_cases hk : k ∈ (cutPaths (allPaths rs)).map stored
    · obtain ⟨e, he, rfl⟩ := List.mem_map.mp hk
      obtain ⟨p, hp, he⟩ := List.mem_flatMap.mp he
      rw [pairs_of_segs] at he
      obtain ⟨s, hseg, rfl⟩ := List.mem_map.mp he
      rw [count_cut hb hs hp hseg _ fun e he => he, ← filter_stored]
      exact h2 _
    · rw [List.count_eq_zero_of_not_mem hk]; omega
  exact ⟨t', ht⟩

/-- Cutting edges makes none that have the same region on both sides. -/
theorem noSelf_outline (hb : buildTopology m rs = .ok t) (hc : RingsClosed t) (hs : SegmentsOnce t)
    (hn : NoSelfEdges t (allRings t)) (hb' : buildTopology m' (outlineRegions t) = .ok t') :
    NoSelfEdges t' (allRings t') := by
  intro ring hring de hde
  have hk := keptRegions_outline hb hs hc
  obtain ⟨k', hk', ps', hps', hin', he', _⟩ := ring_kept hb' hring
  rw [he'] at hde
  obtain ⟨p', hp', rfl⟩ := List.mem_map.mp hde
  have hs' := sides_built hb' (hin' p' hp')
  rw [show (directedFor (keysOf (outlineRegions t)) p').edge = keyIdx (keysOf (outlineRegions t)) (stored p') from rfl, hs', hk]
  rw [hk] at hk'
  obtain ⟨k, hk0, rfl⟩ := List.mem_map.mp hk'
  have : ∃ ps ∈ k.outer ++ k.inner, cutPaths ps = ps' := by
    rw [show (cutKept k).outer ++ (cutKept k).inner = (k.outer ++ k.inner).map cutPaths from
      (List.map_append ..).symm] at hps'
    exact List.mem_map.mp hps'
  obtain ⟨ps, hps, rfl⟩ := this
  obtain ⟨p, hp, hpair⟩ := List.mem_flatMap.mp hp'
  rw [pairs_of_segs] at hpair
  obtain ⟨s, hseg, rfl⟩ := List.mem_map.mp hpair
  have hpin : p ∈ allPaths rs := by
    rcases List.mem_append.mp hps with hx | hx
    · exact (kept_in hk0).1 ps hx p hp
    · exact (kept_in hk0).2 ps hx p hp
  rw [pathSides_cut hb hs hpin hseg, ← sides_built hb hpin]
  obtain ⟨ring0, hr0, he0⟩ := kept_ring hb hk0 hps
  exact hn ring0 hr0 (directedFor (keysOf rs) p) (by rw [he0]; exact List.mem_map.mpr ⟨p, hp, rfl⟩)

/-- C137: from the outlines of a normalized topology the library makes the topology again. -/
theorem C137_again (m : Build) (rs : List (Region δ)) (t : Topology δ) (hb : buildTopology m rs = .ok t)
    (hn : Normal t) (hs : SegmentsOnce t) (ho : PassedOnce t) :
    (∃ t', buildTopology .release (outlineRegions t) = .ok t' ∧ normalize .release t' = .ok t) ∧
      ∀ m1 m2 t' u, buildTopology m1 (outlineRegions t) = .ok t' → normalize m2 t' = .ok u → u = t := by
  have hw := hn.wellFormed
  have hfix := (C20_fixpoint_partial m rs t hb hn).2
  obtain ⟨t', ht'⟩ := outline_builds hb hw.closed hs
  obtain ⟨u, hu⟩ := C21_points .release _ t' ht' (by
    intro r hr ring hring
    obtain ⟨r0, hr0, rfl⟩ := List.mem_map.mp hr
    rcases List.mem_append.mp hring with hx | hx
    · obtain ⟨ring0, hm, rfl⟩ := List.mem_map.mp hx; exact ⟨_, rfl⟩
    · obtain ⟨ring0, hm, rfl⟩ := List.mem_map.mp hx; exact ⟨_, rfl⟩) (outline_closed hb hw.closed hs)
    (noSelf_outline hb hw.closed hs hn.noSelf ht')
  obtain rfl := C137_outline m .release .release .release rs t t' t u hb hw hs ho ht' hfix hu
  exact ⟨⟨t', ht', hu⟩, fun m1 m2 t' u' h1 h2 => C137_outline m m1 .release m2 rs u t' u u' hb hw hs ho h1 hfix h2⟩

/-- The outlines of a normalized topology wind the way files have them. -/
theorem outline_wound (hb : buildTopology m rs = .ok t) (hn : Normal t) (hs : SegmentsOnce t)
    (hsafe : ∀ ring ∈ allRings t, ∃ w, (Ring.points (ringOutline t ring)).windingOrder m' = .ok w) :
    ∀ r ∈ t.regions, (outlineShape t r).Wound m' := by
  have key : ∀ ring ∈ allRings t, (Ring.points (ringOutline t ring)).windingOrder m' =
      .ok (if 0 ≤ wrap64 (shoelaceEdges (pathsOf t ring)) then .clockwise else .counterClockwise) := by
    intro ring hr
    obtain ⟨_, _, ps, _, h1, _, h2⟩ := ring_kept hb hr
    obtain ⟨_, k2, _⟩ := ringPaths_outline hb hs (ps := pathsOf t ring) (by rw [h2]; exact h1)
      (closed_pathsOf hn.wellFormed.closed hr)
    have hrel : (Ring.points (ringOutline t ring)).windingOrder .release =
        .ok (if 0 ≤ wrap64 (shoelaceEdges (pathsOf t ring)) then .clockwise else .counterClockwise) := by
      unfold Ring.windingOrder
      rw [ring_area2AndWindingOrder_release, ok_bind, ← k2]
      rfl
    cases m' with
    | release => exact hrel
    | debug =>
      obtain ⟨w, hw⟩ := hsafe ring hr
      rcases ringWindingOrder_checked (Ring.points (ringOutline t ring)) with h | h
      · rw [h] at hw; cases hw
      · rw [h]; exact hrel
  intro r hr
  constructor
  · intro x hx
    obtain ⟨ring, hring, rfl⟩ := List.mem_map.mp hx
    have := hn.clockwise r hr ring hring
    rw [key ring (mem_allRings_outer hr ring hring), if_pos (le_of_lt this)]
  · intro x hx
    obtain ⟨ring, hring, rfl⟩ := List.mem_map.mp hx
    have := hn.counterClockwise r hr ring hring
    rw [key ring (mem_allRings_inner hr ring hring), if_neg (not_le.mpr this)]

/-- A closed ring that encloses an area has four points. -/
theorem four_points {l : List Point} (hc : Closed l) (ha : ringArea (.points l) ≠ 0) : 4 ≤ l.length := by
  by_contra hl
  apply ha
  have h0 : shoelace l = 0 := by
    match l, hc, hl with
    | [], _, _ => rfl
    | [a], _, _ => rfl
    | [a, b], hc, _ =>
      obtain rfl : a = b := by simpa [Closed] using hc
      simp [shoelace, cross]
    | [a, b, c], hc, _ =>
      obtain rfl : a = c := by simpa [Closed] using hc
      simp [shoelace, cross]
    | _ :: _ :: _ :: _ :: _, _, hl => simp at hl
  show wrap64 (shoelace l) = 0
  rw [h0]
  rfl

/-- The outlines of the regions of a topology fit into records. -/
theorem outline_good (hb : buildTopology m rs = .ok t) (hc : RingsClosed t) (hs : SegmentsOnce t) {r : TopoRegion δ}
    (hr : r ∈ t.regions) {rec : OutRecord} (hrec : rec.rings = (outlineShape t r).written) (hnum : rec.number < 2 ^ 32) :
    rec.Good := by
  have hlen : ∀ x ∈ rec.rings, 4 ≤ x.length := by
    intro x hx
    rw [hrec] at hx
    obtain ⟨l, hl, rfl⟩ := List.mem_map.mp hx
    have : ∃ ring ∈ allRings t, ringOutline t ring = l := by
      rcases List.mem_append.mp hl with h | h
      · obtain ⟨ring, h1, h2⟩ := List.mem_map.mp h; exact ⟨ring, mem_allRings_outer hr ring h1, h2⟩
      · obtain ⟨ring, h1, h2⟩ := List.mem_map.mp h; exact ⟨ring, mem_allRings_inner hr ring h1, h2⟩
    obtain ⟨ring, hm, rfl⟩ := this
    obtain ⟨_, _, ps, _, h1, _, h2⟩ := ring_kept hb hm
    obtain ⟨_, k2, k3⟩ := ringPaths_outline hb hs (ps := pathsOf t ring) (by rw [h2]; exact h1) (closed_pathsOf hc hm)
    rw [List.length_map]
    exact four_points k3 (by unfold ringOutline; rw [k2]; exact areas_of_built hb ring hm)
  refine ⟨hnum, fun x hx => le_trans (by decide) (hlen x (List.mem_of_mem_dropLast hx)), ?_⟩
  have hne : rec.rings ≠ [] := by
    rw [hrec]
    have := outerRings_of_built hb r hr
    simp [Shape.written, outlineShape, this]
  exact ⟨_, List.getLast?_eq_some_getLast hne, hlen _ (List.getLast_mem hne)⟩

/-- C137: a normalized topology can be saved to a shapefile. If the rings of its regions are written as they
pass, and a row for each region from which its data can be told, then the regions that are read have a topology
that is normalized to the topology that was saved, with these data. -/
theorem C137_file (m mb : Build) (fs : FileSystem MemFile) (path : Path) (enc : Encoding) (rs : List (Region δ))
    (t : Topology δ) (hb : buildTopology mb rs = .ok t) (hn : Normal t) (hs : SegmentsOnce t) (ho : PassedOnce t)
    (hsafe : ∀ ring ∈ allRings t, ∃ w, (Ring.points (ringOutline t ring)).windingOrder m = .ok w) (records : List OutRecord)
    (hr : List.Forall₂ (fun (r : TopoRegion δ) (rec : OutRecord) => rec.rings = (outlineShape t r).written) t.regions records)
    (hnum : ∀ rec ∈ records, rec.number < 2 ^ 32) (hsize : fileLength records < 2 ^ 32) (table : Table) (ht : Fits enc table)
    (parse : Bytes → δ) (hp : table.records.map parse = t.regions.map (·.data)) (tail tail' : Bytes)
    (h1 : fs path = .ok ⟨writeShp gridBox records ++ tail⟩)
    (h2 : fs (setExtension path "dbf".toList) = .ok ⟨writeDbf table ++ tail'⟩) :
    ∃ r regions it', shapefileOpen m fs path enc = .ok (.ok r) ∧
      callsR (ShapefileGeoIterator.next m) (t.regions.length + 1) (ShapefileGeoIterator.new r) =
        .ok (regions.map (fun g => some (.ok g)) ++ [none], it') ∧
      ∃ t' u, buildTopology .release regions = .ok t' ∧ normalize .release t' = .ok u ∧
        retag (fun d => parse d.bytes) u = t := by
  have hlen : table.records.length = records.length := by
    have := congrArg List.length hp
    rw [List.length_map, List.length_map] at this
    rw [this, hr.length_eq]
  obtain ⟨r, regions, it', k1, k2, k3, k4⟩ := C136_files m fs path enc (t.regions.map (outlineShape t))
    (by intro s hs'; obtain ⟨r, hr, rfl⟩ := List.mem_map.mp hs'; exact outline_wound hb hn hs hsafe r hr) records
    (by rw [List.forall₂_map_left_iff]; exact hr)
    (by
      intro rec hrec
      obtain ⟨r, h1, h2⟩ := forall₂_exists_left hr hrec
      exact outline_good hb hn.wellFormed.closed hs h1 h2 (hnum rec hrec)) hsize table ht hlen tail tail' h1 h2
  rw [List.length_map] at k2
  refine ⟨r, regions, it', k1, k2, ?_⟩
  have heq : regions.map (retagRegion fun d => parse d.bytes) = outlineRegions t := by
    have hd : regions.map (fun g => parse g.data.bytes) = t.regions.map (·.data) := by
      rw [← hp, ← k4, List.map_map]; rfl
    rw [List.forall₂_map_left_iff] at k3
    unfold outlineRegions
    clear k1 k2 k4
    generalize t.regions = l at k3 hd
    induction k3 with
    | nil => rfl
    | @cons a g l regions h _ ih =>
      rw [List.map_cons, List.map_cons] at hd ⊢
      obtain ⟨d1, d2⟩ := List.cons.inj hd
      rw [ih d2]
      congr 1
      obtain ⟨o, i⟩ := h
      show (⟨parse g.data.bytes, g.outerRings, g.innerRings⟩ : Region δ) = _
      rw [d1, o, i]
      simp [outlineShape, Function.comp_def]
  obtain ⟨t0, b1, b2⟩ := (C137_again mb rs t hb hn hs ho).1
  rw [← heq, C96_build] at b1
  cases hbr : buildTopology .release regions with
  | error e => rw [hbr] at b1; cases b1
  | ok t' =>
    rw [hbr] at b1
    obtain rfl : retag (fun d => parse d.bytes) t' = t0 := Except.ok.inj b1
    rw [C96_normalize] at b2
    cases hu : normalize .release t' with
    | error e => rw [hu] at b2; cases b2
    | ok u =>
      rw [hu] at b2
      exact ⟨t', u, rfl, hu, Except.ok.inj b2⟩

/-- Without overflow checks every ring has a winding order. -/
theorem windingOrder_release_total (r : Ring) : ∃ w, r.windingOrder .release = .ok w := by
  unfold Ring.windingOrder
  rw [ring_area2AndWindingOrder_release]
  exact ⟨_, rfl⟩

/-- C137: a release build reads any saved topology, whatever the size of its rings. -/
theorem C137_file_release (mb : Build) (fs : FileSystem MemFile) (path : Path) (enc : Encoding) (rs : List (Region δ))
    (t : Topology δ) (hb : buildTopology mb rs = .ok t) (hn : Normal t) (hs : SegmentsOnce t) (ho : PassedOnce t)
    (records : List OutRecord)
    (hr : List.Forall₂ (fun (r : TopoRegion δ) (rec : OutRecord) => rec.rings = (outlineShape t r).written) t.regions records)
    (hnum : ∀ rec ∈ records, rec.number < 2 ^ 32) (hsize : fileLength records < 2 ^ 32) (table : Table) (ht : Fits enc table)
    (parse : Bytes → δ) (hp : table.records.map parse = t.regions.map (·.data)) (tail tail' : Bytes)
    (h1 : fs path = .ok ⟨writeShp gridBox records ++ tail⟩)
    (h2 : fs (setExtension path "dbf".toList) = .ok ⟨writeDbf table ++ tail'⟩) :
    ∃ r regions it', shapefileOpen .release fs path enc = .ok (.ok r) ∧
      callsR (ShapefileGeoIterator.next .release) (t.regions.length + 1) (ShapefileGeoIterator.new r) =
        .ok (regions.map (fun g => some (.ok g)) ++ [none], it') ∧
      ∃ t' u, buildTopology .release regions = .ok t' ∧ normalize .release t' = .ok u ∧
        retag (fun d => parse d.bytes) u = t :=
  C137_file .release mb fs path enc rs t hb hn hs ho (fun _ _ => windingOrder_release_total _) records hr hnum hsize
    table ht parse hp tail tail' h1 h2

end

/-! ## What is needed -/

/-- Two squares side by side, each of them one edge: what they share is not shared. -/
def exUnshared : List (Region String) :=
  [⟨"A", [.edges [[⟨1, 1⟩, ⟨9, 1⟩, ⟨9, 9⟩, ⟨1, 9⟩, ⟨1, 1⟩]]], []⟩,
   ⟨"B", [.edges [[⟨9, 1⟩, ⟨19, 1⟩, ⟨19, 9⟩, ⟨9, 9⟩, ⟨9, 1⟩]]], []⟩]

/-- Their topology, that of their outlines, and what this is normalized to. -/
def exUnsharedTopo : Topology String := (buildTopology .debug exUnshared).toOption.getD ⟨[], []⟩
def exNowShared : Topology String := (buildTopology .debug (outlineRegions exUnsharedTopo)).toOption.getD ⟨[], []⟩
def exNormalShared : Topology String := (normalize .debug exNowShared).toOption.getD ⟨[], []⟩

/-- C137: if two edges pass over a segment, the topology that is made from the outlines can be another one. It
shares what was not shared. -/
theorem C137_unshared_refuted : ¬ ∀ (rs : List (Region String)) (t t' u : Topology String),
    buildTopology .debug rs = .ok t → normalize .debug t = .ok t → PassedOnce t →
    buildTopology .debug (outlineRegions t) = .ok t' → normalize .debug t' = .ok u → u = t := by
  intro h
  have key : buildTopology .debug exUnshared = .ok exUnsharedTopo ∧ normalize .debug exUnsharedTopo = .ok exUnsharedTopo ∧
      PassedOnce exUnsharedTopo ∧ buildTopology .debug (outlineRegions exUnsharedTopo) = .ok exNowShared ∧
      normalize .debug exNowShared = .ok exNormalShared ∧ exNormalShared ≠ exUnsharedTopo := by decide +kernel
  obtain ⟨k1, k2, k3, k4, k5, k6⟩ := key
  exact k6 (h _ _ _ _ k1 k2 k3 k4 k5)

/-! ## Examples -/

/-- What `exDrawn` is normalized to. -/
def exSaved : Topology String := ((buildTopology .debug exDrawn >>= normalize .debug)).toOption.getD ⟨[], []⟩

-- the topology of the outlines is another one, but it is normalized to the same
example : buildTopology .debug (regionsOf exSaved) = .ok exSaved ∧
    (exSaved.edges.flatMap fun e => segs e.points ++ (segs e.points).map Prod.swap).Nodup ∧ PassedOnce exSaved ∧
    exSaved.edges.map (·.points.length) = [2, 4, 4, 4, 4] ∧
    (buildTopology .debug (outlineRegions exSaved)).isOk ∧ buildTopology .debug (outlineRegions exSaved) ≠ .ok exSaved ∧
    (buildTopology .debug (outlineRegions exSaved) >>= normalize .debug) = .ok exSaved := by
  decide +kernel

theorem exSaved_normal : buildTopology .debug (regionsOf exSaved) = .ok exSaved ∧ Normal exSaved := by
  have hb : buildTopology .debug (regionsOf exSaved) = .ok exSaved := by decide +kernel
  have hw := (wellFormed_of_built hb (by decide +kernel)).1
  exact ⟨hb, (C20_fixpoint_exact .debug _ _ hb hw (by unfold AreasBounded; decide +kernel)).mp (by decide +kernel)⟩

/-- Its regions, as they are written. -/
def exSavedRecords : List OutRecord := exSaved.regions.map fun r => ⟨1, gridBox, (outlineShape exSaved r).written⟩

/-- The files. -/
def exSavedFiles : FileSystem MemFile := fun p =>
  if p = ["a.shp".toList] then .ok ⟨writeShp gridBox exSavedRecords⟩
  else if p = ["a.dbf".toList] then .ok ⟨writeDbf dbfTable⟩ else .error (.other 2)

/-- Which region a row belongs to. -/
def exParse (row : Bytes) : String := if dbfTable.records.head? = some row then "A" else "B"

-- all hypotheses hold
example : ∃ r regions it', shapefileOpen .debug exSavedFiles ["a.shp".toList] Encoding.ascii = .ok (.ok r) ∧
      callsR (ShapefileGeoIterator.next .debug) (exSaved.regions.length + 1) (ShapefileGeoIterator.new r) =
        .ok (regions.map (fun g => some (.ok g)) ++ [none], it') ∧
      ∃ t' u, buildTopology .release regions = .ok t' ∧ normalize .release t' = .ok u ∧
        retag (fun d => exParse d.bytes) u = exSaved := by
  have hsafe : ∀ ring ∈ allRings exSaved, ((Ring.points (ringOutline exSaved ring)).windingOrder .debug).toOption.isSome := by
    decide +kernel
  refine C137_file .debug .debug exSavedFiles ["a.shp".toList] Encoding.ascii _ exSaved exSaved_normal.1 exSaved_normal.2
    (by unfold SegmentsOnce; decide +kernel) (by decide +kernel) ?_ exSavedRecords
    (by
      unfold exSavedRecords
      rw [List.forall₂_map_right_iff]
      exact List.forall₂_same.mpr fun _ _ => rfl) (by decide +kernel) (by decide +kernel) dbfTable dbfTable_fits exParse
    (by decide +kernel) [] [] (by simp [exSavedFiles]) (by
      rw [show setExtension ["a.shp".toList] "dbf".toList = ["a.dbf".toList] by decide +kernel, List.append_nil]; rfl)
  intro ring hr
  have := hsafe ring hr
  cases h : (Ring.points (ringOutline exSaved ring)).windingOrder .debug with
  | ok w => exact ⟨w, rfl⟩
  | error e => rw [h] at this; cases this

-- a release build needs no bound on areas
example : ∃ r regions it', shapefileOpen .release exSavedFiles ["a.shp".toList] Encoding.ascii = .ok (.ok r) ∧
      callsR (ShapefileGeoIterator.next .release) (exSaved.regions.length + 1) (ShapefileGeoIterator.new r) =
        .ok (regions.map (fun g => some (.ok g)) ++ [none], it') ∧
      ∃ t' u, buildTopology .release regions = .ok t' ∧ normalize .release t' = .ok u ∧
        retag (fun d => exParse d.bytes) u = exSaved :=
  C137_file_release .debug exSavedFiles ["a.shp".toList] Encoding.ascii _ exSaved exSaved_normal.1 exSaved_normal.2
    (by unfold SegmentsOnce; decide +kernel) (by decide +kernel) exSavedRecords
    (by
      unfold exSavedRecords
      rw [List.forall₂_map_right_iff]
      exact List.forall₂_same.mpr fun _ _ => rfl) (by decide +kernel) (by decide +kernel) dbfTable dbfTable_fits exParse
    (by decide +kernel) [] [] (by simp [exSavedFiles]) (by
      rw [show setExtension ["a.shp".toList] "dbf".toList = ["a.dbf".toList] by decide +kernel, List.append_nil]; rfl)

end TopoGeo
