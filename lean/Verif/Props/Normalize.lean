import Verif.Proofs.Normalize
/-!
# Properties C15-C23: `normalize` (`src/normalize.rs`)
-/

namespace TopoGeo

open Spec
open scoped List

/-! ## Helpers -/

theorem ringArea_normRing (n : NormRing) : ringArea (normRingToRing n) = wrap64 (shoelaceEdges (npts n)) := rfl

theorem ringPaths_normRing {n : NormRing} (h : Extended n) : ringPaths (normRingToRing n) = npts n := by
  show (npts n).filter _ = npts n
  rw [List.filter_eq_self]
  intro e he
  obtain ⟨x, hx, rfl⟩ := List.mem_map.mp he
  simpa using h x hx

theorem keptRings_normRings {ns : List NormRing} (h : ∀ n ∈ ns, Extended n) :
    (keptRings (ns.map normRingToRing)).map ringPaths =
      (ns.map npts).filter fun ps => wrap64 (shoelaceEdges ps) ≠ 0 := by
  induction ns with
  | nil => rfl
  | cons n ns ih =>
    have ih := ih fun x hx => h x (by simp [hx])
    unfold keptRings at ih ⊢
    rw [List.map_cons, List.map_cons, List.filter_cons, List.filter_cons, ringArea_normRing]
    split
    · rw [List.map_cons, ih, ringPaths_normRing (h n (by simp))]
    · exact ih

theorem pathsOf_forall₂ {δ : Type} {t : Topology δ} {ps : List (List (List Point))} {rings : List TopoRing}
    (h : List.Forall₂ (ReadsAs t.edges) ps rings) : rings.map (pathsOf t) = ps := by
  induction h with
  | nil => rfl
  | cons h1 _ ih => rw [List.map_cons, ih, pathsOf_reads h1]

/-- What the outer or inner rings of a region become in the normalized
topology. -/
def BecomesRings {δ : Type} (t t' : Topology δ) (order : WindingOrder) (rings rings' : List TopoRing) : Prop :=
  ∃ ns out merged, NormalizedRings t order rings ns out merged ∧ (∀ n ∈ out, Extended n) ∧
    rings'.map (pathsOf t') = (out.map npts).filter fun ps => wrap64 (shoelaceEdges ps) ≠ 0

theorem normalize_regions {δ : Type} {m : Build} {t t' : Topology δ} (hw : WellFormed t)
    (h : normalize m t = .ok t') : ∀ r' ∈ t'.regions, ∃ r ∈ t.regions, r'.data = r.data ∧
      BecomesRings t t' .clockwise r.outerRings r'.outerRings ∧
      BecomesRings t t' .counterClockwise r.innerRings r'.innerRings := by
  obtain ⟨rs, h1, h2⟩ := normalize_rebuilt hw.pointers hw.closed h
  have h7 := C07_round_trip m rs t' h1
  intro r' hr'
  obtain ⟨k, hk, hd, ho, hi⟩ := forall₂_exists_left h7 hr'
  obtain ⟨x, hx, rfl⟩ := List.mem_map.mp hk
  obtain ⟨r, hr, hd', outer, inner, e1, e2, ⟨n1, m1, g1⟩, ⟨n2, m2, g2⟩⟩ :=
    forall₂_exists_left h2 (List.mem_of_mem_filter hx)
  have x1 := g1.extended fun ring hring => extended_nedges hw.pointers hw.extended (mem_allRings_outer hr ring hring)
  have x2 := g2.extended fun ring hring => extended_nedges hw.pointers hw.extended (mem_allRings_inner hr ring hring)
  refine ⟨r, hr, hd.trans hd', ⟨n1, outer, m1, g1, x1, ?_⟩, ⟨n2, inner, m2, g2, x2, ?_⟩⟩
  · rw [pathsOf_forall₂ ho, e1, keptRings_normRings x1]
  · rw [pathsOf_forall₂ hi, e2, keptRings_normRings x2]

theorem closed_of_pathsOf {δ : Type} {t : Topology δ} {ring : TopoRing} (hb : BackPointersExact t)
    (hr : ring ∈ allRings t) (h : ClosedRing (pathsOf t ring)) :
    ∃ paths, ReadsAs t.edges paths ring ∧ ClosedRing paths := by
  refine ⟨pathsOf t ring, ?_, h⟩
  unfold ReadsAs pathsOf
  rw [List.map_map]
  apply List.map_congr_left
  intro de hde
  have hlt := hb.2.2 de (mem_allDirectedEdges_of_ring hr de hde)
  have he : t.edges[de.edge]? = some t.edges[de.edge] := List.getElem?_eq_getElem hlt
  simp [pathOf, walk, he]

/-- Topologies that are built from closed rings are well-formed. -/
theorem wellFormed_of_built {δ : Type} {m : Build} {rs : List (Region δ)} {t : Topology δ}
    (h : buildTopology m rs = .ok t)
    (hclosed : ∀ r ∈ rs, ∀ ring ∈ r.outerRings ++ r.innerRings, ringArea ring ≠ 0 → ClosedRing (ringPaths ring)) :
    WellFormed t ∧ (∀ r ∈ t.regions, r.outerRings ≠ []) ∧
      ∀ ring ∈ allRings t, wrap64 (shoelaceEdges (pathsOf t ring)) ≠ 0 := by
  have h7 := C07_round_trip m rs t h
  have hring : ∀ ring ∈ allRings t, ∃ r0 ∈ rs, ∃ ring0 ∈ r0.outerRings ++ r0.innerRings, ringArea ring0 ≠ 0 ∧
      ReadsAs t.edges (ringPaths ring0) ring := by
    intro ring hr
    obtain ⟨r, hr, hring⟩ := List.mem_flatMap.mp hr
    obtain ⟨k, hk, _, h1, h2⟩ := forall₂_exists_left h7 hr
    obtain ⟨r0, hr0, rfl⟩ := List.mem_map.mp hk
    refine ⟨r0, List.mem_of_mem_filter hr0, ?_⟩
    rcases List.mem_append.mp hring with hring | hring
    · obtain ⟨ps, hps, hread⟩ := forall₂_exists_left h1 hring
      obtain ⟨ring0, hk0, rfl⟩ := List.mem_map.mp hps
      obtain ⟨hm, ha⟩ := List.mem_filter.mp hk0
      exact ⟨ring0, by simp [hm], by simpa using ha, hread⟩
    · obtain ⟨ps, hps, hread⟩ := forall₂_exists_left h2 hring
      obtain ⟨ring0, hk0, rfl⟩ := List.mem_map.mp hps
      obtain ⟨hm, ha⟩ := List.mem_filter.mp hk0
      exact ⟨ring0, by simp [hm], by simpa using ha, hread⟩
  refine ⟨⟨(buildTopology_facts h).1, ?_, fun e he => (C09_canonical m rs t h e he).1⟩, ?_, ?_⟩
  · intro ring hr
    obtain ⟨r0, hr0, ring0, hm, ha, hread⟩ := hring ring hr
    exact ⟨_, hread, hclosed r0 hr0 ring0 hm ha⟩
  · intro r hr
    obtain ⟨k, hk, _, h1, _⟩ := forall₂_exists_left h7 hr
    obtain ⟨r0, hr0, rfl⟩ := List.mem_map.mp hk
    have hne : keptRings r0.outerRings ≠ [] := by simpa using (List.mem_filter.mp hr0).2
    intro h0
    rw [h0] at h1
    have := h1.length_eq
    simp only [List.length_map, List.length_nil, List.length_eq_zero_iff] at this
    exact hne this
  · intro ring hr
    obtain ⟨r0, hr0, ring0, hm, ha, hread⟩ := hring ring hr
    rw [pathsOf_reads hread, shoelaceEdges_ringPaths]
    exact ha

theorem normalized_becomes {δ : Type} {t t' : Topology δ} {order : WindingOrder} {rings rings' : List TopoRing}
    (h : BecomesRings t t' order rings rings') {ring : TopoRing} (hr : ring ∈ rings') :
    wrap64 (shoelaceEdges (pathsOf t' ring)) ≠ 0 ∧ ∃ n, npts n = pathsOf t' ring ∧ NiceRing n ∧ Extended n := by
  obtain ⟨ns, out, merged, hn, hx, he⟩ := h
  have hm : pathsOf t' ring ∈ (out.map npts).filter fun ps => wrap64 (shoelaceEdges ps) ≠ 0 := by
    rw [← he]; exact List.mem_map_of_mem hr
  obtain ⟨hm, ha⟩ := List.mem_filter.mp hm
  obtain ⟨n, hno, hnp⟩ := List.mem_map.mp hm
  exact ⟨by simpa using ha, n, hnp, hn.nice n hno, hx n hno⟩

/-- A normalized topology is well-formed. -/
theorem wellFormed_normalize {δ : Type} {m : Build} {t t' : Topology δ} (hw : WellFormed t)
    (h : normalize m t = .ok t') : WellFormed t' := by
  obtain ⟨rs, h1, h2⟩ := normalize_rebuilt hw.pointers hw.closed h
  have hb := (buildTopology_facts h1).1
  refine ⟨hb, ?_, fun e he => (C09_canonical m rs t' h1 e he).1⟩
  intro ring hring
  obtain ⟨r', hr', hm⟩ := List.mem_flatMap.mp hring
  obtain ⟨r, _, _, ho, hi⟩ := normalize_regions hw h r' hr'
  apply closed_of_pathsOf hb hring
  rcases List.mem_append.mp hm with hm | hm
  · obtain ⟨_, n, hn, hnice, _⟩ := normalized_becomes ho hm
    rw [← hn]; exact hnice.closed
  · obtain ⟨_, n, hn, hnice, _⟩ := normalized_becomes hi hm
    rw [← hn]; exact hnice.closed

theorem noSelf_plain {δ : Type} {t : Topology δ} {order : WindingOrder} {rings : List TopoRing}
    {ns out merged : List NormRing} (h : NormalizedRings t order rings ns out merged) (hs : NoSelfEdges t rings)
    (hx : ∀ n ∈ ns, Extended n) : plainRings ns = ns ∧ merged = [] ∧ out.Perm ns := by
  have hplain : ∀ n ∈ ns, n.all (fun e => !e.isRedundant) = true := by
    intro n hn
    rw [List.all_eq_true]
    intro e he
    obtain ⟨ring, hr, hnr⟩ := forall₂_exists_left h.single hn
    rw [isRedundant_iff, decide_eq_true_iff]
    -- an edge has a segment, and its sides are those of an edge of the ring
    have hz := hx n hn e he
    have hseg : ∃ s, s ∈ segs e.points := by
      match hp : e.points with
      | [] => exact absurd (Or.inl (by simp [hp])) hz
      | [p] => exact absurd (Or.inl (by simp [hp])) hz
      | p :: q :: l => exact ⟨(p, q), by simp [segs]⟩
    obtain ⟨s, hs'⟩ := hseg
    have hmem : (s, e.regions) ∈ nsegs n :=
      List.mem_flatMap.mpr ⟨e, he, List.mem_map.mpr ⟨s, hs', rfl⟩⟩
    have hmem := hnr.segs.mem_iff.mp hmem
    have hside : ∃ de ∈ ring.directedEdges, e.regions = sides t de.edge := by
      unfold sidedSegs wound at hmem
      obtain ⟨b, hb, hb'⟩ := List.mem_flatMap.mp hmem
      obtain ⟨_, _, hbs⟩ := List.mem_map.mp hb'
      have hbs : b.sides = e.regions := (Prod.mk.inj hbs).2
      split at hb
      · obtain ⟨de, hde, rfl⟩ := List.mem_map.mp hb
        exact ⟨de, hde, hbs.symm⟩
      · unfold turned at hb
        rw [List.mem_reverse] at hb
        obtain ⟨b', hb1, rfl⟩ := List.mem_map.mp hb
        obtain ⟨de, hde, rfl⟩ := List.mem_map.mp hb1
        exact ⟨de, hde, hbs.symm⟩
    obtain ⟨de, hde, heq⟩ := hside
    rw [heq]
    exact hs ring hr de hde
  have h1 : plainRings ns = ns := by
    unfold plainRings
    rw [List.filter_eq_self]
    exact hplain
  have h2 : looseEdges ns = [] := by
    unfold looseEdges
    rw [List.flatMap_eq_nil_iff]
    intro n hn
    rw [if_pos (hplain n hn)]
  have h3 := h.adjoined.none h2
  refine ⟨h1, h3, ?_⟩
  have := h.adjoined.parts
  rwa [h1, h3, List.append_nil] at this

theorem extended_singles {δ : Type} {t : Topology δ} (hw : WellFormed t) {order : WindingOrder}
    {rings : List TopoRing} {ns : List NormRing} (hr : ∀ ring ∈ rings, ring ∈ allRings t)
    (h : List.Forall₂ (NormalizedRing t order) rings ns) : ∀ n ∈ ns, Extended n := by
  intro n hn
  obtain ⟨ring, hring, hnr⟩ := forall₂_exists_left h hn
  exact hnr.extended (extended_nedges hw.pointers hw.extended (hr ring hring))

theorem flatMap_sidedSegs_bound (out : List NormRing) :
    (out.map (·.map NormEdge.bound)).flatMap sidedSegs = out.flatMap nsegs := by
  rw [List.flatMap_map]
  congr 1
  funext r
  exact sidedSegs_bound r

/-! ## Example -/

/-- Two regions side by side. `A` consists of two squares on top of each other
that share an edge; `B` is next to both. -/
def exNormRegions : List (Region String) :=
  [⟨"A", [.points [⟨1, 1⟩, ⟨2, 1⟩, ⟨2, 2⟩, ⟨1, 2⟩, ⟨1, 1⟩], .points [⟨1, 2⟩, ⟨2, 2⟩, ⟨2, 3⟩, ⟨1, 3⟩, ⟨1, 2⟩]], []⟩,
   ⟨"B", [.points [⟨2, 1⟩, ⟨2, 2⟩, ⟨2, 3⟩, ⟨3, 3⟩, ⟨3, 1⟩, ⟨2, 1⟩]], []⟩]

/-- Their topology. -/
def exNorm : Topology String := ((buildTopology .debug exNormRegions).toOption.getD ⟨[], []⟩)

theorem exNorm_built : buildTopology .debug exNormRegions = .ok exNorm := by decide +kernel

theorem exNorm_wellFormed : WellFormed exNorm :=
  (wellFormed_of_built exNorm_built (by decide +kernel)).1

/-- Its normalized topology. -/
def exNormal : Topology String := ((normalize .debug exNorm).toOption.getD ⟨[], []⟩)

theorem exNorm_normalize : normalize .debug exNorm = .ok exNormal := by decide +kernel

-- ten edges become three, and the two squares of `A` one ring
example : exNorm.edges.length = 10 ∧
    exNormal.edges.map (·.points) = [[⟨2, 1⟩, ⟨2, 2⟩, ⟨2, 3⟩], [⟨2, 1⟩, ⟨1, 1⟩, ⟨1, 2⟩, ⟨1, 3⟩, ⟨2, 3⟩],
      [⟨2, 1⟩, ⟨3, 1⟩, ⟨3, 3⟩, ⟨2, 3⟩]] ∧
    exNormal.regions.map (fun r => r.outerRings.map (pathsOf exNormal)) =
      [[[[⟨2, 1⟩, ⟨2, 2⟩, ⟨2, 3⟩], [⟨2, 3⟩, ⟨1, 3⟩, ⟨1, 2⟩, ⟨1, 1⟩, ⟨2, 1⟩]]],
       [[[⟨2, 1⟩, ⟨3, 1⟩, ⟨3, 3⟩, ⟨2, 3⟩], [⟨2, 3⟩, ⟨2, 2⟩, ⟨2, 1⟩]]]] := by decide +kernel

/-! ## C15 -/

/-- C15: for each region, and for its outer and inner rings separately, the
directed segments of the normalized rings, together with the regions on their
sides, are those of the given rings in the required orientation, without those
that have the same region on both sides. -/
theorem C15_conserved {δ : Type} (m : Build) (t t' : Topology δ) (hb : BackPointersExact t) (hc : RingsClosed t)
    (h : normalize m t = .ok t') :
    Rebuilt m t t' fun order rings out => (out.flatMap sidedSegs).Perm (boundary t order rings) :=
  rebuilt_of_normalize hb hc h fun order rings ns out merged _ hn => by
    rw [flatMap_sidedSegs_bound]
    exact hn.segs

/-- C15: rings that have no edge with the same region on both sides are kept,
one by one: each becomes the same closed curve, started elsewhere. -/
theorem C15_unmerged {δ : Type} (m : Build) (t t' : Topology δ) (hw : WellFormed t) (h : normalize m t = .ok t') :
    Rebuilt m t t' fun order rings out => NoSelfEdges t rings →
      ∃ ns, out.Perm ns ∧
        List.Forall₂ (fun ring n => (sidedSegs n) ~r (sidedSegs (wound t order ring))) rings ns :=
  rebuilt_of_normalize hw.pointers hw.closed h fun order rings ns out merged hr hn hs => by
    obtain ⟨_, _, hp⟩ := noSelf_plain hn hs (extended_singles hw hr hn.single)
    refine ⟨ns.map (·.map NormEdge.bound), hp.map _, ?_⟩
    rw [List.forall₂_map_right_iff]
    exact hn.single.imp fun ring n hx => by rw [sidedSegs_bound]; exact hx.segs

/-- C15: if no edge has the same region on both sides the normalized topology
has the same regions with the same number of rings, and each region's
boundary is the same. -/
theorem C15_topology {δ : Type} (m : Build) (t t' : Topology δ) (hw : WellFormed t) (hs : NoSelfEdges t (allRings t))
    (ho : ∀ r ∈ t.regions, r.outerRings ≠ [])
    (h : normalize m t = .ok t') :
    List.Forall₂ (fun r r' => r'.data = r.data ∧
      r'.outerRings.length = r.outerRings.length ∧ r'.innerRings.length = r.innerRings.length ∧
      (r'.outerRings.flatMap fun ring => (pathsOf t' ring).flatMap segs).Perm
        (r.outerRings.flatMap fun ring => (sidedSegs (wound t .clockwise ring)).map (·.1)) ∧
      (r'.innerRings.flatMap fun ring => (pathsOf t' ring).flatMap segs).Perm
        (r.innerRings.flatMap fun ring => (sidedSegs (wound t .counterClockwise ring)).map (·.1)))
      t.regions t'.regions := by
  obtain ⟨rs, h1, h2⟩ := normalize_rebuilt hw.pointers hw.closed h
  have h7 := C07_round_trip m rs t' h1
  -- what is known about one list of rings
  have key : ∀ (order : WindingOrder) (rings : List TopoRing) (ns out merged : List NormRing),
      (∀ ring ∈ rings, ring ∈ allRings t) → NormalizedRings t order rings ns out merged →
      (keptRings (out.map normRingToRing)).map ringPaths = out.map npts ∧ out.length = rings.length ∧
      ((out.map npts).flatMap fun ps => ps.flatMap segs).Perm
        (rings.flatMap fun ring => (sidedSegs (wound t order ring)).map (·.1)) := by
    intro order rings ns out merged hr hn
    have hx := extended_singles hw hr hn.single
    obtain ⟨_, _, hp⟩ := noSelf_plain hn (fun ring hring de hde => hs ring (hr ring hring) de hde) hx
    refine ⟨?_, ?_, ?_⟩
    · rw [keptRings_normRings fun n hno => hx n (hp.mem_iff.mp hno), List.filter_eq_self]
      intro ps hps
      obtain ⟨n, hno, rfl⟩ := List.mem_map.mp hps
      obtain ⟨ring, hring, hnr⟩ := forall₂_exists_left hn.single (hp.mem_iff.mp hno)
      simpa using hnr.nonzero
    · rw [hp.length_eq, hn.single.length_eq]
    · have e1 : ((out.map npts).flatMap fun ps => ps.flatMap segs) = (out.flatMap nsegs).map (·.1) := by
        rw [List.flatMap_map, List.map_flatMap]
        congr 1
        funext n
        rw [nsegs_fst]
      rw [e1]
      refine ((hp.flatMap_right nsegs).map _).trans ?_
      rw [List.map_flatMap]
      have hsg := hn.single
      clear * - hsg
      induction hsg with
      | nil => exact List.Perm.refl _
      | cons h1 _ ih =>
        rw [List.flatMap_cons, List.flatMap_cons]
        exact (h1.segs.perm.map _).append ih
  -- no region is dropped
  have hkept : keptRegions rs = rs.map fun r =>
      ⟨r.data, (keptRings r.outerRings).map ringPaths, (keptRings r.innerRings).map ringPaths⟩ := by
    unfold keptRegions
    congr 1
    rw [List.filter_eq_self]
    intro r' hr'
    obtain ⟨r, hr, _, outer, inner, e1, e2, ⟨n1, m1, g1⟩, _⟩ := forall₂_exists_left h2 hr'
    obtain ⟨k1, k2, _⟩ := key _ _ _ _ _ (mem_allRings_outer hr) g1
    rw [e1]
    simp only [ne_eq, decide_not, Bool.not_eq_eq_eq_not, Bool.not_true, decide_eq_false_iff_not]
    intro h0
    rw [h0] at k1
    have := ho r hr
    have h3 : outer.length = 0 := by simpa using (congrArg List.length k1).symm
    rw [h3] at k2
    exact this (List.eq_nil_of_length_eq_zero k2.symm)
  rw [hkept, List.forall₂_map_left_iff] at h7
  have hmem : ∀ {α β : Type} {R : α → β → Prop} {l : List α} {l' : List β}, List.Forall₂ R l l' →
      List.Forall₂ (fun a b => a ∈ l ∧ R a b) l l' := fun h => forall₂_imp_left h fun a ha b hab => ⟨ha, hab⟩
  refine forall₂_comp (hmem h2) h7 ?_
  rintro r r1 r' ⟨hr, hd, outer, inner, e1, e2, ⟨n1, m1, g1⟩, ⟨n2, m2, g2⟩⟩ ⟨hd', h8, h9⟩
  obtain ⟨a1, a2, a3⟩ := key _ _ _ _ _ (mem_allRings_outer hr) g1
  obtain ⟨b1, b2, b3⟩ := key _ _ _ _ _ (mem_allRings_inner hr) g2
  simp only [e1, a1] at h8
  simp only [e2, b1] at h9
  have p1 := pathsOf_forall₂ h8
  have p2 := pathsOf_forall₂ h9
  refine ⟨hd'.trans hd, ?_, ?_, ?_, ?_⟩
  · rw [← h8.length_eq, List.length_map, a2]
  · rw [← h9.length_eq, List.length_map, b2]
  · have : (r'.outerRings.flatMap fun ring => (pathsOf t' ring).flatMap segs) =
        (r'.outerRings.map (pathsOf t')).flatMap fun ps => ps.flatMap segs := by rw [List.flatMap_map]
    rw [this, p1]; exact a3
  · have : (r'.innerRings.flatMap fun ring => (pathsOf t' ring).flatMap segs) =
        (r'.innerRings.map (pathsOf t')).flatMap fun ps => ps.flatMap segs := by rw [List.flatMap_map]
    rw [this, p2]; exact b3

-- non-vacuity: the hypotheses hold of the example, where merging removes two segments
example : BackPointersExact exNorm ∧ RingsClosed exNorm ∧ normalize .debug exNorm = .ok exNormal :=
  ⟨exNorm_wellFormed.pointers, exNorm_wellFormed.closed, exNorm_normalize⟩
example : (exNorm.regions.map fun r => ((boundary exNorm .clockwise r.outerRings).length,
    (r.outerRings.flatMap fun ring => (pathsOf exNorm ring).flatMap segs).length)) = [(6, 8), (5, 5)] := by
  decide +kernel
-- and the topology of two squares has no edge with the same region on both sides
example : NoSelfEdges exTopology (allRings exTopology) ∧ (∀ r ∈ exTopology.regions, r.outerRings ≠ []) ∧
    (normalize .debug exTopology).isOk = true := by
  unfold NoSelfEdges
  decide +kernel
theorem exTopology_wellFormed : WellFormed exTopology :=
  (wellFormed_of_built exTopology_built (by decide +kernel)).1

/-! ## C16 -/

/-- C16: every outer ring of a normalized topology is clockwise and every inner
ring counter-clockwise. Partial: for regions none of whose edges have the
region on both sides, as rings are merged otherwise; and for rings whose 64-bit
area is not the smallest number, which has no opposite. The statement without
the first condition is refuted below. -/
theorem C16_oriented_partial {δ : Type} (m : Build) (t t' : Topology δ) (hw : WellFormed t)
    (hmin : ∀ ring ∈ allRings t, wrap64 (shoelaceEdges (pathsOf t ring)) ≠ -2 ^ 63)
    (h : normalize m t = .ok t') :
    Rebuilt m t t' fun order rings out => NoSelfEdges t rings → ∀ bs ∈ out, Oriented order (pathsIn bs) :=
  rebuilt_of_normalize hw.pointers hw.closed h fun order rings ns out merged hr hn hs bs hbs => by
    obtain ⟨_, _, hp⟩ := noSelf_plain hn hs (extended_singles hw hr hn.single)
    obtain ⟨n, hno, rfl⟩ := List.mem_map.mp hbs
    obtain ⟨ring, hring, hnr⟩ := forall₂_exists_left hn.single (hp.mem_iff.mp hno)
    rw [pathsIn_bound]
    exact hnr.oriented (hmin ring (hr ring hring))

/-- C16: the same, read from the normalized topology. -/
theorem C16_topology_partial {δ : Type} (m : Build) (t t' : Topology δ) (hw : WellFormed t)
    (hs : NoSelfEdges t (allRings t))
    (hmin : ∀ ring ∈ allRings t, wrap64 (shoelaceEdges (pathsOf t ring)) ≠ -2 ^ 63)
    (h : normalize m t = .ok t') : ∀ r' ∈ t'.regions,
      (∀ ring ∈ r'.outerRings, 0 < wrap64 (shoelaceEdges (pathsOf t' ring))) ∧
      (∀ ring ∈ r'.innerRings, wrap64 (shoelaceEdges (pathsOf t' ring)) < 0) := by
  intro r' hr'
  obtain ⟨r, hr, _, ⟨n1, o1, m1, g1, x1, e1⟩, ⟨n2, o2, m2, g2, x2, e2⟩⟩ := normalize_regions hw h r' hr'
  have key : ∀ (order : WindingOrder) (rings rings' : List TopoRing) (ns out merged : List NormRing),
      (∀ ring ∈ rings, ring ∈ allRings t) → NormalizedRings t order rings ns out merged →
      (rings'.map (pathsOf t') = (out.map npts).filter fun ps => wrap64 (shoelaceEdges ps) ≠ 0) →
      ∀ ring ∈ rings', Oriented order (pathsOf t' ring) := by
    intro order rings rings' ns out merged hr hn he ring hring
    obtain ⟨_, _, hp⟩ := noSelf_plain hn (fun ring hring de hde => hs ring (hr ring hring) de hde)
      (extended_singles hw hr hn.single)
    have hm : pathsOf t' ring ∈ rings'.map (pathsOf t') := List.mem_map_of_mem hring
    rw [he] at hm
    obtain ⟨n, hno, hnp⟩ := List.mem_map.mp (List.mem_of_mem_filter hm)
    obtain ⟨ring0, hr0, hnr⟩ := forall₂_exists_left hn.single (hp.mem_iff.mp hno)
    rw [← hnp]
    exact hnr.oriented (hmin ring0 (hr ring0 hr0))
  exact ⟨key _ _ _ _ _ _ (mem_allRings_outer hr) g1 e1, key _ _ _ _ _ _ (mem_allRings_inner hr) g2 e2⟩

-- non-vacuity: two squares side by side, given in any orientation
example : NoSelfEdges exTopology (allRings exTopology) ∧
    (∀ ring ∈ allRings exTopology, wrap64 (shoelaceEdges (pathsOf exTopology ring)) ≠ -2 ^ 63) := by
  unfold NoSelfEdges
  decide +kernel

/-- A region of two C-shaped rings that form a frame. -/
def exFrameRegions : List (Region String) :=
  [⟨"frame", [.points [⟨0, 0⟩, ⟨0, 3⟩, ⟨2, 3⟩, ⟨2, 2⟩, ⟨1, 2⟩, ⟨1, 1⟩, ⟨2, 1⟩, ⟨2, 0⟩, ⟨0, 0⟩],
    .points [⟨2, 0⟩, ⟨2, 1⟩, ⟨2, 2⟩, ⟨2, 3⟩, ⟨3, 3⟩, ⟨3, 0⟩, ⟨2, 0⟩]], []⟩]

/-- Their topology. -/
def exFrame : Topology String := ((buildTopology .debug exFrameRegions).toOption.getD ⟨[], []⟩)

theorem exFrame_built : buildTopology .debug exFrameRegions = .ok exFrame := by decide +kernel

theorem exFrame_wellFormed : WellFormed exFrame :=
  (wellFormed_of_built exFrame_built (by decide +kernel)).1

/-- Its normalized topology. -/
def exFrameNormal : Topology String := ((normalize .debug exFrame).toOption.getD ⟨[], []⟩)

theorem exFrame_normalize : normalize .debug exFrame = .ok exFrameNormal := by decide +kernel

/-- C16, refuted: merging the two halves of a frame leaves its hole among the
outer rings, counter-clockwise. -/
theorem C16_refuted : ∃ t t' : Topology String, WellFormed t ∧ (∃ rs, buildTopology .debug rs = .ok t) ∧
    normalize .debug t = .ok t' ∧ ∃ r ∈ t'.regions, ∃ ring ∈ r.outerRings,
      wrap64 (shoelaceEdges (pathsOf t' ring)) < 0 :=
  ⟨exFrame, exFrameNormal, exFrame_wellFormed, ⟨_, exFrame_built⟩, exFrame_normalize, by decide +kernel⟩

/-! ## C17 -/

/-- C17: every normalized ring starts at its leftmost (topmost) node, and the
rings of a region are sorted by their first points. -/
theorem C17_first {δ : Type} (m : Build) (t t' : Topology δ) (hw : WellFormed t) (h : normalize m t = .ok t') :
    ∀ r' ∈ t'.regions, (∀ ring ∈ r'.outerRings ++ r'.innerRings, StartsLeftmost (pathsOf t' ring)) ∧
      SortedByFirst (r'.outerRings.map (pathsOf t')) ∧ SortedByFirst (r'.innerRings.map (pathsOf t')) := by
  intro r' hr'
  obtain ⟨r, hr, _, ho, hi⟩ := normalize_regions hw h r' hr'
  refine ⟨?_, ?_, ?_⟩
  · intro ring hring
    rcases List.mem_append.mp hring with hring | hring
    · obtain ⟨_, n, hn, hnice, _⟩ := normalized_becomes ho hring
      rw [← hn]; exact hnice.first
    · obtain ⟨_, n, hn, hnice, _⟩ := normalized_becomes hi hring
      rw [← hn]; exact hnice.first
  · obtain ⟨n, o, g, hg, _, he⟩ := ho
    rw [he]
    exact hg.sorted.filter _
  · obtain ⟨n, o, g, hg, _, he⟩ := hi
    rw [he]
    exact hg.sorted.filter _

/-! ## C18 -/

/-- C18: joining the edges of a closed ring leaves its segments as they are, in the
same cyclic order and with the same regions on their sides. -/
theorem C18_rotation (es : List NormEdge) (h : ClosedRing (es.map (·.points))) :
    ∃ out, joinRelatedEdges es = .ok out ∧ ClosedRing (out.map (·.points)) ∧
      (sidedSegs (out.map NormEdge.bound)) ~r (sidedSegs (es.map NormEdge.bound)) ∧
      CyclicallyDistinct (out.map (·.regions)) := by
  obtain ⟨out, h1, h2, h3, h4, _⟩ := joinRelatedEdges_closed h
  exact ⟨out, h1, h2, by rw [sidedSegs_bound, sidedSegs_bound]; exact h3, h4⟩

/-- C18: the edges of a normalized ring can be labelled with the regions on
their sides such that each segment of the ring is a segment of the input
boundary with these sides, and no two cyclically adjacent edges have the same
label, except in a ring of one edge. -/
theorem C18_fewest_edges {δ : Type} (m : Build) (t t' : Topology δ) (hw : WellFormed t)
    (h : normalize m t = .ok t') :
    Rebuilt m t t' fun order rings out => ∀ bs ∈ out, CyclicallyDistinct (bs.map (·.sides)) ∧
      (∀ s ∈ sidedSegs bs, s ∈ boundary t order rings) ∧ ∀ b ∈ bs, segs b.path ≠ [] :=
  rebuilt_of_normalize hw.pointers hw.closed h fun order rings ns out merged hr hn bs hbs => by
    obtain ⟨n, hno, rfl⟩ := List.mem_map.mp hbs
    refine ⟨?_, ?_, ?_⟩
    · have := (hn.nice n hno).cyclic
      rw [List.map_map]
      exact this
    · intro s hs
      rw [sidedSegs_bound] at hs
      exact hn.segs.mem_iff.mp (List.mem_flatMap.mpr ⟨n, hno, hs⟩)
    · intro b hb
      obtain ⟨e, he, rfl⟩ := List.mem_map.mp hb
      have hz := hn.extended (fun ring hring => extended_nedges hw.pointers hw.extended (hr ring hring)) n hno e he
      show segs e.points ≠ []
      match hp : e.points with
      | [] => exact absurd (Or.inl (by simp [hp])) hz
      | [p] => exact absurd (Or.inl (by simp [hp])) hz
      | p :: q :: l => simp [segs]

-- non-vacuity for C17, C18 and C19
example : WellFormed exNorm ∧ normalize .debug exNorm = .ok exNormal := ⟨exNorm_wellFormed, exNorm_normalize⟩
-- the statements distinguish: they are false of the topology before normalizing
example : ¬ (∀ r ∈ exNorm.regions, ∀ ring ∈ r.outerRings ++ r.innerRings,
    CyclicallyDistinct ((bounds exNorm ring).map (·.sides))) := by
  unfold CyclicallyDistinct; decide +kernel

/-! ## C19 -/

theorem mem_wound {δ : Type} {t : Topology δ} {order : WindingOrder} {ring : TopoRing} {b : Bound}
    (h : b ∈ wound t order ring) : ∃ de ∈ ring.directedEdges, sides t de.edge = b.sides ∧
      (b.path = pathOf t de ∨ b.path = (pathOf t de).reverse) := by
  unfold wound at h
  split at h
  · obtain ⟨de, hde, rfl⟩ := List.mem_map.mp h
    exact ⟨de, hde, rfl, Or.inl rfl⟩
  · unfold turned at h
    rw [List.mem_reverse] at h
    obtain ⟨b', hb1, rfl⟩ := List.mem_map.mp h
    obtain ⟨de, hde, rfl⟩ := List.mem_map.mp hb1
    exact ⟨de, hde, rfl, Or.inr rfl⟩

/-- C19: no edge of a normalized ring runs along an edge of the input that has
the same region on both sides. -/
theorem C19_no_self_edge {δ : Type} (m : Build) (t t' : Topology δ) (hw : WellFormed t)
    (h : normalize m t = .ok t') :
    Rebuilt m t t' fun order rings out => ∀ bs ∈ out, ∀ b ∈ bs, b.sides.1 ≠ b.sides.2 ∧
      ∀ s ∈ segs b.path, ∃ ring ∈ rings, ∃ de ∈ ring.directedEdges, sides t de.edge = b.sides ∧
        (s ∈ segs (pathOf t de) ∨ s.swap ∈ segs (pathOf t de)) :=
  rebuilt_of_normalize hw.pointers hw.closed h fun order rings ns out merged hr hn bs hbs b hb => by
    obtain ⟨n, hno, rfl⟩ := List.mem_map.mp hbs
    obtain ⟨e, he, rfl⟩ := List.mem_map.mp hb
    have hseg : ∀ s ∈ segs e.points, (s, e.regions) ∈ boundary t order rings := fun s hs =>
      hn.segs.mem_iff.mp (List.mem_flatMap.mpr ⟨n, hno, List.mem_flatMap.mpr ⟨e, he, List.mem_map_of_mem hs⟩⟩)
    have hb : ∀ s ∈ segs e.points, ∃ ring ∈ rings, ∃ b ∈ wound t order ring, b.separates = true ∧
        b.sides = e.regions ∧ s ∈ segs b.path := by
      intro s hs
      obtain ⟨ring, hring, hm⟩ := List.mem_flatMap.mp (hseg s hs)
      obtain ⟨b, hb, hm⟩ := List.mem_flatMap.mp hm
      obtain ⟨s', hs', heq⟩ := List.mem_map.mp hm
      obtain ⟨rfl, h2⟩ := Prod.mk.inj heq
      obtain ⟨hb1, hb2⟩ := List.mem_filter.mp hb
      exact ⟨ring, hring, b, hb1, hb2, h2, hs'⟩
    constructor
    · have hz := hn.extended (fun ring hring => extended_nedges hw.pointers hw.extended (hr ring hring)) n hno e he
      have hex : ∃ s, s ∈ segs e.points := by
        match hp : e.points with
        | [] => exact absurd (Or.inl (by simp [hp])) hz
        | [p] => exact absurd (Or.inl (by simp [hp])) hz
        | p :: q :: l => exact ⟨(p, q), by simp [segs]⟩
      obtain ⟨s, hs⟩ := hex
      obtain ⟨_, _, b, _, hsep, heq, _⟩ := hb s hs
      have : b.sides.1 ≠ b.sides.2 := by simpa [Bound.separates] using hsep
      rw [heq] at this
      exact this
    · intro s hs
      obtain ⟨ring, hring, b, hbm, _, heq, hsb⟩ := hb s hs
      obtain ⟨de, hde, h1, h2⟩ := mem_wound hbm
      refine ⟨ring, hring, de, hde, h1.trans heq, ?_⟩
      rcases h2 with h2 | h2
      · exact Or.inl (h2 ▸ hsb)
      · right
        rw [h2, segs_reverse, List.mem_reverse] at hsb
        obtain ⟨x, hx, rfl⟩ := List.mem_map.mp hsb
        simpa using hx

-- before normalizing there is such an edge
example : ¬ NoSelfEdges exNorm (allRings exNorm) := by unfold NoSelfEdges; decide +kernel

/-! ## C22 -/

theorem crossSum_swap (l : List (Point × Point)) : crossSum (l.map Prod.swap) = -crossSum l := by
  induction l with
  | nil => rfl
  | cons s l ih =>
    simp only [List.map_cons, crossSum, List.sum_cons] at ih ⊢
    rw [ih]
    have := cross_swap s.1 s.2
    simp only [Prod.fst_swap, Prod.snd_swap]
    omega

theorem crossSum_flatMap {α : Type} (l : List α) (f : α → List (Point × Point)) :
    crossSum (l.flatMap f) = (l.map fun x => crossSum (f x)).sum := by
  induction l with
  | nil => rfl
  | cons x l ih => rw [List.flatMap_cons, crossSum_append, ih, List.map_cons, List.sum_cons]

theorem crossSum_partition (l : List ((Point × Point) × Sides)) :
    crossSum (l.map (·.1)) = crossSum ((l.filter keepSeg).map (·.1)) +
      crossSum ((l.filter fun s => !keepSeg s).map (·.1)) := by
  induction l with
  | nil => rfl
  | cons s l ih =>
    simp only [List.filter_cons]
    cases hk : keepSeg s with
    | true =>
      simp only [List.map_cons, crossSum, List.sum_cons, if_true, Bool.not_true, Bool.false_eq_true, if_false] at ih ⊢
      omega
    | false =>
      simp only [List.map_cons, crossSum, List.sum_cons, if_true, Bool.not_false, Bool.false_eq_true, if_false] at ih ⊢
      omega

theorem sidedSegs_filter_not (bs : List Bound) :
    sidedSegs (bs.filter fun b => !b.separates) = (sidedSegs bs).filter fun s => !keepSeg s := by
  induction bs with
  | nil => rfl
  | cons b bs ih =>
    have hc : ∀ (b : Bound) (bs : List Bound), sidedSegs (b :: bs) = ((segs b.path).map fun s => (s, b.sides)) ++ sidedSegs bs := by
      intro b bs; simp [sidedSegs]
    rw [hc, List.filter_append, ← ih, List.filter_cons]
    unfold Bound.separates
    by_cases h : b.sides.1 = b.sides.2
    · rw [if_pos (by simp [h]), hc]
      congr 1
      symm
      rw [List.filter_eq_self]
      intro x hx
      obtain ⟨s, _, rfl⟩ := List.mem_map.mp hx
      simp [keepSeg, h]
    · rw [if_neg (by simp [h])]
      have : ((segs b.path).map fun s => (s, b.sides)).filter (fun s => !keepSeg s) = [] := by
        rw [List.filter_eq_nil_iff]
        intro x hx
        obtain ⟨s, _, rfl⟩ := List.mem_map.mp hx
        simp [keepSeg, h]
      rw [this, List.nil_append]

theorem crossSum_sidedSegs (bs : List Bound) : crossSum ((sidedSegs bs).map (·.1)) = shoelaceEdges (pathsIn bs) := by
  rw [shoelaceEdges_eq]
  congr 1
  unfold sidedSegs pathsIn
  rw [List.map_flatMap, List.flatMap_map]
  congr 1
  funext b
  simp [Function.comp_def]

/-- C22: if the rings of a region run along edges with the region on both sides
as often one way as the other way, the total signed area of its outer (inner)
rings is what it was in the required orientation. -/
theorem C22_area {δ : Type} (m : Build) (t t' : Topology δ) (hb : BackPointersExact t) (hc : RingsClosed t)
    (h : normalize m t = .ok t') :
    Rebuilt m t t' fun order rings out =>
      ((selfSegs t order rings).map Prod.swap).Perm (selfSegs t order rings) →
      totalShoelace out = totalShoelace (rings.map (wound t order)) :=
  rebuilt_of_normalize hb hc h fun order rings ns out merged _ hn hself => by
    have h1 : totalShoelace (out.map (·.map NormEdge.bound)) = crossSum ((boundary t order rings).map (·.1)) := by
      rw [← crossSum_perm (hn.segs.map _), ← flatMap_sidedSegs_bound, List.map_flatMap, crossSum_flatMap]
      unfold totalShoelace
      congr 1
      apply List.map_congr_left
      intro bs _
      exact (crossSum_sidedSegs bs).symm
    have h2 : totalShoelace (rings.map (wound t order)) =
        crossSum ((rings.flatMap fun ring => sidedSegs (wound t order ring)).map (·.1)) := by
      rw [List.map_flatMap, crossSum_flatMap]
      unfold totalShoelace
      rw [List.map_map]
      congr 1
      apply List.map_congr_left
      intro ring _
      exact (crossSum_sidedSegs _).symm
    have h3 : crossSum (selfSegs t order rings) = 0 := by
      have := crossSum_perm hself
      rw [crossSum_swap] at this
      omega
    rw [crossSum_partition] at h2
    have e1 : (rings.flatMap fun ring => sidedSegs (wound t order ring)).filter keepSeg = boundary t order rings := by
      unfold boundary
      rw [List.filter_flatMap]
      congr 1
      funext ring
      rw [sidedSegs_filter]
    have e2 : ((rings.flatMap fun ring => sidedSegs (wound t order ring)).filter fun s => !keepSeg s).map (·.1) =
        selfSegs t order rings := by
      unfold selfSegs
      rw [List.filter_flatMap]
      congr 2
      funext ring
      rw [sidedSegs_filter_not]
    rw [h1, h2, e1, e2, h3, Int.add_zero]

-- non-vacuity: the two squares of `A` run along their common edge once each way
example : selfSegs exNorm .clockwise (exNorm.regions.flatMap (·.outerRings)) =
    [(⟨2, 2⟩, ⟨1, 2⟩), (⟨1, 2⟩, ⟨2, 2⟩)] := by decide +kernel

/-! ## C21 -/

/-- C21: normalizing a topology of closed rings panics only with an arithmetic
overflow in checked builds, with an assertion (a ring of area 0, or three users
of an edge), or with one of the two documented merge failures. It neither gets
stuck nor reads out of bounds nor dereferences a null pointer. -/
theorem C21_panics {δ : Type} (m : Build) (t : Topology δ) (hb : BackPointersExact t) (hc : RingsClosed t) (e : Panic)
    (h : normalize m t = .error e) : (m = .debug ∧ e = .overflow) ∨ e = .assert ∨ e = .explicit := by
  simp only [normalize, bind_error] at h
  rcases h with h | ⟨b, h1, h⟩
  · rcases normalizeLoop_error h with h | ⟨r, hr, h⟩
    · exact Or.inl h
    · rcases normalizeRegion_error h with h | h
      · exact normalizeRegionNormRings_error hb hc (mem_allRings_outer hr) h
      · exact normalizeRegionNormRings_error hb hc (mem_allRings_inner hr) h
  · obtain ⟨rs, _, h2⟩ := normalizeLoop_ok.mp h1
    obtain ⟨g1, g2⟩ := C12_into_topology m rs b h2
    by_cases hc : ∃ p, 3 ≤ ((allPaths rs).filter fun e => stored e = p).length
    · rw [g1 hc] at h
      exact Or.inr (Or.inl (Except.error.inj h).symm)
    · obtain ⟨t', ht'⟩ := g2 fun p => by
        by_contra hp
        exact hc ⟨p, by omega⟩
      rw [ht'] at h; cases h

/-- Either way along a segment. -/
def either (p q : Point) (s : Point × Point) : Bool := s = (p, q) ∨ s = (q, p)

theorem either_swap (p q : Point) (s : Point × Point) : either p q s.swap = either p q s := by
  unfold either
  obtain ⟨a, b⟩ := s
  simp only [Prod.swap_prod_mk, Prod.mk.injEq, decide_eq_decide]
  tauto

theorem countP_wound {δ : Type} (t : Topology δ) (order : WindingOrder) (ring : TopoRing) (p q : Point) :
    ((sidedSegs (wound t order ring)).map (·.1)).countP (either p q) =
      ((pathsOf t ring).flatMap segs).countP (either p q) := by
  rw [wound_nedges]
  have h0 : (nsegs (nedges t ring)).map (·.1) = (pathsOf t ring).flatMap segs := by rw [nsegs_fst, npts_nedges]
  split
  · rw [h0]
  · rw [nsegs_nturned, List.map_reverse, List.countP_reverse, ← h0, List.map_map, List.countP_map, List.countP_map]
    congr 1
    funext s
    exact either_swap p q s.1

theorem countP_boundary {δ : Type} (t : Topology δ) (order : WindingOrder) (rings : List TopoRing) (p q : Point) :
    ((boundary t order rings).map (·.1)).countP (either p q) ≤
      (rings.flatMap fun ring => (pathsOf t ring).flatMap segs).countP (either p q) := by
  unfold boundary
  induction rings with
  | nil => simp
  | cons ring rings ih =>
    rw [List.flatMap_cons, List.flatMap_cons, List.map_append, List.countP_append, List.countP_append]
    refine Nat.add_le_add ?_ ih
    rw [← countP_wound t order, sidedSegs_filter]
    exact (List.filter_sublist.map _).countP_le

theorem countP_kept (out : List NormRing) (p q : Point) :
    ((((keptRings (out.map normRingToRing)).map ringPaths).flatten).flatMap segs).countP (either p q) ≤
      ((out.flatMap nsegs).map (·.1)).countP (either p q) := by
  induction out with
  | nil => simp [keptRings]
  | cons n out ih =>
    have hn : (((npts n).filter fun e => ¬ ZeroLength e).flatMap segs).countP (either p q) ≤
        ((nsegs n).map (·.1)).countP (either p q) := by
      rw [nsegs_fst]
      induction npts n with
      | nil => simp
      | cons e l ih =>
        rw [List.filter_cons, List.flatMap_cons, List.countP_append]
        split
        · rw [List.flatMap_cons, List.countP_append]; omega
        · omega
    rw [List.flatMap_cons, List.map_append, List.countP_append, List.map_cons]
    unfold keptRings at ih ⊢
    rw [List.filter_cons]
    split
    · rw [List.map_cons, List.flatten_cons, List.flatMap_append, List.countP_append]
      exact Nat.add_le_add hn ih
    · exact Nat.le_trans ih (Nat.le_add_left _ _)

theorem length_filter_le_countP {α β : Type} (l : List α) (f : α → List β) (P : α → Bool) (Q : β → Bool)
    (h : ∀ x ∈ l, P x = true → ∃ s ∈ f x, Q s = true) : (l.filter P).length ≤ (l.flatMap f).countP Q := by
  induction l with
  | nil => simp
  | cons x l ih =>
    have ih := ih fun y hy => h y (by simp [hy])
    rw [List.flatMap_cons, List.countP_append, List.filter_cons]
    split
    · rename_i hp
      obtain ⟨s, hs, hq⟩ := h x (by simp) hp
      have : 0 < (f x).countP Q := List.countP_pos_iff.mpr ⟨s, hs, hq⟩
      rw [List.length_cons]; omega
    · omega

theorem users_le_passes {δ : Type} {t : Topology δ} {rs : List (Region δ)} {m : Build} (hb : BackPointersExact t)
    (hc : RingsClosed t) (hf : List.Forall₂ (fun r r' => normalizeRegion m t r = .ok r') t.regions rs)
    (h2 : ∀ p q, passes t p q ≤ 2) (k : List Point) : ((allPaths rs).filter fun e => stored e = k).length ≤ 2 := by
  by_cases hk : ∃ e ∈ allPaths rs, stored e = k
  · obtain ⟨e, he, hek⟩ := hk
    have hz := not_zeroLength_of_mem_allPaths he
    have hcase : ∀ f, stored f = k → k = f ∨ k = f.reverse := fun f hf => hf ▸ stored_cases f
    have hzk : ¬ ZeroLength k := by
      rcases hcase e hek with h | h
      · rw [h]; exact hz
      · rw [h, zeroLength_reverse]; exact hz
    obtain ⟨p, q, l, hpq⟩ : ∃ p q l, k = p :: q :: l := by
      match k, hzk with
      | [], hzk => exact absurd (Or.inl (by simp)) hzk
      | [p], hzk => exact absurd (Or.inl (by simp)) hzk
      | p :: q :: l, _ => exact ⟨p, q, l, rfl⟩
    refine Nat.le_trans (length_filter_le_countP _ segs _ (either p q) ?_) (Nat.le_trans ?_ (h2 p q))
    · intro f _ hfk
      have hmem : (p, q) ∈ segs k := by rw [hpq]; simp [segs]
      rcases hcase f (by simpa using hfk) with h | h
      · exact ⟨(p, q), by rw [← h]; exact hmem, by simp [either]⟩
      · rw [h, segs_reverse, List.mem_reverse] at hmem
        obtain ⟨s, hs, hsw⟩ := List.mem_map.mp hmem
        exact ⟨s, hs, by rw [← either_swap, hsw]; simp [either]⟩
    · have hreg : ∀ (regs : List (TopoRegion δ)) (rs : List (Region δ)), (∀ r ∈ regs, r ∈ t.regions) →
          List.Forall₂ (fun r r' => normalizeRegion m t r = .ok r') regs rs →
          ((allPaths rs).flatMap segs).countP (either p q) ≤
          ((regs.flatMap fun r => r.outerRings ++ r.innerRings).flatMap fun ring =>
            (pathsOf t ring).flatMap segs).countP (either p q) := by
        intro regs rs hmem hf
        induction hf with
        | nil => simp [allPaths, keptRegions]
        | @cons r r' regs rs h1 _ ih =>
          have ih := ih fun r hr => hmem r (by simp [hr])
          have hr := hmem r (by simp)
          simp only [normalizeRegion, bind_ok] at h1
          obtain ⟨o, h3, i, h4, h⟩ := h1
          obtain rfl := Except.ok.inj h
          obtain ⟨no, h5, rfl⟩ := normalizeRegionRings_ok h3
          obtain ⟨ni, h6, rfl⟩ := normalizeRegionRings_ok h4
          obtain ⟨_, _, g1⟩ := normalizeRegionNormRings_ok hb hc (mem_allRings_outer hr) h5
          obtain ⟨_, _, g2⟩ := normalizeRegionNormRings_ok hb hc (mem_allRings_inner hr) h6
          rw [allPaths_cons, List.flatMap_append, List.countP_append, List.flatMap_cons, List.flatMap_append,
            List.countP_append]
          refine Nat.add_le_add ?_ ih
          split
          · rw [List.flatMap_append, List.flatMap_append, List.countP_append, List.countP_append]
            refine Nat.add_le_add ?_ ?_
            · exact Nat.le_trans (countP_kept no p q)
                (by rw [(g1.segs.map _).countP_eq]; exact countP_boundary t _ _ p q)
            · exact Nat.le_trans (countP_kept ni p q)
                (by rw [(g2.segs.map _).countP_eq]; exact countP_boundary t _ _ p q)
          · simp
      exact hreg t.regions rs (fun r hr => hr) hf
  · have : ((allPaths rs).filter fun e => stored e = k) = [] := by
      rw [List.filter_eq_nil_iff]
      intro e he h
      exact hk ⟨e, he, by simpa using h⟩
    rw [this]; simp

theorem splitRings_plain (ret : List NormRing) (map : MergeMap) (ns : List NormRing) (h : plainRings ns = ns) :
    splitRings ret map ns = .ok (ret ++ ns, map) := by
  have hall : ∀ n ∈ ns, n.all (fun e => !e.isRedundant) = true := by
    unfold plainRings at h
    exact List.filter_eq_self.mp h
  clear h
  induction ns generalizing ret with
  | nil => simp [splitRings]
  | cons n ns ih =>
    have hn := hall n (by simp)
    unfold splitRings
    rw [if_pos (redundant_length.mpr hn), ih _ fun x hx => hall x (by simp [hx]),
      List.filter_eq_self.mpr (List.all_eq_true.mp hn)]
    simp

/-- C21: in release builds normalizing does not panic if the rings are closed
and have an area, no edge has the same region on both sides, and no segment
is passed more than twice. -/
theorem C21_release {δ : Type} (t : Topology δ) (hw : WellFormed t)
    (ha : ∀ ring ∈ allRings t, wrap64 (shoelaceEdges (pathsOf t ring)) ≠ 0)
    (hs : NoSelfEdges t (allRings t)) (h2 : ∀ p q, passes t p q ≤ 2) : ∃ t', normalize .release t = .ok t' := by
  have hrings : ∀ (order : WindingOrder) (rings : List TopoRing), (∀ ring ∈ rings, ring ∈ allRings t) →
      ∃ out, normalizeRegionRings .release t rings order = .ok out := by
    intro order rings hr
    obtain ⟨ns, hns⟩ := normalizeRings_release (order := order) hw.pointers hw.closed hr fun ring h => ha ring (hr ring h)
    have hsg := normalizeRings_ok hw.pointers hw.closed hr hns
    have hx := extended_singles hw hr hsg
    have hpl : plainRings ns = ns := by
      unfold plainRings
      rw [List.filter_eq_self]
      intro n hn
      rw [List.all_eq_true]
      intro e he
      obtain ⟨ring, hring, hnr⟩ := forall₂_exists_left hsg hn
      rw [isRedundant_iff, decide_eq_true_iff]
      have hz := hx n hn e he
      have hseg : ∃ s, s ∈ segs e.points := by
        match hp : e.points with
        | [] => exact absurd (Or.inl (by simp [hp])) hz
        | [p] => exact absurd (Or.inl (by simp [hp])) hz
        | p :: q :: l => exact ⟨(p, q), by simp [segs]⟩
      obtain ⟨s, hs'⟩ := hseg
      have hmem := hnr.segs.mem_iff.mp (List.mem_flatMap.mpr ⟨e, he, List.mem_map.mpr ⟨s, hs', rfl⟩⟩ :
        (s, e.regions) ∈ nsegs n)
      obtain ⟨b, hb, hb'⟩ := List.mem_flatMap.mp hmem
      obtain ⟨_, _, hbs⟩ := List.mem_map.mp hb'
      have hbs : b.sides = e.regions := (Prod.mk.inj hbs).2
      obtain ⟨de, hde, h1, _⟩ := mem_wound hb
      rw [← hbs, ← h1]
      exact hs ring (hr ring hring) de hde
    obtain ⟨out, ho⟩ := sortRings_total (rings := ns) (by
      intro n hn
      obtain ⟨ring, _, hnr⟩ := forall₂_exists_left hsg hn
      exact hnr.nice.closed)
    refine ⟨out.map normRingToRing, ?_⟩
    have hj : joinAdjacentRings ns = .ok ns := by
      unfold joinAdjacentRings
      rw [splitRings_plain [] [] ns hpl]
      rfl
    rw [normalizeRegionRings, normalizeRegionNormRings, hns, ok_bind, hj, ok_bind, ho]
    rfl
  have hregs : ∀ regs : List (TopoRegion δ), (∀ r ∈ regs, r ∈ t.regions) →
      ∃ rs, List.Forall₂ (fun r r' => normalizeRegion .release t r = .ok r') regs rs := by
    intro regs
    induction regs with
    | nil => intro _; exact ⟨[], .nil⟩
    | cons r regs ih =>
      intro hmem
      obtain ⟨rs, hrs⟩ := ih fun x hx => hmem x (by simp [hx])
      have hr := hmem r (by simp)
      obtain ⟨o, ho⟩ := hrings .clockwise r.outerRings (mem_allRings_outer hr)
      obtain ⟨i, hi⟩ := hrings .counterClockwise r.innerRings (mem_allRings_inner hr)
      exact ⟨⟨r.data, o, i⟩ :: rs, .cons (by rw [normalizeRegion, ho, ok_bind, hi]; rfl) hrs⟩
  obtain ⟨rs, hrs⟩ := hregs t.regions fun r hr => hr
  obtain ⟨b, hb⟩ := C12_add_region_total rs
  obtain ⟨t', ht'⟩ := (C12_into_topology .release rs b hb).2 (users_le_passes hw.pointers hw.closed hrs h2)
  exact ⟨t', normalize_ok.mpr ⟨rs, hrs, by rw [buildTopology, hb, ok_bind, ht']⟩⟩

theorem allDirectedEdges_count {δ : Type} (t : Topology δ) (i : Nat) :
    (allDirectedEdges t).countP (·.edge = i) = (ringsUsing t i).length := by
  have hrings : ∀ (rings : List TopoRing) (k n : Nat) (inner : Bool),
      ((rings.zipIdx k).flatMap fun (x : TopoRing × Nat) =>
        (x.1.directedEdges.filter (·.edge = i)).map fun _ => (⟨n, inner, x.2⟩ : RingPtr)).length =
      (rings.flatMap (·.directedEdges)).countP (·.edge = i) := by
    intro rings
    induction rings with
    | nil => intros; rfl
    | cons ring rings ih =>
      intro k n inner
      rw [List.zipIdx_cons, List.flatMap_cons, List.length_append, ih, List.flatMap_cons, List.countP_append,
        List.length_map, ← List.countP_eq_length_filter]
  have hregs : ∀ (regs : List (TopoRegion δ)) (k : Nat),
      ((regs.zipIdx k).flatMap fun (x : TopoRegion δ × Nat) =>
        (x.1.outerRings.zipIdx.flatMap fun (y : TopoRing × Nat) =>
          (y.1.directedEdges.filter (·.edge = i)).map fun _ => (⟨x.2, false, y.2⟩ : RingPtr)) ++
        (x.1.innerRings.zipIdx.flatMap fun (y : TopoRing × Nat) =>
          (y.1.directedEdges.filter (·.edge = i)).map fun _ => (⟨x.2, true, y.2⟩ : RingPtr))).length =
      ((regs.flatMap fun r => r.outerRings ++ r.innerRings).flatMap (·.directedEdges)).countP (·.edge = i) := by
    intro regs
    induction regs with
    | nil => intros; rfl
    | cons r regs ih =>
      intro k
      rw [List.zipIdx_cons, List.flatMap_cons, List.length_append, ih, List.length_append, hrings, hrings,
        List.flatMap_cons, List.flatMap_append, List.countP_append, List.flatMap_append, List.countP_append]
  exact (hregs t.regions 0).symm

/-- In a topology of point rings every directed edge is a single segment between
different points. -/
theorem points_walk {δ : Type} {m : Build} {rs : List (Region δ)} {t : Topology δ} (h : buildTopology m rs = .ok t)
    (hp : ∀ r ∈ rs, ∀ ring ∈ r.outerRings ++ r.innerRings, ∃ ps, ring = .points ps) :
    ∀ de ∈ allDirectedEdges t, ∃ a b, a ≠ b ∧ walk t.edges de = some [a, b] := by
  intro de hde
  obtain ⟨ring, hring, hdr⟩ := List.mem_flatMap.mp hde
  obtain ⟨r, hr, hring⟩ := List.mem_flatMap.mp hring
  obtain ⟨k, hk, _, h1, h2⟩ := forall₂_exists_left (C07_round_trip m rs t h) hr
  obtain ⟨r0, hr0, rfl⟩ := List.mem_map.mp hk
  have hr0 := List.mem_of_mem_filter hr0
  have hex : ∃ ring0 ∈ r0.outerRings ++ r0.innerRings, ReadsAs t.edges (ringPaths ring0) ring := by
    rcases List.mem_append.mp hring with hring | hring
    · obtain ⟨ps, hps, hread⟩ := forall₂_exists_left h1 hring
      obtain ⟨ring0, hk0, rfl⟩ := List.mem_map.mp hps
      exact ⟨ring0, by simp [List.mem_of_mem_filter hk0], hread⟩
    · obtain ⟨ps, hps, hread⟩ := forall₂_exists_left h2 hring
      obtain ⟨ring0, hk0, rfl⟩ := List.mem_map.mp hps
      exact ⟨ring0, by simp [List.mem_of_mem_filter hk0], hread⟩
  obtain ⟨ring0, hm0, hread⟩ := hex
  obtain ⟨ps, rfl⟩ := hp r0 hr0 ring0 hm0
  have hw : walk t.edges de ∈ ring.directedEdges.map (walk t.edges) := List.mem_map_of_mem hdr
  rw [hread] at hw
  obtain ⟨e, he, hew⟩ := List.mem_map.mp hw
  obtain ⟨he1, he2⟩ := List.mem_filter.mp he
  have : ∀ (ps : List Point) (e : List Point), e ∈ pairs ps → ∃ a b, e = [a, b] := by
    intro ps
    induction ps with
    | nil => simp [pairs]
    | cons x ps ih =>
      cases ps with
      | nil => simp [pairs]
      | cons y ps =>
        intro e he
        simp only [pairs, List.mem_cons] at he
        rcases he with rfl | he
        · exact ⟨x, y, rfl⟩
        · exact ih e he
  obtain ⟨a, b, rfl⟩ := this ps e he1
  refine ⟨a, b, ?_, hew.symm⟩
  rintro rfl
  simp only [decide_not, Bool.not_eq_eq_eq_not, Bool.not_true, decide_eq_false_iff_not] at he2
  exact he2 (Or.inr ⟨a, rfl⟩)

/-- C21: a topology that is built from rings of points never has a segment that
is passed more than twice. -/
theorem C21_points_passes {δ : Type} (m : Build) (rs : List (Region δ)) (t : Topology δ)
    (h : buildTopology m rs = .ok t)
    (hp : ∀ r ∈ rs, ∀ ring ∈ r.outerRings ++ r.innerRings, ∃ ps, ring = .points ps) (p q : Point) :
    passes t p q ≤ 2 := by
  have hbp := (buildTopology_facts h).1
  have hwalk := points_walk h hp
  -- passes are directed edges
  have hpass : passes t p q = (allDirectedEdges t).countP fun de => pathOf t de = [p, q] ∨ pathOf t de = [q, p] := by
    have aux : ∀ des : List DirectedEdge, (∀ de ∈ des, de ∈ allDirectedEdges t) →
        ((des.map (pathOf t)).flatMap segs).countP (fun s => s = (p, q) ∨ s = (q, p)) =
        des.countP fun de => pathOf t de = [p, q] ∨ pathOf t de = [q, p] := by
      intro des
      induction des with
      | nil => intro _; rfl
      | cons de des ih =>
        intro hd
        rw [List.map_cons, List.flatMap_cons, List.countP_append, ih fun d hd' => hd d (by simp [hd']), List.countP_cons]
        obtain ⟨a, b, _, hw⟩ := hwalk de (hd de (by simp))
        have hpo : pathOf t de = [a, b] := by simp [pathOf, hw]
        rw [hpo, Nat.add_comm]
        simp [segs, List.countP_cons]
    have hall : ((allRings t).flatMap fun ring => (pathsOf t ring).flatMap segs) =
        ((allDirectedEdges t).map (pathOf t)).flatMap segs := by
      unfold allDirectedEdges pathsOf
      rw [List.map_flatMap, List.flatMap_assoc]
    unfold passes
    rw [hall]
    exact aux _ fun de hde => hde
  rw [hpass]
  -- they all belong to one edge
  by_cases hex : ∃ d ∈ allDirectedEdges t, pathOf t d = [p, q] ∨ pathOf t d = [q, p]
  · obtain ⟨d, hd, hdp⟩ := hex
    have hlt := hbp.2.2 d hd
    have hle := (hbp.1 d.edge _ (List.getElem?_eq_getElem hlt)).1
    refine Nat.le_trans ?_ (Nat.le_trans (Nat.le_of_eq (allDirectedEdges_count t d.edge)) hle)
    apply List.countP_mono_left
    intro d' hd' hp'
    simp only [decide_eq_true_eq] at hp' ⊢
    obtain ⟨a, b, hab, hw⟩ := hwalk d hd
    obtain ⟨a', b', hab', hw'⟩ := hwalk d' hd'
    have e1 : pathOf t d = [a, b] := by simp [pathOf, hw]
    have e2 : pathOf t d' = [a', b'] := by simp [pathOf, hw']
    obtain ⟨g1, g2, _⟩ := C10_sharing m rs t h d d' hd hd' _ _ hw hw'
    rw [e1] at hdp
    rw [e2] at hp'
    by_cases heq : [a', b'] = [a, b]
    · rw [g1 heq]
    · have : ([a', b'] : List Point) = [a, b].reverse := by
        simp at hdp hp' heq ⊢
        grind
      exact (g2 this (Or.inl (by simp; exact hab))).1.symm
  · have : (allDirectedEdges t).countP (fun de => pathOf t de = [p, q] ∨ pathOf t de = [q, p]) = 0 := by
      rw [List.countP_eq_zero]
      intro d hd hc
      exact hex ⟨d, hd, by simpa using hc⟩
    omega

/-- C21: in release builds, normalizing a topology that was built from closed
rings of points, none of whose edges has the same region on both sides, does not
panic. -/
theorem C21_points {δ : Type} (m : Build) (rs : List (Region δ)) (t : Topology δ) (h : buildTopology m rs = .ok t)
    (hp : ∀ r ∈ rs, ∀ ring ∈ r.outerRings ++ r.innerRings, ∃ ps, ring = .points ps)
    (hclosed : ∀ r ∈ rs, ∀ ring ∈ r.outerRings ++ r.innerRings, ringArea ring ≠ 0 → ClosedRing (ringPaths ring))
    (hs : NoSelfEdges t (allRings t)) : ∃ t', normalize .release t = .ok t' := by
  obtain ⟨hw, _, ha⟩ := wellFormed_of_built h hclosed
  exact C21_release t hw ha hs (C21_points_passes m rs t h hp)

/-- C21: the same of any closed rings, given as points or as edges, as long as no
segment is passed more than twice. -/
theorem C21_built {δ : Type} (m : Build) (rs : List (Region δ)) (t : Topology δ) (h : buildTopology m rs = .ok t)
    (hclosed : ∀ r ∈ rs, ∀ ring ∈ r.outerRings ++ r.innerRings, ringArea ring ≠ 0 → ClosedRing (ringPaths ring))
    (hs : NoSelfEdges t (allRings t)) (h2 : ∀ p q, passes t p q ≤ 2) : ∃ t', normalize .release t = .ok t' := by
  obtain ⟨hw, _, ha⟩ := wellFormed_of_built h hclosed
  exact C21_release t hw ha hs h2

-- non-vacuity: two squares side by side
example : (∀ r ∈ exRegions, ∀ ring ∈ r.outerRings ++ r.innerRings, ringArea ring ≠ 0 → ClosedRing (ringPaths ring)) ∧
    (∀ ring ∈ allRings exTopology, wrap64 (shoelaceEdges (pathsOf exTopology ring)) ≠ 0) := by decide +kernel

/-! ## C20 -/

theorem joinLoop_distinct (ret es : List NormEdge) (h : List.IsChain (· ≠ ·) (nsides (ret ++ es))) :
    joinLoop ret es = .ok (ret ++ es) := by
  induction es generalizing ret with
  | nil => simp [joinLoop]
  | cons e es ih =>
    have hstep : joinStep ret e = .ok (ret ++ [e]) := by
      unfold joinStep
      split
      · rename_i last hl
        rw [if_neg]
        intro heq
        unfold nsides at h
        rw [List.map_append, List.isChain_append] at h
        exact h.2.2 last.regions (by rw [List.getLast?_map, hl]; rfl) e.regions (by simp) heq
      · rfl
    unfold joinLoop
    rw [hstep, ok_bind, ih _ (by simpa using h)]
    simp

theorem joinRelatedEdges_distinct {es : List NormEdge} (h : CyclicallyDistinct (nsides es)) :
    joinRelatedEdges es = .ok es := by
  unfold joinRelatedEdges
  rcases h with h | h
  · match es, h with
    | [], _ => rfl
    | [e], _ => rfl
    | _ :: _ :: _, h => simp [nsides] at h
  · rw [List.isChain_append] at h
    rw [joinLoop_distinct [] es h.1, ok_bind, List.nil_append]
    match es, h with
    | [], _ => rfl
    | [e], _ => rfl
    | f :: s :: rest, h =>
      obtain ⟨mid, l, hml⟩ : ∃ mid l, s :: rest = mid ++ [l] := by
        rcases snoc_cases (s :: rest) with h | ⟨mid, l, h⟩
        · simp at h
        · exact ⟨mid, l, h⟩
      rw [hml] at h ⊢
      rw [joinWrap_pair, if_neg]
      intro heq
      refine h.2.2 l.regions ?_ f.regions (by simp [nsides]) heq.symm
      unfold nsides
      rw [List.getLast?_map, ← List.cons_append, List.getLast?_concat]
      rfl

theorem argMin_first {p : Point} {l : List Point} (h : ∀ q ∈ l, ¬ q < p) : argMin (p :: l) = some 0 := by
  have : ∀ (l : List Point) (i : Nat), (∀ q ∈ l, ¬ q < p) → argMinLoop p 0 i l = 0 := by
    intro l
    induction l with
    | nil => intros; rfl
    | cons q l ih =>
      intro i h
      unfold argMinLoop
      rw [if_neg (h q (by simp))]
      exact ih _ fun x hx => h x (by simp [hx])
  rw [argMin, this l 1 h]

theorem rotateEdges_first {es : List NormEdge} (hc : ClosedRing (npts es)) (h : StartsLeftmost (npts es)) :
    rotateEdges es = .ok es := by
  match es, hc, h with
  | [], hc, _ => exact absurd rfl hc.1
  | [e], hc, h =>
    obtain ⟨_, a, hl⟩ := hc
    obtain ⟨h1, _⟩ := leads_single.mp hl
    replace h1 : e.points.head? = some a := h1
    have hm : argMin e.points = some 0 := by
      cases hp : e.points with
      | nil => rw [hp] at h1; simp at h1
      | cons p l =>
        apply argMin_first
        intro q hq
        exact h q (by show q ∈ e.points; rw [hp]; simp [hq]) p (by show e.points.head? = _; rw [hp]; rfl)
    simp [rotateEdges, rotateIslandEdge, hm]
  | e1 :: e2 :: es, hc, h =>
    obtain ⟨_, a, hl⟩ := hc
    have hne : ∀ e ∈ e1 :: e2 :: es, e.points ≠ [] := fun e he => leads_ne_nil hl _ (List.mem_map_of_mem he)
    obtain ⟨ps, hps, hf⟩ := firstPoints_ok hne
    have hm : argMin ps = some 0 := by
      cases hf with
      | cons h1 hf =>
        apply argMin_first
        intro q hq
        obtain ⟨e, he, heq⟩ := forall₂_exists_left hf hq
        refine h e.points (List.mem_map_of_mem (List.mem_cons_of_mem _ he)) q heq _ ?_
        simpa [npts] using h1
    unfold rotateEdges
    simp only
    rw [hps, ok_bind, hm]
    rfl

theorem sortByKey_of_sorted {l : List (Point × NormRing)} (h : l.Pairwise fun a b => ¬ b.1 < a.1) : sortByKey l = l := by
  induction l with
  | nil => rfl
  | cons x l ih =>
    rw [List.pairwise_cons] at h
    rw [sortByKey, ih h.2]
    cases l with
    | nil => rfl
    | cons y l =>
      unfold insertByKey
      rw [if_pos (Point.le_def'.mpr (h.1 y (by simp)))]

theorem sortRings_sorted {rings : List NormRing} (hc : ∀ r ∈ rings, ClosedRing (npts r))
    (h : SortedByFirst (rings.map npts)) : sortRings rings = .ok rings := by
  obtain ⟨ks, hks⟩ := keyRings_total fun r hr => firstOf_closed (hc r hr)
  obtain ⟨h1, h2⟩ := keyRings_ok hks
  have hs : ks.Pairwise fun a b => ¬ b.1 < a.1 := by
    unfold SortedByFirst at h
    rw [← h1, List.map_map, List.pairwise_map] at h
    refine (List.Pairwise.and_mem.mp h).imp ?_
    rintro a b ⟨ha, hb, hab⟩
    exact hab a.1 (h2 a ha) b.1 (h2 b hb)
  unfold sortRings
  rw [hks, ok_bind, sortByKey_of_sorted hs, h1]

theorem normalizeRing_normal {δ : Type} {m : Build} {t : Topology δ} (hw : WellFormed t) {order : WindingOrder}
    {ring : TopoRing} (hr : ring ∈ allRings t)
    (hd : CyclicallyDistinct (ring.directedEdges.map fun de => sides t de.edge))
    (ho : Oriented order (pathsOf t ring)) (hf : StartsLeftmost (pathsOf t ring)) :
    normalizeRing m t order ring = windEdges m (nedges t ring) order >>= fun w => rotateEdges w := by
  have hd' : CyclicallyDistinct (nsides (nedges t ring)) := by
    simpa [nsides, nedges, nedge, Function.comp_def] using hd
  rw [normalizeRing, withDirectedEdges_eq hw.pointers (mem_allDirectedEdges_of_ring hr), ok_bind,
    show ring.directedEdges.map (nedge t) = nedges t ring from rfl, joinRelatedEdges_distinct hd', ok_bind]

theorem normalizeRing_normal_ok {δ : Type} {m : Build} {t : Topology δ} (hw : WellFormed t) {order : WindingOrder}
    {ring : TopoRing} (hr : ring ∈ allRings t)
    (hd : CyclicallyDistinct (ring.directedEdges.map fun de => sides t de.edge))
    (ho : Oriented order (pathsOf t ring)) (hf : StartsLeftmost (pathsOf t ring)) {out : NormRing}
    (h : normalizeRing m t order ring = .ok out) : out = nedges t ring := by
  rw [normalizeRing_normal hw hr hd ho hf, bind_ok] at h
  obtain ⟨w, h1, h⟩ := h
  obtain ⟨_, h2⟩ := windEdges_ok h1
  rw [npts_nedges, if_pos ho] at h2
  subst h2
  rw [rotateEdges_first (by rw [npts_nedges]; exact closed_pathsOf hw.closed hr) (by rw [npts_nedges]; exact hf)] at h
  exact (Except.ok.inj h).symm

/-- The regions of a topology, as rings of paths. -/
def regionsOf {δ : Type} (t : Topology δ) : List (Region δ) :=
  t.regions.map fun r => ⟨r.data, r.outerRings.map fun ring => .edges (pathsOf t ring),
    r.innerRings.map fun ring => .edges (pathsOf t ring)⟩

/-- What a topology depends on. -/
theorem buildTopology_congr {δ : Type} {m m' : Build} {rs rs' : List (Region δ)} {t : Topology δ}
    (h : buildTopology m rs = .ok t) (hk : keptRegions rs' = keptRegions rs) :
    (∀ t', buildTopology m' rs' = .ok t' → t' = t) ∧ buildTopology .release rs' = .ok t := by
  have hkeys : keysOf rs' = keysOf rs := by unfold keysOf allPaths; rw [hk]
  have h1 := buildTopology_ok h
  rw [← hkeys, ← hk] at h1
  constructor
  · intro t' h'
    have h2 := buildTopology_ok h'
    rw [h1] at h2
    exact (Except.ok.inj h2).symm
  · obtain ⟨b, hb⟩ := C12_add_region_total rs'
    rw [buildTopology, hb, ok_bind, intoTopology_eq hb, h1]

/-- A topology is what is built from its own regions. -/
theorem keptRegions_regionsOf {δ : Type} {m : Build} {rs : List (Region δ)} {t : Topology δ}
    (h : buildTopology m rs = .ok t) (hz : ∀ e ∈ t.edges, ¬ ZeroLength e.points)
    (ha : ∀ ring ∈ allRings t, wrap64 (shoelaceEdges (pathsOf t ring)) ≠ 0)
    (ho : ∀ r ∈ t.regions, r.outerRings ≠ []) : keptRegions (regionsOf t) = keptRegions rs := by
  have hb := (buildTopology_facts h).1
  have h7 := C07_round_trip m rs t h
  have hpath : ∀ ring ∈ allRings t, ringPaths (.edges (pathsOf t ring)) = pathsOf t ring := by
    intro ring hr
    show (pathsOf t ring).filter _ = _
    rw [List.filter_eq_self]
    intro e he
    obtain ⟨x, hx, rfl⟩ := List.mem_map.mp (by rw [← npts_nedges] at he; exact he)
    simpa using extended_nedges hb hz hr x hx
  have hkeep : ∀ rings : List TopoRing, (∀ ring ∈ rings, ring ∈ allRings t) →
      keptRings (rings.map fun ring => .edges (pathsOf t ring)) = rings.map fun ring => .edges (pathsOf t ring) := by
    intro rings hr
    unfold keptRings
    rw [List.filter_eq_self]
    intro x hx
    obtain ⟨ring, hring, rfl⟩ := List.mem_map.mp hx
    exact decide_eq_true (ha ring (hr ring hring))
  have hpaths : ∀ rings : List TopoRing, (∀ ring ∈ rings, ring ∈ allRings t) →
      (rings.map fun ring => Ring.edges (pathsOf t ring)).map ringPaths = rings.map (pathsOf t) := by
    intro rings hr
    rw [List.map_map]
    apply List.map_congr_left
    intro ring hring
    exact hpath ring (hr ring hring)
  have h1 : keptRegions (regionsOf t) = t.regions.map fun r =>
      ⟨r.data, r.outerRings.map (pathsOf t), r.innerRings.map (pathsOf t)⟩ := by
    unfold keptRegions regionsOf
    rw [List.filter_eq_self.mpr, List.map_map]
    · apply List.map_congr_left
      intro r hr
      simp only [Function.comp_apply, hkeep _ (mem_allRings_outer hr), hkeep _ (mem_allRings_inner hr),
        hpaths _ (mem_allRings_outer hr), hpaths _ (mem_allRings_inner hr)]
    · intro r' hr'
      obtain ⟨r, hr, rfl⟩ := List.mem_map.mp hr'
      simpa [hkeep _ (mem_allRings_outer hr)] using ho r hr
  rw [h1]
  clear * - h7
  have hk : ∀ (rings : List TopoRing) (ks : List (List (List Point))), List.Forall₂ (ReadsAs t.edges) ks rings →
      rings.map (pathsOf t) = ks := by
    intro rings ks h
    induction h with
    | nil => rfl
    | cons h1 _ ih => rw [List.map_cons, ih, pathsOf_reads h1]
  generalize keptRegions rs = ks, t.regions = regs at h7
  induction h7 with
  | nil => rfl
  | cons h1 _ ih =>
    obtain ⟨hd, ho, hi⟩ := h1
    rw [List.map_cons, ih, hk _ _ ho, hk _ _ hi, hd]

theorem outerRings_of_built {δ : Type} {m : Build} {rs : List (Region δ)} {t : Topology δ}
    (h : buildTopology m rs = .ok t) : ∀ r ∈ t.regions, r.outerRings ≠ [] := by
  intro r hr
  obtain ⟨k, hk, _, ho, _⟩ := forall₂_exists_left (C07_round_trip m rs t h) hr
  intro hnil
  rw [hnil] at ho
  obtain ⟨r0, hr0, rfl⟩ := List.mem_map.mp hk
  have := (List.mem_filter.mp hr0).2
  cases hko : keptRings r0.outerRings with
  | nil => simp [hko] at this
  | cons a l => simp only [hko, List.map_cons] at ho; cases ho

theorem normalizeRings_normal {δ : Type} {t : Topology δ} {order : WindingOrder} {rings : List TopoRing}
    (hok : ∀ m, ∀ ring ∈ rings, ∀ out, normalizeRing m t order ring = .ok out → out = nedges t ring)
    (hrel : ∀ ring ∈ rings, normalizeRing .release t order ring = .ok (nedges t ring)) :
    (∀ m out, normalizeRings m t order rings = .ok out → out = rings.map (nedges t)) ∧
    normalizeRings .release t order rings = .ok (rings.map (nedges t)) := by
  induction rings with
  | nil => exact ⟨fun m out h => (Except.ok.inj h).symm, rfl⟩
  | cons r rings ih =>
    obtain ⟨h1, h2⟩ := ih (fun m ring hr => hok m ring (by simp [hr])) (fun ring hr => hrel ring (by simp [hr]))
    constructor
    · intro m out h
      simp only [normalizeRings, bind_ok] at h
      obtain ⟨n, hn, ns, hns, h⟩ := h
      rw [← Except.ok.inj h, h1 m ns hns, hok m r (by simp) n hn]
      rfl
    · rw [normalizeRings, hrel r (by simp), ok_bind, h2, ok_bind]
      rfl

theorem joinAdjacentRings_plain {rings : List NormRing} (h : ∀ r ∈ rings, ∀ e ∈ r, e.isRedundant = false) :
    joinAdjacentRings rings = .ok rings := by
  have : ∀ (rings ret : List NormRing), (∀ r ∈ rings, ∀ e ∈ r, e.isRedundant = false) →
      splitRings ret [] rings = .ok (ret ++ rings, []) := by
    intro rings
    induction rings with
    | nil => intro ret _; simp [splitRings]
    | cons r rings ih =>
      intro ret h
      have h1 : r.filter (fun e => e.isRedundant) = [] := by
        rw [List.filter_eq_nil_iff]
        intro e he
        simp [h r (by simp) e he]
      have h2 : r.filter (fun e => !e.isRedundant) = r := by
        rw [List.filter_eq_self]
        intro e he
        simp [h r (by simp) e he]
      rw [splitRings]
      simp only [h1, h2]
      rw [if_pos (by rfl), ih _ fun r hr => h r (by simp [hr])]
      simp
  rw [joinAdjacentRings, this rings [] h, ok_bind]
  rfl

theorem normalizeRegionRings_normal {δ : Type} {t : Topology δ} (hn : Normal t) {order : WindingOrder}
    {rings : List TopoRing} (hr : ∀ ring ∈ rings, ring ∈ allRings t)
    (ho : ∀ ring ∈ rings, Oriented order (pathsOf t ring)) (hs : SortedByFirst (rings.map (pathsOf t))) :
    (∀ m out, normalizeRegionRings m t rings order = .ok out → out = rings.map fun ring => .edges (pathsOf t ring)) ∧
    normalizeRegionRings .release t rings order = .ok (rings.map fun ring => .edges (pathsOf t ring)) := by
  have hclosed : ∀ r ∈ rings.map (nedges t), ClosedRing (npts r) := by
    intro r hr'
    obtain ⟨ring, hring, rfl⟩ := List.mem_map.mp hr'
    rw [npts_nedges]
    exact closed_pathsOf hn.wellFormed.closed (hr ring hring)
  have hplain : joinAdjacentRings (rings.map (nedges t)) = .ok (rings.map (nedges t)) := by
    apply joinAdjacentRings_plain
    intro r hr' e he
    obtain ⟨ring, hring, rfl⟩ := List.mem_map.mp hr'
    obtain ⟨de, hde, rfl⟩ := List.mem_map.mp he
    have h1 := hn.noSelf ring (hr ring hring) de hde
    have h2 : (!(nedge t de).isRedundant) = true := by rw [isRedundant_iff]; exact decide_eq_true h1
    simpa using h2
  have hsort : sortRings (rings.map (nedges t)) = .ok (rings.map (nedges t)) := by
    apply sortRings_sorted hclosed
    rw [List.map_map]
    simpa [Function.comp_def, npts_nedges] using hs
  have hpaths : (rings.map (nedges t)).map normRingToRing = rings.map fun ring => .edges (pathsOf t ring) := by
    rw [List.map_map]
    apply List.map_congr_left
    intro ring _
    show Ring.edges (npts (nedges t ring)) = _
    rw [npts_nedges]
  obtain ⟨h1, h2⟩ := normalizeRings_normal (t := t) (order := order) (rings := rings)
    (fun m ring hring out h => normalizeRing_normal_ok hn.wellFormed (hr ring hring) (hn.distinct ring (hr ring hring))
      (ho ring hring) (hn.first ring (hr ring hring)) h)
    (fun ring hring => by
      have hw := windEdges_release (es := nedges t ring) (order := order) (by
        rw [npts_nedges]
        have := ho ring hring
        unfold Oriented at this
        split at this <;> omega)
      obtain ⟨w, hw⟩ := hw
      have hall := normalizeRing_normal (m := .release) hn.wellFormed (hr ring hring)
        (hn.distinct ring (hr ring hring)) (ho ring hring) (hn.first ring (hr ring hring))
      obtain ⟨_, hw2⟩ := windEdges_ok hw
      rw [npts_nedges, if_pos (ho ring hring)] at hw2
      rw [hall, hw, ok_bind, hw2]
      exact rotateEdges_first (by rw [npts_nedges]; exact closed_pathsOf hn.wellFormed.closed (hr ring hring))
        (by rw [npts_nedges]; exact hn.first ring (hr ring hring)))
  constructor
  · intro m out h
    simp only [normalizeRegionRings, normalizeRegionNormRings, bind_ok] at h
    obtain ⟨s, ⟨ns, g1, j, g2, g3⟩, h⟩ := h
    obtain rfl := h1 m ns g1
    rw [hplain] at g2
    obtain rfl := Except.ok.inj g2
    rw [hsort] at g3
    obtain rfl := Except.ok.inj g3
    rw [← Except.ok.inj h, hpaths]
  · rw [normalizeRegionRings, normalizeRegionNormRings, h2, ok_bind, hplain, ok_bind, hsort, ok_bind, hpaths]

theorem forall₂_map_of {α β : Type} {f : α → β} {l : List α} {l' : List β}
    (h : List.Forall₂ (fun a b => b = f a) l l') : l' = l.map f := by
  induction h with
  | nil => rfl
  | cons h1 _ ih => rw [List.map_cons, ← h1, ← ih]

/-- C20 (partial): a topology that follows the normalization rules is left as
it is, whichever build runs; the release build does not panic on it. What is
missing for the full claim is that a normalized topology follows the rules:
it does not, see `C20_refuted`. -/
theorem C20_fixpoint_partial {δ : Type} (m : Build) (rs : List (Region δ)) (t : Topology δ)
    (hb : buildTopology m rs = .ok t) (hn : Normal t) :
    (∀ m' t', normalize m' t = .ok t' → t' = t) ∧ normalize .release t = .ok t := by
  have hk := keptRegions_regionsOf hb hn.wellFormed.extended (by
    intro ring hr
    obtain ⟨r, hr1, hr2⟩ := List.mem_flatMap.mp hr
    rcases List.mem_append.mp hr2 with hr2 | hr2
    · have := hn.clockwise r hr1 ring hr2
      simp only [Oriented] at this
      omega
    · have := hn.counterClockwise r hr1 ring hr2
      simp only [Oriented] at this
      omega) (outerRings_of_built hb)
  have hreg : ∀ r ∈ t.regions, (∀ m' r', normalizeRegion m' t r = .ok r' →
      r' = ⟨r.data, r.outerRings.map fun ring => .edges (pathsOf t ring),
        r.innerRings.map fun ring => .edges (pathsOf t ring)⟩) ∧
      normalizeRegion .release t r = .ok ⟨r.data, r.outerRings.map fun ring => .edges (pathsOf t ring),
        r.innerRings.map fun ring => .edges (pathsOf t ring)⟩ := by
    intro r hr
    obtain ⟨o1, o2⟩ := normalizeRegionRings_normal hn (mem_allRings_outer hr) (hn.clockwise r hr) (hn.sorted r hr).1
    obtain ⟨i1, i2⟩ := normalizeRegionRings_normal hn (mem_allRings_inner hr) (hn.counterClockwise r hr)
      (hn.sorted r hr).2
    constructor
    · intro m' r' h
      simp only [normalizeRegion, bind_ok] at h
      obtain ⟨o, ho, i, hi, h⟩ := h
      rw [← Except.ok.inj h, o1 m' o ho, i1 m' i hi]
    · rw [normalizeRegion, o2, ok_bind, i2, ok_bind]
  constructor
  · intro m' t' h
    obtain ⟨rs', h1, h2⟩ := normalize_ok.mp h
    have : rs' = regionsOf t := forall₂_map_of (forall₂_imp_mem h1 fun r hr r' h => (hreg r hr).1 m' r' h)
    subst this
    exact (buildTopology_congr hb hk).1 t' h2
  · refine normalize_ok.mpr ⟨regionsOf t, ?_, (buildTopology_congr (m' := .release) hb hk).2⟩
    unfold regionsOf
    rw [List.forall₂_map_right_iff, List.forall₂_same]
    exact fun r hr => (hreg r hr).2

/-- C20 (partial): normalizing once more changes nothing, if the first pass left
no edge with the same region on both sides, no neighbouring edges with the same
regions, and no ring of the wrong orientation. -/
theorem C20_idempotent_partial {δ : Type} (m : Build) (t t' : Topology δ) (hw : WellFormed t)
    (h : normalize m t = .ok t') (hs : NoSelfEdges t' (allRings t'))
    (hd : ∀ ring ∈ allRings t', CyclicallyDistinct (ring.directedEdges.map fun de => sides t' de.edge))
    (ho : ∀ r ∈ t'.regions, (∀ ring ∈ r.outerRings, Oriented .clockwise (pathsOf t' ring)) ∧
      ∀ ring ∈ r.innerRings, Oriented .counterClockwise (pathsOf t' ring)) :
    (∀ m' t'', normalize m' t' = .ok t'' → t'' = t') ∧ normalize .release t' = .ok t' := by
  obtain ⟨rs, _, hb⟩ := normalize_ok.mp h
  have h17 := C17_first m t t' hw h
  refine C20_fixpoint_partial m rs t' hb ⟨wellFormed_normalize hw h, hs, hd, fun r hr => (ho r hr).1,
    fun r hr => (ho r hr).2, ?_, fun r hr => (h17 r hr).2⟩
  intro ring hring
  obtain ⟨r, hr, hring⟩ := List.mem_flatMap.mp hring
  exact (h17 r hr).1 ring hring

-- the normalized example meets the conditions
example : NoSelfEdges exNormal (allRings exNormal) ∧
    (∀ ring ∈ allRings exNormal, CyclicallyDistinct (ring.directedEdges.map fun de => sides exNormal de.edge)) ∧
    (∀ r ∈ exNormal.regions, (∀ ring ∈ r.outerRings, Oriented .clockwise (pathsOf exNormal ring)) ∧
      ∀ ring ∈ r.innerRings, Oriented .counterClockwise (pathsOf exNormal ring)) := by
  unfold NoSelfEdges CyclicallyDistinct
  decide +kernel

/-- C20, refuted: the hole that merging leaves among the outer rings of a frame
is turned round by a second pass. -/
theorem C20_refuted : ∃ t t' t'' : Topology String, (∃ rs, buildTopology .debug rs = .ok t) ∧ WellFormed t ∧
    normalize .debug t = .ok t' ∧ normalize .debug t' = .ok t'' ∧ t'' ≠ t' :=
  ⟨exFrame, exFrameNormal, ((normalize .debug exFrameNormal).toOption.getD ⟨[], []⟩), ⟨_, exFrame_built⟩,
    exFrame_wellFormed, exFrame_normalize, by decide +kernel, by decide +kernel⟩

/-! ## C23 -/

/-- C23 (partial): a stretch of edge between two different regions lies, after
normalizing, on the boundary of every region it lay on before, between the same
two regions. What is missing is that the stretch is part of one shared edge: it
need not be, see `C23_refuted`. -/
theorem C23_segments_partial {δ : Type} (m : Build) (t t' : Topology δ) (hw : WellFormed t)
    (h : normalize m t = .ok t') :
    Rebuilt m t t' fun _ rings out => ∀ ring ∈ rings, ∀ de ∈ ring.directedEdges,
      (sides t de.edge).1 ≠ (sides t de.edge).2 → ∀ s ∈ segs (pathOf t de),
        ∃ bs ∈ out, ∃ b ∈ bs, b.sides = sides t de.edge ∧ (s ∈ segs b.path ∨ s.swap ∈ segs b.path) :=
  rebuilt_of_normalize hw.pointers hw.closed h fun order rings ns out merged _ hn ring hring de hde hne s hs => by
    have key : (s, sides t de.edge) ∈ boundary t order rings ∨ (s.swap, sides t de.edge) ∈ boundary t order rings := by
      have hin : ∀ s' b, b ∈ wound t order ring → b.sides = sides t de.edge → s' ∈ segs b.path →
          (s', sides t de.edge) ∈ boundary t order rings := by
        intro s' b hb hsd hs'
        refine List.mem_flatMap.mpr ⟨ring, hring, List.mem_flatMap.mpr ⟨b, List.mem_filter.mpr ⟨hb, ?_⟩,
          List.mem_map.mpr ⟨s', hs', by rw [hsd]⟩⟩⟩
        unfold Bound.separates
        rw [hsd]
        exact decide_eq_true hne
      have hbound : (⟨pathOf t de, sides t de.edge⟩ : Bound) ∈ bounds t ring := List.mem_map_of_mem hde
      by_cases ho : Oriented order (pathsOf t ring)
      · left
        exact hin s ⟨pathOf t de, sides t de.edge⟩ (by unfold wound; rw [if_pos ho]; exact hbound) rfl hs
      · right
        refine hin s.swap ⟨(pathOf t de).reverse, sides t de.edge⟩ ?_ rfl ?_
        · unfold wound turned
          rw [if_neg ho]
          exact List.mem_reverse.mpr (List.mem_map.mpr ⟨_, hbound, rfl⟩)
        · rw [segs_reverse]
          exact List.mem_reverse.mpr (List.mem_map_of_mem hs)
    have hout : ∀ s', (s', sides t de.edge) ∈ boundary t order rings →
        ∃ bs ∈ out.map (·.map NormEdge.bound), ∃ b ∈ bs, b.sides = sides t de.edge ∧ s' ∈ segs b.path := by
      intro s' hs'
      have := hn.segs.mem_iff.mpr hs'
      rw [← flatMap_sidedSegs_bound] at this
      obtain ⟨bs, hbs, hmem⟩ := List.mem_flatMap.mp this
      obtain ⟨b, hb, hmem⟩ := List.mem_flatMap.mp hmem
      obtain ⟨s1, hs1, heq⟩ := List.mem_map.mp hmem
      obtain ⟨rfl, h2⟩ := Prod.mk.inj heq
      exact ⟨bs, hbs, b, hb, h2, hs1⟩
    rcases key with key | key
    · obtain ⟨bs, hbs, b, hb, h1, h2⟩ := hout _ key
      exact ⟨bs, hbs, b, hb, h1, Or.inl h2⟩
    · obtain ⟨bs, hbs, b, hb, h1, h2⟩ := hout _ key
      exact ⟨bs, hbs, b, hb, h1, Or.inr h2⟩

example : WellFormed exNorm ∧ normalize .debug exNorm = .ok exNormal := ⟨exNorm_wellFormed, exNorm_normalize⟩

/-- A rectangle, and two triangles of one region that touch each other at a
point of the rectangle's right side. -/
def exTornRegions : List (Region String) :=
  [⟨"A", [.points [⟨0, 0⟩, ⟨1, 0⟩, ⟨1, 1⟩, ⟨1, 2⟩, ⟨0, 2⟩, ⟨0, 0⟩]], []⟩,
   ⟨"B", [.points [⟨1, 0⟩, ⟨2, 0⟩, ⟨1, 1⟩, ⟨1, 0⟩], .points [⟨1, 1⟩, ⟨2, 2⟩, ⟨1, 2⟩, ⟨1, 1⟩]], []⟩]

/-- Their topology. -/
def exTorn : Topology String := ((buildTopology .debug exTornRegions).toOption.getD ⟨[], []⟩)

theorem exTorn_built : buildTopology .debug exTornRegions = .ok exTorn := by decide +kernel

/-- Its normalized topology. -/
def exTornNormal : Topology String := ((normalize .debug exTorn).toOption.getD ⟨[], []⟩)

theorem exTorn_normalize : normalize .debug exTorn = .ok exTornNormal := by decide +kernel

/-- C23, refuted: the two edges of the rectangle `A` that border `B` are joined
on `A`'s side only, so what was shared is stored twice and the edges that run
along it have one region each. -/
theorem C23_refuted : ∃ t t' : Topology String, (∃ rs, buildTopology .debug rs = .ok t) ∧ WellFormed t ∧
    normalize .debug t = .ok t' ∧
    (∃ e ∈ t.edges, (⟨1, 0⟩, ⟨1, 1⟩) ∈ segs e.points ∧ e.ring0.isSome ∧ e.ring1.isSome) ∧
    (∃ e ∈ t'.edges, (⟨1, 0⟩, ⟨1, 1⟩) ∈ segs e.points) ∧
    ∀ e ∈ t'.edges, (⟨1, 0⟩, ⟨1, 1⟩) ∈ segs e.points → e.ring1 = none :=
  ⟨exTorn, exTornNormal, ⟨_, exTorn_built⟩, (wellFormed_of_built exTorn_built (by decide +kernel)).1,
    exTorn_normalize, by decide +kernel, by decide +kernel, by decide +kernel⟩

end TopoGeo
