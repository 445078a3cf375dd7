import Verif.Props.Geo
import Verif.Props.Normalize
/-!
# Property C77: what a topology depends on
-/

namespace TopoGeo

open Spec

/-! ## When building does not overflow -/

/-- None of the computations for a ring overflows. -/
def RingSafe (m : Build) (ring : Ring) : Prop :=
  ∃ a, ring.area2 m = .ok a ∧ (a ≠ 0 → ∀ e ∈ ring.getEdges, ¬ isZeroLength e → ∃ x, canonicalize m e = .ok x)

theorem buildDirectedEdges_isOk (m : Build) (edges : List Edge) (es : EdgeMap) :
    (∃ x, buildDirectedEdges m es edges = .ok x) ↔ ∀ e ∈ edges, ¬ isZeroLength e → ∃ x, canonicalize m e = .ok x := by
  induction edges generalizing es with
  | nil => simp [buildDirectedEdges]
  | cons e rest ih =>
    simp only [buildDirectedEdges, List.mem_cons, forall_eq_or_imp]
    constructor
    · rintro ⟨x, hx⟩
      obtain ⟨⟨o, es1⟩, h1, hx⟩ := bind_ok.mp hx
      obtain ⟨y, h2, _⟩ := bind_ok.mp hx
      refine ⟨fun hz => ?_, (ih es1).mp ⟨y, h2⟩⟩
      rw [buildDirectedEdge, if_neg hz] at h1
      obtain ⟨c, hc, _⟩ := bind_ok.mp h1
      exact ⟨c, hc⟩
    · rintro ⟨h1, h2⟩
      have : ∃ y, buildDirectedEdge m es e = .ok y := by
        unfold buildDirectedEdge
        by_cases hz : isZeroLength e
        · exact ⟨_, if_pos hz⟩
        · obtain ⟨c, hc⟩ := h1 hz
          rw [if_neg hz, hc]
          exact ⟨_, rfl⟩
      obtain ⟨⟨o, es1⟩, hy⟩ := this
      obtain ⟨⟨ds, es2⟩, hz⟩ := (ih es1).mpr h2
      exact ⟨_, by rw [hy, ok_bind]; simp only [hz, ok_bind]; rfl⟩

theorem buildRing_isOk (m : Build) (es : EdgeMap) (ring : Ring) :
    (∃ x, buildRing m es ring = .ok x) ↔ RingSafe m ring := by
  unfold buildRing RingSafe
  constructor
  · rintro ⟨x, hx⟩
    obtain ⟨a, ha, hx⟩ := bind_ok.mp hx
    refine ⟨a, ha, fun h0 => ?_⟩
    rw [if_neg h0] at hx
    obtain ⟨y, hy, _⟩ := bind_ok.mp hx
    exact (buildDirectedEdges_isOk m _ es).mp ⟨y, hy⟩
  · rintro ⟨a, ha, h⟩
    rw [ha, ok_bind]
    by_cases h0 : a = 0
    · exact ⟨_, if_pos h0⟩
    · obtain ⟨⟨ds, es'⟩, hy⟩ := (buildDirectedEdges_isOk m _ es).mpr (h h0)
      rw [if_neg h0, hy]
      exact ⟨_, rfl⟩

theorem buildRings_isOk (m : Build) (rings : List Ring) (es : EdgeMap) :
    (∃ x, buildRings m es rings = .ok x) ↔ ∀ ring ∈ rings, RingSafe m ring := by
  induction rings generalizing es with
  | nil => simp [buildRings]
  | cons r rest ih =>
    simp only [buildRings, List.mem_cons, forall_eq_or_imp]
    constructor
    · rintro ⟨x, hx⟩
      obtain ⟨⟨o, es1⟩, h1, hx⟩ := bind_ok.mp hx
      obtain ⟨y, h2, _⟩ := bind_ok.mp hx
      exact ⟨(buildRing_isOk m es r).mp ⟨_, h1⟩, (ih es1).mp ⟨y, h2⟩⟩
    · rintro ⟨h1, h2⟩
      obtain ⟨⟨o, es1⟩, hy⟩ := (buildRing_isOk m es r).mpr h1
      obtain ⟨⟨ds, es2⟩, hz⟩ := (ih es1).mpr h2
      exact ⟨_, by rw [hy, ok_bind]; simp only [hz, ok_bind]; rfl⟩

/-- What a region needs so that adding it does not overflow. -/
def RegionSafe {δ : Type} (m : Build) (r : Region δ) : Prop :=
  (∀ ring ∈ r.outerRings, RingSafe m ring) ∧ (keptRings r.outerRings ≠ [] → ∀ ring ∈ r.innerRings, RingSafe m ring)

theorem addRegion_isOk {δ : Type} (m : Build) (r : Region δ) {b : TopologyBuilder δ} {ks : List (List Point)}
    (hks : b.edges = ks.zipIdx) : (∃ x, b.addRegion m r = .ok x) ↔ RegionSafe m r := by
  unfold TopologyBuilder.addRegion RegionSafe
  rw [hks]
  constructor
  · rintro ⟨x, hx⟩
    obtain ⟨⟨outer, es1⟩, h1, hx⟩ := bind_ok.mp hx
    refine ⟨(buildRings_isOk m _ _).mp ⟨_, h1⟩, fun h0 => ?_⟩
    have h2 := (buildRings_ok h1).2
    have : outer.length > 0 := by
      rw [h2, List.length_map, List.length_map]
      exact List.length_pos_of_ne_nil h0
    simp only [this, if_true] at hx
    obtain ⟨y, hy, _⟩ := bind_ok.mp hx
    exact (buildRings_isOk m _ _).mp ⟨_, hy⟩
  · rintro ⟨h1, h2⟩
    obtain ⟨⟨outer, es1⟩, h3⟩ := (buildRings_isOk m _ ks.zipIdx).mpr h1
    rw [h3, ok_bind]
    by_cases h0 : outer.length > 0
    · have : keptRings r.outerRings ≠ [] := by
        intro hn
        rw [(buildRings_ok h3).2, hn] at h0
        simp at h0
      obtain ⟨⟨inner, es2⟩, h4⟩ := (buildRings_isOk m _ es1).mpr (h2 this)
      simp only [h0, if_true, h4, ok_bind]
      exact ⟨_, rfl⟩
    · simp only [h0, if_false]
      exact ⟨_, rfl⟩

theorem addRegions_isOk {δ : Type} (m : Build) (rs : List (Region δ)) {b : TopologyBuilder δ} {ks : List (List Point)}
    (hks : b.edges = ks.zipIdx) : (∃ x, b.addRegions m rs = .ok x) ↔ ∀ r ∈ rs, RegionSafe m r := by
  induction rs generalizing b ks with
  | nil => simp [TopologyBuilder.addRegions]
  | cons r rest ih =>
    simp only [TopologyBuilder.addRegions, List.mem_cons, forall_eq_or_imp]
    rw [← addRegion_isOk m r hks]
    constructor
    · rintro ⟨x, hx⟩
      obtain ⟨b1, h1, hx⟩ := bind_ok.mp hx
      exact ⟨⟨b1, h1⟩, (ih (addRegion_ok hks h1).1).mp ⟨x, hx⟩⟩
    · rintro ⟨⟨b1, h1⟩, h2⟩
      rw [h1, ok_bind]
      exact (ih (addRegion_ok hks h1).1).mpr h2

/-! ## Leaving out what does not count -/

theorem area_as_edges (m : Build) (ring : Ring) : ring.area2 m = (Ring.edges ring.getEdges).area2 m := by
  cases ring with
  | edges es => rfl
  | points ps =>
    unfold Ring.area2 Ring.area2AndWindingOrder Ring.getEdges
    simp only [edgesAreaLoop_pairs]
    rfl

theorem edgesAreaLoop_filter {m : Build} {es : List Edge} {a v : Int} (ha : InI64 a)
    (h : edgesAreaLoop m a es = .ok v) : edgesAreaLoop m a (es.filter fun e => ¬ ZeroLength e) = .ok v := by
  induction es generalizing a with
  | nil => exact h
  | cons e rest ih =>
    obtain ⟨t, ht, h⟩ := bind_ok.mp h
    obtain ⟨a', ha', h⟩ := bind_ok.mp h
    by_cases hz : ZeroLength e
    · rw [List.filter_cons_of_neg (by simpa using hz)]
      have : t = 0 := by
        rw [signedArea2_ok ht, shoelace_zeroLength hz]
        rfl
      rw [this, add_zero, i64_of_inI64 ha] at ha'
      obtain rfl := Except.ok.inj ha'
      exact ih ha h
    · rw [List.filter_cons_of_pos (by simpa using hz)]
      show (do let t ← signedArea2 m e; let a' ← m.i64 (a + t); edgesAreaLoop m a' _) = _
      rw [ht, ok_bind, ha', ok_bind]
      exact ih (i64_ok_inI64 ha') h

/-- The paths that are kept of a ring overflow no more than the ring does. -/
theorem ringSafe_paths {m : Build} {ring : Ring} (h : RingSafe m ring) : RingSafe m (.edges (ringPaths ring)) := by
  obtain ⟨a, ha, h⟩ := h
  refine ⟨a, ?_, fun h0 e he hz => h h0 e ?_ hz⟩
  · rw [area_as_edges] at ha
    rw [ringPaths_eq]
    obtain ⟨x, hx, ha⟩ := bind_ok.mp ha
    obtain ⟨v, hv, hx⟩ := bind_ok.mp hx
    have := edgesAreaLoop_filter (by decide) hv
    show (do let x ← (do let a ← edgesAreaLoop m 0 _; splitSign m a); Except.ok x.1) = Except.ok a
    rw [this, ok_bind, hx, ok_bind]
    exact ha
  · rw [ringPaths_eq] at he
    exact List.mem_of_mem_filter he

theorem areas_of_built {δ : Type} {m : Build} {rs : List (Region δ)} {t : Topology δ}
    (h : buildTopology m rs = .ok t) : ∀ ring ∈ allRings t, wrap64 (shoelaceEdges (pathsOf t ring)) ≠ 0 := by
  have h7 := C07_round_trip m rs t h
  intro ring hr
  obtain ⟨r, hr, hring⟩ := List.mem_flatMap.mp hr
  obtain ⟨k, hk, _, h1, h2⟩ := forall₂_exists_left h7 hr
  obtain ⟨r0, hr0, rfl⟩ := List.mem_map.mp hk
  have : ∃ ring0, ringArea ring0 ≠ 0 ∧ ReadsAs t.edges (ringPaths ring0) ring := by
    rcases List.mem_append.mp hring with hring | hring
    · obtain ⟨ps, hps, hread⟩ := forall₂_exists_left h1 hring
      obtain ⟨ring0, hk0, rfl⟩ := List.mem_map.mp hps
      exact ⟨ring0, by simpa using (List.mem_filter.mp hk0).2, hread⟩
    · obtain ⟨ps, hps, hread⟩ := forall₂_exists_left h2 hring
      obtain ⟨ring0, hk0, rfl⟩ := List.mem_map.mp hps
      exact ⟨ring0, by simpa using (List.mem_filter.mp hk0).2, hread⟩
  obtain ⟨ring0, ha, hread⟩ := this
  rw [pathsOf_reads hread, shoelaceEdges_ringPaths]
  exact ha

/-! ## C77 -/

/-- C77, the dependence: a topology depends only on the data of the regions and
the paths that are kept of their rings. Points that are repeated, paths of no
length, rings of no area and regions without outer rings leave no trace in it,
and neither does the build profile. -/
theorem C77_depends {δ : Type} (m m' : Build) (rs rs' : List (Region δ)) (t t' : Topology δ)
    (h : buildTopology m rs = .ok t) (h' : buildTopology m' rs' = .ok t')
    (hk : keptRegions rs' = keptRegions rs) : t' = t :=
  (buildTopology_congr h hk).1 t' h'

/-- C77: building a topology from the rings of a topology that was built gives
that topology again, and does not overflow where the first build did not. -/
theorem C77_rebuild {δ : Type} (m : Build) (rs : List (Region δ)) (t : Topology δ)
    (h : buildTopology m rs = .ok t) : buildTopology m (regionsOf t) = .ok t := by
  have hk := keptRegions_regionsOf h (fun e he => (C09_canonical m rs t h e he).1) (areas_of_built h)
    (outerRings_of_built h)
  have hsafe : ∀ r ∈ rs, RegionSafe m r := by
    rw [← addRegions_isOk m rs (b := TopologyBuilder.new) (ks := []) rfl]
    obtain ⟨b, hb, _⟩ := bind_ok.mp h
    exact ⟨b, hb⟩
  have h7 := C07_round_trip m rs t h
  have : ∃ b, TopologyBuilder.new.addRegions m (regionsOf t) = .ok b := by
    rw [addRegions_isOk m _ (b := TopologyBuilder.new) (ks := []) rfl]
    intro r' hr'
    obtain ⟨r, hr, rfl⟩ := List.mem_map.mp hr'
    obtain ⟨k, hk, _, h1, h2⟩ := forall₂_exists_left h7 hr
    obtain ⟨r0, hr0, rfl⟩ := List.mem_map.mp hk
    obtain ⟨hr0, hne⟩ := List.mem_filter.mp hr0
    obtain ⟨s1, s2⟩ := hsafe r0 hr0
    constructor
    · intro x hx
      obtain ⟨ring, hring, rfl⟩ := List.mem_map.mp hx
      obtain ⟨ps, hps, hread⟩ := forall₂_exists_left h1 hring
      obtain ⟨ring0, hk0, rfl⟩ := List.mem_map.mp hps
      rw [pathsOf_reads hread]
      exact ringSafe_paths (s1 ring0 (List.mem_of_mem_filter hk0))
    · intro _ x hx
      obtain ⟨ring, hring, rfl⟩ := List.mem_map.mp hx
      obtain ⟨ps, hps, hread⟩ := forall₂_exists_left h2 hring
      obtain ⟨ring0, hk0, rfl⟩ := List.mem_map.mp hps
      rw [pathsOf_reads hread]
      exact ringSafe_paths (s2 (by simpa using hne) ring0 (List.mem_of_mem_filter hk0))
  obtain ⟨b, hb⟩ := this
  have h1 := (buildTopology_congr (m' := .release) h hk).2
  rw [buildTopology, hb, ok_bind, intoTopology_eq hb]
  exact buildTopology_ok h1

/-- A square with a point that is repeated, a ring of no area and a region
without outer rings. -/
def exUntidy : List (Region String) :=
  [⟨"A", [.points [⟨0, 0⟩, ⟨0, 9⟩, ⟨0, 9⟩, ⟨9, 9⟩, ⟨9, 0⟩, ⟨0, 0⟩], .points [⟨3, 3⟩, ⟨4, 4⟩, ⟨3, 3⟩]], []⟩,
   ⟨"nothing", [.points [⟨1, 1⟩]], [.points [⟨0, 0⟩, ⟨0, 9⟩, ⟨9, 9⟩, ⟨0, 0⟩]]⟩,
   ⟨"B", [.edges [[⟨9, 9⟩, ⟨9, 0⟩], [⟨9, 0⟩], [⟨9, 0⟩, ⟨12, 4⟩, ⟨9, 9⟩]]], []⟩]

-- what does not count does not show
example : buildTopology .debug exUntidy = buildTopology .debug
      [⟨"A", [.points [⟨0, 0⟩, ⟨0, 9⟩, ⟨9, 9⟩, ⟨9, 0⟩, ⟨0, 0⟩]], []⟩,
       ⟨"B", [.edges [[⟨9, 9⟩, ⟨9, 0⟩], [⟨9, 0⟩, ⟨12, 4⟩, ⟨9, 9⟩]]], []⟩] ∧
    (buildTopology .debug exUntidy).toOption.map (fun t => (t.edges.length, t.regions.length)) = some (5, 2) := by
  decide +kernel

-- and the topology is the one of its own rings, not the one of the rings in
-- another order
example : ((buildTopology .debug exUntidy).toOption.map regionsOf).map (buildTopology .debug) =
      some (buildTopology .debug exUntidy) ∧
    buildTopology .debug exUntidy.reverse ≠ buildTopology .debug exUntidy := by
  decide +kernel

end TopoGeo
