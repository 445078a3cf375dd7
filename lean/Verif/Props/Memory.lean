import Verif.Proofs.Memory
import Verif.Props.Topology
import Verif.Props.ClipTopology
/-!
# Property C75: the raw pointers of a topology

`src/topology/build.rs` and `src/clip/topology.rs` take pointers to regions and
edges in vectors, and turn the vectors into boxed slices afterwards.
-/

namespace TopoGeo

open Spec

theorem placeRegions_getElem? {δ : Type} (w : World) (n i : Nat) (rs : List (TopoRegion δ)) :
    (placeRegions w n rs)[i]? = rs[i]?.map (placeRegion w (n + i)) := by
  induction rs generalizing n i with
  | nil => simp [placeRegions]
  | cons r rs ih =>
    cases i with
    | zero => simp [placeRegions]
    | succ i =>
      simp only [placeRegions, List.getElem?_cons_succ]
      rw [ih, show n + 1 + i = n + (i + 1) by omega]

theorem placeRegions_forall₂ {δ : Type} {w : World} {R : MRegion δ → TopoRegion δ → Prop} {n : Nat} {rs : List (TopoRegion δ)}
    (h : ∀ i r, rs[i]? = some r → R (placeRegion w (n + i) r) r) : List.Forall₂ R (placeRegions w n rs) rs := by
  induction rs generalizing n with
  | nil => exact .nil
  | cons r rs ih =>
    refine .cons (by simpa using h 0 r rfl) (ih fun i r' hr' => ?_)
    have := h (i + 1) r' (by simpa using hr')
    rwa [show n + 1 + i = n + (i + 1) by omega]

theorem ringsUsing_range {δ : Type} {t : Topology δ} {i : Nat} {p : RingPtr} (h : p ∈ ringsUsing t i) :
    ∃ r, t.regions[p.region]? = some r ∧ p.index < (if p.inner then r.innerRings else r.outerRings).length := by
  obtain ⟨⟨r, n⟩, hr, hp⟩ := List.mem_flatMap.mp h
  have hr := List.mk_mem_zipIdx_iff_getElem?.mp hr
  rcases List.mem_append.mp hp with hp | hp
  · obtain ⟨⟨ring, k⟩, hk, hpk⟩ := List.mem_flatMap.mp hp
    obtain ⟨_, _, rfl⟩ := List.mem_map.mp hpk
    exact ⟨r, hr, (List.getElem?_eq_some_iff.mp (List.mk_mem_zipIdx_iff_getElem?.mp hk)).1⟩
  · obtain ⟨⟨ring, k⟩, hk, hpk⟩ := List.mem_flatMap.mp hp
    obtain ⟨_, _, rfl⟩ := List.mem_map.mp hpk
    exact ⟨r, hr, (List.getElem?_eq_some_iff.mp (List.mk_mem_zipIdx_iff_getElem?.mp hk)).1⟩

theorem ringIs_unique {δ : Type} {w : World} (hw : RealWorld w) {T : MTopology δ} (ha : BoxesApart w T) {p : Nat} {rp rp' : RingPtr}
    (h : RingIs w T p rp) (h' : RingIs w T p rp') : rp' = rp := by
  obtain ⟨r, hr, h1, h2⟩ := h
  obtain ⟨r', hr', h1', h2'⟩ := h'
  have m1 := Nat.mul_le_mul_left w.ringSize (Nat.succ_le_of_lt h1)
  have m2 := Nat.mul_le_mul_left w.ringSize (Nat.succ_le_of_lt h1')
  rw [Nat.mul_succ] at m1 m2
  have hpos := hw.ring
  by_cases he : (rp.region, rp.inner) = (rp'.region, rp'.inner)
  · obtain ⟨e1, e2⟩ := Prod.mk.inj he
    rw [← e1, hr] at hr'
    obtain rfl := Option.some.inj hr'
    rw [h2, e2] at h2'
    have := Nat.eq_of_mul_eq_mul_left hpos (Nat.add_left_cancel h2')
    obtain ⟨a, b, c⟩ := rp
    obtain ⟨a', b', c'⟩ := rp'
    simp only at e1 e2 this
    rw [e1, e2, this]
  · have := ha _ _ r r' rp.inner rp'.inner hr hr' he
    unfold Apart at this
    simp only at this
    omega

/-- With exact capacities, a topology with exact back pointers is laid out as it should be. -/
theorem reads_place {δ : Type} {w : World} (hw : RealWorld w) (hx : ExactCapacity w) {t : Topology δ} (hb : BackPointersExact t)
    (ha : BoxesApart w (placeTopology w t)) : Reads w (placeTopology w t) t := by
  have hT : placeTopology w t = ⟨⟨w.address .regions, placeRegions w 0 t.regions⟩, ⟨w.address .edges, t.edges.map (placeEdge w)⟩⟩ := by
    unfold placeTopology MVec.intoBoxedSlice placeEdges'
    simp only [hx.1, hx.2, placeRegions_length, List.length_map, if_true]
  have hring : ∀ o : Option RingPtr, (∀ rp, o = some rp → ∃ r, t.regions[rp.region]? = some r ∧
      rp.index < (if rp.inner then r.innerRings else r.outerRings).length) →
      RingOrNull w (placeTopology w t) (ringAddr w o) o := by
    intro o ho
    cases o with
    | none => rfl
    | some rp =>
      obtain ⟨r, hr, hi⟩ := ho rp rfl
      have hin : RingIs w (placeTopology w t) (ringAddr w (some rp)) rp := by
        rw [hT]
        refine ⟨placeRegion w rp.region r, ?_, ?_⟩
        · simp only [placeRegions_getElem?, hr, Nat.zero_add, Option.map_some]
        · obtain ⟨a, b, c⟩ := rp
          cases b <;> exact ⟨by simpa [placeRegion] using hi, rfl⟩
      refine ⟨fun h => ?_, fun rp' => ⟨fun h => ringIs_unique hw ha hin h, ?_⟩⟩
      · exact absurd ((ringAddr_eq_zero hw _).mp h) (by simp)
      · rintro rfl; exact hin
  have hregion : ∀ n, n < t.regions.length → RegionOrNull w (placeTopology w t) (regionAddr w (some n)) (some n) := by
    intro n hn
    refine ⟨?_, ?_⟩
    · have := hw.address .regions
      unfold regionAddr elemAddress
      simp only
      omega
    · rw [hT]
      unfold regionIndex regionAddr
      simp only
      rw [placeRegions_length, locate_elemAddress hw.region, if_pos hn]
  have hdir : ∀ ring ∈ allRings t, List.Forall₂ (fun d de => edgeIndex w (placeTopology w t) d.edge = some de.edge ∧ d.direction = de.direction)
      (ring.directedEdges.map (placeDirected w)) ring.directedEdges := by
    intro ring hring
    rw [List.forall₂_map_left_iff, List.forall₂_same]
    intro de hde
    refine ⟨?_, rfl⟩
    have hlt := hb.2.2 de (List.mem_flatMap.mpr ⟨ring, hring, hde⟩)
    rw [hT]
    unfold edgeIndex placeDirected
    simp only [List.length_map]
    rw [locate_elemAddress hw.edge, if_pos hlt]
  have hreads : ∀ (n : Nat) (r : TopoRegion δ), t.regions[n]? = some r → ∀ ring ∈ r.outerRings ++ r.innerRings, RingReads w (placeTopology w t) (placeRing w ring) ring := by
    intro n r hr ring hring
    refine ⟨hdir ring (List.mem_flatMap.mpr ⟨r, List.mem_of_getElem? hr, hring⟩), ?_⟩
    have hn := hb.2.1 n r hr ring hring
    simp only [placeRing]
    rw [hn]
    exact hregion n (List.getElem?_eq_some_iff.mp hr).1
  have hT1 : (placeTopology w t).edges.elems = t.edges.map (placeEdge w) := by rw [hT]
  have hT2 : (placeTopology w t).regions.elems = placeRegions w 0 t.regions := by rw [hT]
  constructor
  · rw [hT1, List.forall₂_map_left_iff, List.forall₂_same]
    intro e he
    obtain ⟨i, hi⟩ := List.mem_iff_getElem?.mp he
    obtain ⟨_, h0, h1⟩ := hb.1 i e hi
    refine ⟨rfl, hring _ fun rp hrp => ringsUsing_range (i := i) ?_, hring _ fun rp hrp => ringsUsing_range (i := i) ?_⟩
    · rw [h0] at hrp; exact List.mem_of_getElem? hrp
    · rw [h1] at hrp; exact List.mem_of_getElem? hrp
  · rw [hT2]
    refine placeRegions_forall₂ fun i r hr => ?_
    refine ⟨rfl, ?_, ?_⟩
    · simp only [placeRegion]
      rw [List.forall₂_map_left_iff, List.forall₂_same]
      exact fun ring hring => hreads i r hr ring (by simp [hring])
    · simp only [placeRegion]
      rw [List.forall₂_map_left_iff, List.forall₂_same]
      exact fun ring hring => hreads i r hr ring (by simp [hring])

theorem mBuildTopology_eq {δ : Type} {w : World} (hw : RealWorld w) (m : Build) (rs : List (Region δ)) :
    mBuildTopology w m rs = (buildTopology m rs).map (placeTopology w) := by
  unfold mBuildTopology buildTopology TopologyBuilder.intoTopology TopologyBuilder.intoTopologyWith
  cases TopologyBuilder.new.addRegions m rs with
  | error p => rfl
  | ok b =>
    simp only [bind, Except.bind]
    cases placeEdges (List.replicate b.edges.length none) b.edges with
    | error p => rfl
    | ok slots =>
      simp only
      cases expectAll slots with
      | error p => rfl
      | ok points => exact mFinishTopology_eq hw _ _

theorem mClipTopology_eq {δ : Type} {w : World} (hw : RealWorld w) (m : Build) (t : Topology δ) (mask : ClipMask) :
    mClipTopology w m t mask = (clipTopology m t mask).map (placeTopology w) := by
  unfold mClipTopology clipTopology ClipBuilder.intoTopologyWith
  cases ClipBuilder.new m mask t.edges with
  | error p => rfl
  | ok b =>
    simp only [bind, Except.bind]
    cases clipRegions m b t.regions with
    | error p => rfl
    | ok x =>
      simp only
      cases placeNewEdges x.2.newEdges.firstEdgeId (List.replicate x.2.newEdges.edges.length (⟨0, 0⟩, ⟨0, 0⟩)) x.2.newEdges.edges with
      | error p => rfl
      | ok fresh => exact mFinishTopology_eq hw _ _

theorem map_eq_ok {α β : Type} {x : R α} {f : α → β} {b : β} (h : x.map f = .ok b) : ∃ a, x = .ok a ∧ f a = b := by
  cases x with
  | error p => cases h
  | ok a => exact ⟨a, rfl, Except.ok.inj h⟩

theorem map_eq_error {α β : Type} {x : R α} {f : α → β} {p : Panic} : x.map f = .error p ↔ x = .error p := by
  cases x with
  | error q => exact ⟨fun h => by rw [Except.error.inj h], fun h => by rw [Except.error.inj h]; rfl⟩
  | ok a => exact ⟨fun h => (nomatch h), fun h => (nomatch h)⟩

theorem forall₂_getElem?_left {α β : Type} {R : α → β → Prop} {l : List α} {l' : List β} (h : List.Forall₂ R l l') {i : Nat}
    {a : α} (ha : l[i]? = some a) : ∃ b, l'[i]? = some b ∧ R a b := by
  induction h generalizing i with
  | nil => simp at ha
  | cons hab _ ih =>
    cases i with
    | zero =>
      obtain rfl : _ = a := by simpa using ha
      exact ⟨_, rfl, hab⟩
    | succ i => exact ih (by simpa using ha)

theorem forall₂_getElem?_right {α β : Type} {R : α → β → Prop} {l : List α} {l' : List β} (h : List.Forall₂ R l l') {i : Nat}
    {b : β} (hb : l'[i]? = some b) : ∃ a, l[i]? = some a ∧ R a b :=
  forall₂_getElem?_left h.flip hb

/-- C75: wherever blocks are placed, if `collect` leaves no spare capacity, every
pointer in a topology just built is null or refers to an element of the topology,
and it is the element that the model with numbers says. Nothing else about
addresses matters: it panics for the same reason, if at all. -/
theorem C75_built {δ : Type} (w : World) (hw : RealWorld w) (hx : ExactCapacity w) (m : Build) (rs : List (Region δ)) :
    (∀ T, mBuildTopology w m rs = .ok T → BoxesApart w T → ∃ t, buildTopology m rs = .ok t ∧ Reads w T t) ∧
    ∀ p, mBuildTopology w m rs = .error p ↔ buildTopology m rs = .error p := by
  constructor
  · intro T h ha
    rw [mBuildTopology_eq hw] at h
    obtain ⟨t, ht, rfl⟩ := map_eq_ok h
    exact ⟨t, ht, reads_place hw hx (C11_back_pointers m rs t ht).1 ha⟩
  · intro p
    rw [mBuildTopology_eq hw]
    exact map_eq_error

/-- C75: the same for clipped topologies. -/
theorem C75_clipped {δ : Type} (w : World) (hw : RealWorld w) (hx : ExactCapacity w) (m : Build) (t : Topology δ) (mask : ClipMask) :
    (∀ T, mClipTopology w m t mask = .ok T → BoxesApart w T → ∃ t', clipTopology m t mask = .ok t' ∧ Reads w T t') ∧
    ∀ p, mClipTopology w m t mask = .error p ↔ clipTopology m t mask = .error p := by
  constructor
  · intro T h ha
    rw [mClipTopology_eq hw] at h
    obtain ⟨t', ht, rfl⟩ := map_eq_ok h
    exact ⟨t', ht, reads_place hw hx (C33_back_pointers m mask t t' ht) ha⟩
  · intro p
    rw [mClipTopology_eq hw]
    exact map_eq_error

/-- An address outside of a block is not that of an element of it. -/
theorem locate_apart {a a' size n n' i : Nat} (hs : 0 < size) (hi : i < n) (h : Apart a (size * n) a' (size * n')) :
    locate a' size n' (elemAddress a size i) = none := by
  cases hl : locate a' size n' (elemAddress a size i) with
  | none => rfl
  | some j =>
    obtain ⟨h1, h2⟩ := (locate_eq_some hs).mp hl
    have m1 := Nat.mul_le_mul_left size (Nat.succ_le_of_lt hi)
    have m2 := Nat.mul_le_mul_left size (Nat.succ_le_of_lt h1)
    rw [Nat.mul_succ] at m1 m2
    unfold elemAddress at h2
    unfold Apart at h
    omega

theorem dangling_regions {δ : Type} {w : World} (hw : RealWorld w) {t : Topology δ} (hb : BackPointersExact t)
    (hcap : w.regionsCapacity t.regions.length ≠ t.regions.length)
    (ha : Apart (w.address .regions) (w.regionSize * t.regions.length) (w.address .regionsShrunk) (w.regionSize * t.regions.length)) :
    ∀ R ∈ (placeTopology w t).regions.elems, ∀ ring ∈ R.outerRings.elems ++ R.innerRings.elems,
      ring.region ≠ 0 ∧ regionIndex w (placeTopology w t) ring.region = none := by
  have hT : (placeTopology w t).regions = ⟨w.address .regionsShrunk, placeRegions w 0 t.regions⟩ := by
    unfold placeTopology MVec.intoBoxedSlice
    simp only [placeRegions_length, if_neg hcap]
  intro R hR ring hring
  rw [hT] at hR
  obtain ⟨n, hn⟩ := List.mem_iff_getElem?.mp hR
  simp only [placeRegions_getElem?, Nat.zero_add] at hn
  obtain ⟨r, hr, rfl⟩ := Option.map_eq_some_iff.mp hn
  have hlt := (List.getElem?_eq_some_iff.mp hr).1
  have hreg : ring.region = elemAddress (w.address .regions) w.regionSize n := by
    simp only [placeRegion, ← List.map_append] at hring
    obtain ⟨ring0, h0, rfl⟩ := List.mem_map.mp hring
    simp only [placeRing, hb.2.1 n r hr ring0 h0, regionAddr]
  rw [hreg]
  refine ⟨?_, ?_⟩
  · have := hw.address .regions
    unfold elemAddress
    omega
  · unfold regionIndex
    rw [hT]
    simp only [placeRegions_length]
    exact locate_apart hw.region hlt ha

theorem dangling_edges {δ : Type} {w : World} (hw : RealWorld w) {t : Topology δ} (hb : BackPointersExact t)
    (hcap : w.edgesCapacity t.edges.length ≠ t.edges.length)
    (ha : Apart (w.address .edges) (w.edgeSize * t.edges.length) (w.address .edgesShrunk) (w.edgeSize * t.edges.length)) :
    ∀ R ∈ (placeTopology w t).regions.elems, ∀ ring ∈ R.outerRings.elems ++ R.innerRings.elems, ∀ d ∈ ring.directedEdges,
      d.edge ≠ 0 ∧ edgeIndex w (placeTopology w t) d.edge = none := by
  have hT : (placeTopology w t).edges = ⟨w.address .edgesShrunk, t.edges.map (placeEdge w)⟩ := by
    unfold placeTopology MVec.intoBoxedSlice placeEdges'
    simp only [List.length_map, if_neg hcap]
  have hT2 : (placeTopology w t).regions.elems = placeRegions w 0 t.regions := by
    unfold placeTopology MVec.intoBoxedSlice
    simp only
    split <;> rfl
  intro R hR ring hring d hd
  rw [hT2] at hR
  obtain ⟨n, hn⟩ := List.mem_iff_getElem?.mp hR
  simp only [placeRegions_getElem?, Nat.zero_add] at hn
  obtain ⟨r, hr, rfl⟩ := Option.map_eq_some_iff.mp hn
  simp only [placeRegion, ← List.map_append] at hring
  obtain ⟨ring0, h0, rfl⟩ := List.mem_map.mp hring
  obtain ⟨de, hde, rfl⟩ := List.mem_map.mp hd
  have hlt := hb.2.2 de (List.mem_flatMap.mpr ⟨ring0, List.mem_flatMap.mpr ⟨r, List.mem_of_getElem? hr, h0⟩, hde⟩)
  refine ⟨?_, ?_⟩
  · have := hw.address .edges
    unfold placeDirected elemAddress
    simp only
    omega
  · unfold edgeIndex
    rw [hT]
    simp only [List.length_map]
    exact locate_apart hw.edge hlt ha

/-- C75: spare capacity is fatal. If the vector of regions has some and giving it
back moves the regions, the region pointers of all rings are left behind: none of
them refers to a region of the topology. If the vector of edges is moved, all
pointers to edges are left behind. -/
theorem C75_moved {δ : Type} (w : World) (hw : RealWorld w) (m : Build) (T : MTopology δ)
    (h : (∃ rs, mBuildTopology w m rs = .ok T) ∨ ∃ t mask, mClipTopology w m t mask = .ok T) :
    (w.regionsCapacity T.regions.elems.length ≠ T.regions.elems.length →
      Apart (w.address .regions) (w.regionSize * T.regions.elems.length)
        (w.address .regionsShrunk) (w.regionSize * T.regions.elems.length) →
      ∀ R ∈ T.regions.elems, ∀ ring ∈ R.outerRings.elems ++ R.innerRings.elems,
        ring.region ≠ 0 ∧ regionIndex w T ring.region = none) ∧
    (w.edgesCapacity T.edges.elems.length ≠ T.edges.elems.length →
      Apart (w.address .edges) (w.edgeSize * T.edges.elems.length)
        (w.address .edgesShrunk) (w.edgeSize * T.edges.elems.length) →
      ∀ R ∈ T.regions.elems, ∀ ring ∈ R.outerRings.elems ++ R.innerRings.elems, ∀ d ∈ ring.directedEdges,
        d.edge ≠ 0 ∧ edgeIndex w T d.edge = none) := by
  obtain ⟨t, hb, rfl⟩ : ∃ t, BackPointersExact t ∧ placeTopology w t = T := by
    rcases h with ⟨rs, h⟩ | ⟨t0, mask, h⟩
    · rw [mBuildTopology_eq hw] at h
      obtain ⟨t, ht, he⟩ := map_eq_ok h
      exact ⟨t, (C11_back_pointers m rs t ht).1, he⟩
    · rw [mClipTopology_eq hw] at h
      obtain ⟨t, ht, he⟩ := map_eq_ok h
      exact ⟨t, C33_back_pointers m mask t0 t ht, he⟩
  have l1 : (placeTopology w t).regions.elems.length = t.regions.length := by
    unfold placeTopology MVec.intoBoxedSlice
    simp only
    split <;> exact placeRegions_length _ _ _
  have l2 : (placeTopology w t).edges.elems.length = t.edges.length := by
    unfold placeTopology MVec.intoBoxedSlice placeEdges'
    simp only
    split <;> simp
  rw [l1, l2]
  exact ⟨fun hcap ha => dangling_regions hw hb hcap ha, fun hcap ha => dangling_edges hw hb hcap ha⟩

/-! ## Readers -/

/-- C75: pointers to regions are equal if and only if the regions are the same,
so comparing pointers, as `normalize` does, compares regions. -/
theorem C75_equal {δ : Type} (w : World) (hw : RealWorld w) (T : MTopology δ) (p q : Nat) (o o' : Option Nat)
    (h : RegionOrNull w T p o) (h' : RegionOrNull w T q o') : p = q ↔ o = o' := by
  cases o with
  | none =>
    cases o' with
    | none => exact ⟨fun _ => rfl, fun _ => by rw [show p = 0 from h, show q = 0 from h']⟩
    | some n' => exact ⟨fun hpq => absurd (hpq.symm.trans h) h'.1, fun he => nomatch he⟩
  | some n =>
    cases o' with
    | none => exact ⟨fun hpq => absurd (hpq.trans h') h.1, fun he => nomatch he⟩
    | some n' =>
      constructor
      · intro hpq
        have h2 := h.2
        rw [hpq, h'.2] at h2
        exact h2.symm
      · intro he
        obtain rfl := Option.some.inj he
        rw [((locate_eq_some hw.region).mp h.2).2, ((locate_eq_some hw.region).mp h'.2).2]

/-- C75: `find_old_edge_id` recovers the number of an edge from its address. -/
theorem C75_offset {δ : Type} (m : Build) (w : World) (hw : RealWorld w) (T : MTopology δ) (p i : Nat)
    (h : edgeIndex w T p = some i) : mOffset m w T.edges.address p = .ok i := by
  obtain ⟨_, rfl⟩ := (locate_eq_some hw.edge).mp h
  unfold mOffset elemAddress
  rw [if_pos (Nat.le_add_right _ _), Nat.add_sub_cancel_left, Nat.mul_div_cancel_left _ hw.edge]

/-- C75: the subtraction of addresses is one of 64 bits: an address before the first edge
panics in a debug build, and in a release build wraps around. -/
theorem C75_offset_wraps (w : World) (first p : Nat) (hf : first < 2 ^ 64) (hp : p < 2 ^ 64) :
    (mOffset .debug w first p = .error .overflow ↔ p < first) ∧
    mOffset .release w first p = .ok ((((p : Int) - first) % 2 ^ 64).toNat / w.edgeSize) := by
  unfold mOffset
  by_cases h : first ≤ p
  · rw [if_pos h, if_pos h]
    refine ⟨⟨fun e => (nomatch e), fun e => absurd e (by omega)⟩, ?_⟩
    rw [show ((p : Int) - first) % 2 ^ 64 = ((p - first : Nat) : Int) by omega, Int.toNat_natCast]
  · rw [if_neg h, if_neg h]
    refine ⟨⟨fun _ => by omega, fun _ => rfl⟩, ?_⟩
    show Except.ok _ = Except.ok _
    rw [show ((p : Int) - first) % 2 ^ 64 = ((2 ^ 64 + p - first : Nat) : Int) by omega, Int.toNat_natCast]

theorem ringAt_of_unique {δ : Type} {w : World} (hw : RealWorld w) {T : MTopology δ} {p : Nat} {rp : RingPtr}
    (h : ∀ rp', RingIs w T p rp' ↔ rp' = rp) :
    ∃ R, T.regions.elems[rp.region]? = some R ∧
      T.ringAt w p = (if rp.inner then R.innerRings else R.outerRings).elems[rp.index]? := by
  obtain ⟨R, hR, hlt, hp⟩ := (h rp).mpr rfl
  refine ⟨R, hR, ?_⟩
  -- whatever is found is that ring
  have hfound : ∀ x, T.ringAt w p = some x → (if rp.inner then R.innerRings else R.outerRings).elems[rp.index]? = some x := by
    intro x hx
    obtain ⟨R', hR', hx⟩ := List.exists_of_findSome?_eq_some hx
    obtain ⟨b, hb, hx⟩ := List.exists_of_findSome?_eq_some hx
    obtain ⟨k, hk, hx⟩ := Option.bind_eq_some_iff.mp hx
    obtain ⟨hk1, hk2⟩ := (locate_eq_some hw.ring).mp hk
    obtain ⟨n, hn⟩ := List.mem_iff_getElem?.mp hR'
    simp only [List.mem_cons, List.not_mem_nil, or_false] at hb
    rcases hb with rfl | rfl
    · obtain rfl := (h ⟨n, false, k⟩).mp ⟨R', hn, hk1, hk2⟩
      rw [hR] at hn
      obtain rfl := Option.some.inj hn
      exact hx
    · obtain rfl := (h ⟨n, true, k⟩).mp ⟨R', hn, hk1, hk2⟩
      rw [hR] at hn
      obtain rfl := Option.some.inj hn
      exact hx
  -- and something is found
  cases hx : T.ringAt w p with
  | some x => exact (hfound x hx).symm
  | none =>
    exfalso
    have h1 := List.findSome?_eq_none_iff.mp hx R (List.mem_of_getElem? hR)
    have h2 := List.findSome?_eq_none_iff.mp h1 (if rp.inner then R.innerRings else R.outerRings) (by
      cases rp.inner <;> simp)
    have hl : locate (if rp.inner then R.innerRings else R.outerRings).address w.ringSize
        (if rp.inner then R.innerRings else R.outerRings).elems.length p = some rp.index :=
      (locate_eq_some hw.ring).mpr ⟨hlt, hp⟩
    rw [hl, Option.bind_some, List.getElem?_eq_getElem hlt] at h2
    cases h2

/-- C75: reading an edge through pointers, as `normalize` does, gives the points and
the regions that the model with numbers gives. -/
theorem C75_read {δ : Type} (w : World) (hw : RealWorld w) (T : MTopology δ) (t : Topology δ) (hr : Reads w T t)
    (d : MDirectedEdge) (de : DirectedEdge) (hd : edgeIndex w T d.edge = some de.edge) (hdir : d.direction = de.direction)
    (e : NormEdge) (h : withDirectedEdge t de = .ok e) :
    ∃ p q, mWithDirectedEdge w T d = .ok (e.points, p, q) ∧ RegionOrNull w T p e.regions.1 ∧ RegionOrNull w T q e.regions.2 := by
  -- rings behind pointers
  have hring : ∀ (p : Nat) (o : Option RingPtr) (n : Option Nat), RingOrNull w T p o → derefRegion t o = .ok n →
      ∃ ring, T.ringAt w p = some ring ∧ RegionOrNull w T ring.region n := by
    intro p o n hp hn
    cases o with
    | none => cases hn
    | some rp =>
      obtain ⟨R, hR, hat⟩ := ringAt_of_unique hw hp.2
      rw [hat]
      obtain ⟨r, hrr, _, ho, hi⟩ := forall₂_getElem?_left hr.regions hR
      unfold derefRegion at hn
      simp only [Topology.ringAt, hrr] at hn
      cases hinn : rp.inner with
      | false =>
        simp only [hinn] at hn
        cases hk : r.outerRings[rp.index]? with
        | none => rw [if_neg (by decide), hk] at hn; cases hn
        | some ring0 =>
          rw [if_neg (by decide), hk] at hn
          obtain ⟨ring, hkm, hread⟩ := forall₂_getElem?_right ho hk
          refine ⟨ring, by simpa using hkm, ?_⟩
          rw [← Except.ok.inj hn]
          exact hread.2
      | true =>
        simp only [hinn] at hn
        cases hk : r.innerRings[rp.index]? with
        | none => rw [if_pos trivial, hk] at hn; cases hn
        | some ring0 =>
          rw [if_pos trivial, hk] at hn
          obtain ⟨ring, hkm, hread⟩ := forall₂_getElem?_right hi hk
          refine ⟨ring, by simpa using hkm, ?_⟩
          rw [← Except.ok.inj hn]
          exact hread.2
  unfold withDirectedEdge at h
  cases hedge : t.edges[de.edge]? with
  | none => rw [hedge] at h; cases h
  | some edge =>
    rw [hedge] at h
    obtain ⟨E, hE, hpts, hp0, hp1⟩ := forall₂_getElem?_right hr.edges hedge
    have hat : T.edgeAt w d.edge = some E := by
      unfold MTopology.edgeAt
      unfold edgeIndex at hd
      rw [hd]
      exact hE
    obtain ⟨r0, h0, h⟩ := bind_ok.mp h
    obtain ⟨ring0, g0, k0⟩ := hring _ _ _ hp0 h0
    unfold mWithDirectedEdge
    simp only [hat, g0, hpts, hdir]
    by_cases hn : edge.ring1 = none
    · rw [if_pos hn] at h
      rw [hn] at hp1
      rw [if_pos (show E.ring1 = 0 from hp1), ← Except.ok.inj h]
      exact ⟨_, _, rfl, k0, rfl⟩
    · rw [if_neg hn] at h
      obtain ⟨r1, h1, h⟩ := bind_ok.mp h
      obtain ⟨ring1, g1, k1⟩ := hring _ _ _ hp1 h1
      have hz : E.ring1 ≠ 0 := by
        cases ho : edge.ring1 with
        | none => exact absurd ho hn
        | some rp => rw [ho] at hp1; exact hp1.1
      rw [if_neg hz, g1, ← Except.ok.inj h]
      exact ⟨_, _, rfl, k0, k1⟩

/-! ## The hypotheses hold of real cases -/

/-- A world for examples, with `spare` as spare capacity of vectors. -/
def exWorld (spare : Nat) : World where
  address
    | .edges => 1000
    | .regions => 2000
    | .rings n inner => 3000 + 200 * n + if inner then 100 else 0
    | .edgesShrunk => 10000
    | .regionsShrunk => 20000
  edgeSize := 32
  ringSize := 24
  regionSize := 40
  edgesCapacity n := n + spare
  regionsCapacity n := n + spare

theorem exWorld_real (spare : Nat) : RealWorld (exWorld spare) where
  edge := Nat.zero_lt_succ _
  ring := Nat.zero_lt_succ _
  region := Nat.zero_lt_succ _
  address b := by cases b <;> simp [exWorld]

example : ExactCapacity (exWorld 0) := ⟨fun _ => rfl, fun _ => rfl⟩

/-- The regions of `exRegions` in memory. -/
def exMemory (spare : Nat) : MTopology String :=
  placeTopology (exWorld spare) exTopology

theorem exMemory_built (spare : Nat) : mBuildTopology (exWorld spare) .debug exRegions = .ok (exMemory spare) := by
  rw [mBuildTopology_eq (exWorld_real spare), exTopology_built]
  rfl

-- the two regions of `exRegions` have rings and share an edge
example : (exMemory 0).regions.elems.map (fun R => R.outerRings.elems.map fun ring => (ring.region, ring.directedEdges.map (·.edge))) =
      [[(2000, [1000, 1032, 1064, 1096])], [(2040, [1128, 1160, 1192, 1032])]] ∧
    (exMemory 0).edges.elems.map (fun e => (e.ring0, e.ring1)) =
      [(3000, 0), (3000, 3200), (3000, 0), (3000, 0), (3200, 0), (3200, 0), (3200, 0)] := by decide +kernel

theorem exMemory_lengths (spare : Nat) : (exMemory spare).regions.elems.length = 2 ∧
    ∀ R ∈ (exMemory spare).regions.elems, R.outerRings.elems.length ≤ 1 ∧ R.innerRings.elems.length ≤ 1 := by
  have h : (exMemory spare).regions.elems = placeRegions (exWorld spare) 0 exTopology.regions := by
    unfold exMemory placeTopology MVec.intoBoxedSlice
    simp only
    split <;> rfl
  rw [h]
  constructor
  · rw [placeRegions_length]
    decide +kernel
  · intro R hR
    obtain ⟨n, hn⟩ := List.mem_iff_getElem?.mp hR
    rw [placeRegions_getElem?] at hn
    obtain ⟨r, hr, rfl⟩ := Option.map_eq_some_iff.mp hn
    have : ∀ r ∈ exTopology.regions, r.outerRings.length ≤ 1 ∧ r.innerRings.length ≤ 1 := by decide +kernel
    simpa [placeRegion] using this r (List.mem_of_getElem? hr)

-- its boxes of rings are apart
example : BoxesApart (exWorld 0) (exMemory 0) := by
  obtain ⟨hl, hb⟩ := exMemory_lengths 0
  intro n n' r r' i i' hr hr' hne
  have hn := (List.getElem?_eq_some_iff.mp hr).1
  have hn' := (List.getElem?_eq_some_iff.mp hr').1
  have ha : ∀ n r, (exMemory 0).regions.elems[n]? = some r → r.outerRings.address = 3000 + 200 * n ∧ r.innerRings.address = 3100 + 200 * n := by
    intro n r hr
    have : (exMemory 0).regions.elems = placeRegions (exWorld 0) 0 exTopology.regions := rfl
    rw [this, placeRegions_getElem?] at hr
    obtain ⟨r0, _, rfl⟩ := Option.map_eq_some_iff.mp hr
    simp [placeRegion, exWorld]
    omega
  obtain ⟨a1, a2⟩ := ha n r hr
  obtain ⟨a3, a4⟩ := ha n' r' hr'
  obtain ⟨b1, b2⟩ := hb r (List.mem_of_getElem? hr)
  obtain ⟨b3, b4⟩ := hb r' (List.mem_of_getElem? hr')
  have hs : (exWorld 0).ringSize = 24 := rfl
  simp only [Apart, hs]
  cases i <;> cases i' <;> simp at hne ⊢ <;> omega

-- with spare capacity, its regions and edges are moved, and its pointers are left behind
example : (exMemory 1).regions.address = 20000 ∧ (exMemory 1).edges.address = 10000 ∧
    (exMemory 1).regions.elems.map (fun R => R.outerRings.elems.map fun ring => (ring.region, ring.directedEdges.map (·.edge))) =
      [[(2000, [1000, 1032, 1064, 1096])], [(2040, [1128, 1160, 1192, 1032])]] := by decide +kernel

example : (exWorld 1).regionsCapacity (exMemory 1).regions.elems.length ≠ (exMemory 1).regions.elems.length ∧
    Apart ((exWorld 1).address .regions) ((exWorld 1).regionSize * (exMemory 1).regions.elems.length)
      ((exWorld 1).address .regionsShrunk) ((exWorld 1).regionSize * (exMemory 1).regions.elems.length) := by
  rw [(exMemory_lengths 1).1]
  exact ⟨by decide, Or.inl (by decide)⟩

-- reading an edge through its pointers
example : withDirectedEdge exTopology ⟨1, .backward⟩ = .ok ⟨[⟨2, 2⟩, ⟨2, 1⟩], (some 0, some 1)⟩ ∧
    mWithDirectedEdge (exWorld 0) (exMemory 0) ⟨1032, .backward⟩ = .ok ([⟨2, 2⟩, ⟨2, 1⟩], 2000, 2040) ∧
    edgeIndex (exWorld 0) (exMemory 0) 1032 = some 1 ∧ mOffset .debug (exWorld 0) 1000 1032 = .ok 1 := by decide +kernel

end TopoGeo
