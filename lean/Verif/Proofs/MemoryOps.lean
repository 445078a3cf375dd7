import Verif.Spec.MemoryOps
import Verif.Props.Memory
import Verif.Proofs.LocalNormalize
import Verif.Props.Pipeline
/-!
# Operations in memory: facts
-/

namespace TopoGeo

open Spec

variable {δ : Type} {m : Build}

/-! ## Normalizing -/

/-- Addresses of regions. -/
abbrev regionAt (w : World) (T : MTopology δ) (n : Nat) : Nat := elemAddress T.regions.address w.regionSize n

theorem regionAt_injective {w : World} (hw : RealWorld w) (T : MTopology δ) : Function.Injective (regionAt w T) := by
  intro a b h
  have := Nat.add_left_cancel h
  exact Nat.eq_of_mul_eq_mul_left hw.region this

theorem regionPointer_reads {w : World} (hw : RealWorld w) {T : MTopology δ} {p : Nat} {o : Option Nat} (h : RegionOrNull w T p o) :
    regionPointer p = o.map (regionAt w T) := by
  cases o with
  | none => rw [show p = 0 from h]; rfl
  | some n =>
    obtain ⟨h0, h1⟩ := h
    unfold regionPointer
    rw [if_neg h0, ((locate_eq_some hw.region).mp h1).2]
    rfl

theorem mWithDirectedEdges_reads {w : World} (hw : RealWorld w) {T : MTopology δ} {t : Topology δ} (hr : Reads w T t)
    (hb : BackPointersExact t) {ds : List MDirectedEdge} {des : List DirectedEdge}
    (h : List.Forall₂ (fun d de => edgeIndex w T d.edge = some de.edge ∧ d.direction = de.direction) ds des)
    (hall : ∀ de ∈ des, de ∈ allDirectedEdges t) :
    mWithDirectedEdges w T ds = .ok ((des.map (nedge t)).map (relabel (otherSides (regionAt w T)))) := by
  induction h with
  | nil => rfl
  | @cons d de ds des hd _ ih =>
    obtain ⟨p, q, h1, h2, h3⟩ := C75_read w hw T t hr d de hd.1 hd.2 (nedge t de) (withDirectedEdge_eq hb (hall de (by simp)))
    simp only [mWithDirectedEdges]
    rw [h1, ok_bind, ih fun de' h' => hall de' (by simp [h']), ok_bind, regionPointer_reads hw h2, regionPointer_reads hw h3]
    rfl

theorem mNormalizeRings_reads {w : World} (hw : RealWorld w) {T : MTopology δ} {t : Topology δ} (hr : Reads w T t)
    (hb : BackPointersExact t) (order : WindingOrder) {Rs : List MRing} {rings : List TopoRing}
    (h : List.Forall₂ (RingReads w T) Rs rings) (hall : ∀ ring ∈ rings, ring ∈ allRings t) :
    mNormalizeRings m w T order Rs = normRingsOf m order ((rings.map (nedges t)).map (List.map (relabel (otherSides (regionAt w T))))) := by
  induction h with
  | nil => rfl
  | @cons R ring Rs rings h1 _ ih =>
    simp only [mNormalizeRings, mNormalizeRing, List.map_cons, normRingsOf, normRingOf]
    rw [mWithDirectedEdges_reads hw hr hb h1.1 (mem_allDirectedEdges_of_ring (hall ring (by simp))), ok_bind,
      ih fun r' h' => hall r' (by simp [h'])]
    rfl

theorem mNormalizeRegionRings_reads {w : World} (hw : RealWorld w) {T : MTopology δ} {t : Topology δ} (hr : Reads w T t)
    (hb : BackPointersExact t) (order : WindingOrder) {Rs : List MRing} {rings : List TopoRing}
    (h : List.Forall₂ (RingReads w T) Rs rings) (hall : ∀ ring ∈ rings, ring ∈ allRings t) :
    mNormalizeRegionRings m w T Rs order = normalizeRegionRings m t rings order := by
  rw [normalizeRegionRings_of hb order hall, ← normRegionRingsOf_relabel (otherSides_relabels (regionAt_injective hw T))]
  unfold mNormalizeRegionRings normRegionRingsOf
  rw [mNormalizeRings_reads hw hr hb order h hall]

theorem mNormalizeLoop_reads {w : World} (hw : RealWorld w) {T : MTopology δ} {t : Topology δ} (hr : Reads w T t)
    (hb : BackPointersExact t) {Rs : List (MRegion δ)} {rs : List (TopoRegion δ)}
    (h : List.Forall₂ (fun R r => R.data = r.data ∧ List.Forall₂ (RingReads w T) R.outerRings.elems r.outerRings ∧
      List.Forall₂ (RingReads w T) R.innerRings.elems r.innerRings) Rs rs)
    (hall : ∀ r ∈ rs, r ∈ t.regions) (b : TopologyBuilder δ) :
    mNormalizeLoop m w T b Rs = normalizeLoop m t b rs := by
  induction h generalizing b with
  | nil => rfl
  | @cons R r Rs rs h1 _ ih =>
    obtain ⟨hd, ho, hi⟩ := h1
    simp only [mNormalizeLoop, normalizeLoop, normalizeRegion]
    rw [mNormalizeRegionRings_reads hw hr hb _ ho (mem_allRings_outer (hall r (by simp))),
      mNormalizeRegionRings_reads hw hr hb _ hi (mem_allRings_inner (hall r (by simp))), hd]
    have ih' := ih fun r' h' => hall r' (by simp [h'])
    cases normalizeRegionRings m t r.outerRings .clockwise with
    | error p => rfl
    | ok outer =>
      cases normalizeRegionRings m t r.innerRings .counterClockwise with
      | error p => rfl
      | ok inner =>
        simp only [ok_bind]
        cases b.addRegion m ⟨r.data, outer, inner⟩ with
        | error p => rfl
        | ok b' => exact ih' b'

theorem mNormalize_reads {w w' : World} (hw : RealWorld w) (hw' : RealWorld w') {T : MTopology δ} {t : Topology δ} (hr : Reads w T t)
    (hb : BackPointersExact t) : mNormalize m w w' T = (normalize m t).map (placeTopology w') := by
  unfold mNormalize normalize
  rw [mNormalizeLoop_reads hw hr hb hr.regions (fun _ h => h)]
  cases normalizeLoop m t TopologyBuilder.new t.regions with
  | error p => rfl
  | ok b =>
    simp only [ok_bind]
    unfold TopologyBuilder.intoTopology TopologyBuilder.intoTopologyWith
    cases placeEdges (List.replicate b.edges.length none) b.edges with
    | error p => rfl
    | ok slots =>
      simp only [ok_bind]
      cases expectAll slots with
      | error p => rfl
      | ok points => exact mFinishTopology_eq hw' _ _

/-! ## Clipping -/

theorem mClipRingLoop_reads {w : World} (hw : RealWorld w) {T : MTopology δ} {b : ClipBuilder}
    {ds : List MDirectedEdge} {des : List DirectedEdge}
    (h : List.Forall₂ (fun d de => edgeIndex w T d.edge = some de.edge ∧ d.direction = de.direction) ds des) (s : ClipRingState) :
    mClipRingLoop m w T.edges.address b s ds = clipRingLoop m b s des := by
  induction h generalizing s with
  | nil => rfl
  | @cons d de ds des hd _ ih =>
    simp only [mClipRingLoop, clipRingLoop]
    rw [C75_offset m w hw T _ _ hd.1, ok_bind, hd.2]
    cases clipRingStep m b s de with
    | error p => rfl
    | ok s' => exact ih s'

theorem mClipRings_reads {w : World} (hw : RealWorld w) {T : MTopology δ} {Rs : List MRing} {rings : List TopoRing}
    (h : List.Forall₂ (RingReads w T) Rs rings) (b : ClipBuilder) :
    mClipRings m w T.edges.address b Rs = clipRings m b rings := by
  induction h generalizing b with
  | nil => rfl
  | @cons R ring Rs rings h1 _ ih =>
    simp only [mClipRings, clipRings]
    have hring : mClipRing m w T.edges.address b R = clipRing m b ring := by
      unfold mClipRing clipRing
      rw [mClipRingLoop_reads hw h1.1]
      rfl
    rw [hring]
    cases clipRing m b ring with
    | error p => rfl
    | ok x => simp only [ok_bind]; rw [ih]

theorem mClipRegions_reads {w : World} (hw : RealWorld w) {T : MTopology δ} {Rs : List (MRegion δ)} {rs : List (TopoRegion δ)}
    (h : List.Forall₂ (fun R r => R.data = r.data ∧ List.Forall₂ (RingReads w T) R.outerRings.elems r.outerRings ∧
      List.Forall₂ (RingReads w T) R.innerRings.elems r.innerRings) Rs rs) (b : ClipBuilder) :
    mClipRegions m w T.edges.address b Rs = clipRegions m b rs := by
  induction h generalizing b with
  | nil => rfl
  | @cons R r Rs rs h1 _ ih =>
    obtain ⟨hd, ho, hi⟩ := h1
    simp only [mClipRegions, clipRegions]
    have hregion : mClipRegion m w T.edges.address b R = clipRegion m b r := by
      unfold mClipRegion clipRegion
      rw [mClipRings_reads hw ho, hd]
      cases clipRings m b r.outerRings with
      | error p => rfl
      | ok x => simp only [ok_bind]; rw [mClipRings_reads hw hi]
    rw [hregion]
    cases clipRegion m b r with
    | error p => rfl
    | ok x => simp only [ok_bind]; rw [ih]

theorem clipOldEdges_points (mask : ClipMask) {Es : List MEdge} {es : List TopoEdge} (h : List.Forall₂ (fun E e => E.points = e.points) Es es)
    (clipped : List (List Point)) (finder : List (Option Nat)) :
    clipOldEdges m mask clipped finder (Es.map fun e => ⟨e.points, none, none⟩) = clipOldEdges m mask clipped finder es := by
  induction h generalizing clipped finder with
  | nil => rfl
  | @cons E e Es es h1 _ ih =>
    simp only [List.map_cons, clipOldEdges, h1]
    cases clipEdge m mask e.points with
    | error p => rfl
    | ok c => simp only [ok_bind, ih]

theorem mClip_reads {w w' : World} (hw : RealWorld w) (hw' : RealWorld w') {T : MTopology δ} {t : Topology δ} (hr : Reads w T t)
    (mask : ClipMask) : mClip m w w' T mask = (clipTopology m t mask).map (placeTopology w') := by
  rw [← mClipTopology_eq hw']
  unfold mClip mClipTopology ClipBuilder.new
  rw [clipOldEdges_points mask (hr.edges.imp fun _ _ h => h.1)]
  cases clipOldEdges m mask [] [] t.edges with
  | error p => rfl
  | ok x => simp only [ok_bind]; rw [mClipRegions_reads hw hr.regions]

/-! ## Simplifying -/

theorem mSimplifyEdges_reads {P Q : Nat → Option RingPtr → Prop} (s : Nat) {Es : List MEdge} {es : List TopoEdge}
    (h : List.Forall₂ (fun E e => E.points = e.points ∧ P E.ring0 e.ring0 ∧ Q E.ring1 e.ring1) Es es) :
    (∀ p, mSimplifyEdges m s Es = .error p ↔ simplifyEdges m s es = .error p) ∧
    ∀ Es', mSimplifyEdges m s Es = .ok Es' → ∃ es', simplifyEdges m s es = .ok es' ∧
      List.Forall₂ (fun E e => E.points = e.points ∧ P E.ring0 e.ring0 ∧ Q E.ring1 e.ring1) Es' es' := by
  induction h with
  | nil =>
    refine ⟨fun p => by simp [mSimplifyEdges, simplifyEdges], fun Es' h => ⟨[], rfl, ?_⟩⟩
    rw [← Except.ok.inj h]
    exact .nil
  | @cons E e Es es h1 _ ih =>
    obtain ⟨ih1, ih2⟩ := ih
    simp only [mSimplifyEdges, simplifyEdges, h1.1]
    cases simplifyEdge m e.points s with
    | error p => exact ⟨fun p => by simp [bind, Except.bind], fun Es' h => nomatch h⟩
    | ok ps =>
      simp only [ok_bind]
      cases hm : mSimplifyEdges m s Es with
      | error p =>
        rw [(ih1 p).mp hm]
        exact ⟨fun p => by simp [bind, Except.bind], fun Es' h => nomatch h⟩
      | ok Es' =>
        obtain ⟨es', he, hf⟩ := ih2 Es' hm
        rw [he]
        refine ⟨fun p => by simp, fun Es'' h => ⟨_, rfl, ?_⟩⟩
        rw [← Except.ok.inj h]
        exact .cons ⟨rfl, h1.2.1, h1.2.2⟩ hf

/-! ## No pointer is followed when there is nothing behind it -/

/-- Something that does not follow a dangling pointer. -/
def NoNull {α : Type} (x : R α) : Prop := x ≠ .error .nullDeref

theorem NoNull.ok {α : Type} (a : α) : NoNull (.ok a : R α) := fun h => nomatch h

theorem NoNull.bind {α β : Type} {x : R α} {f : α → R β} (hx : NoNull x) (hf : ∀ a, x = .ok a → NoNull (f a)) : NoNull (x >>= f) := by
  intro h
  rcases bind_error.mp h with h | ⟨a, h1, h2⟩
  · exact hx h
  · exact hf a h1 h2

theorem NoNull.of_onlyOverflow {α : Type} {x : R α} (h : OnlyOverflow m x) : NoNull x := fun he => nomatch (h _ he).2

theorem sliceFrom1_noNull (ps : List Point) : NoNull (sliceFrom1 ps) := by
  cases ps with
  | nil => exact fun h => nomatch h
  | cons => exact .ok _

theorem joinStep_noNull (ret : List NormEdge) (e : NormEdge) : NoNull (joinStep ret e) := by
  unfold joinStep
  split
  · split
    · exact .bind (sliceFrom1_noNull _) fun _ _ => .ok _
    · exact .ok _
  · exact .ok _

theorem joinLoop_noNull (ret es : List NormEdge) : NoNull (joinLoop ret es) := by
  induction es generalizing ret with
  | nil => exact .ok _
  | cons e es ih => exact .bind (joinStep_noNull _ _) fun _ _ => ih _

theorem joinRelatedEdges_noNull (es : List NormEdge) : NoNull (joinRelatedEdges es) := by
  refine .bind (joinLoop_noNull _ _) fun ret _ => ?_
  unfold joinWrap
  split
  · simp only
    split
    · exact .bind (sliceFrom1_noNull _) fun _ _ => .ok _
    · exact .ok _
  · exact .ok _

theorem windEdges_noNull (es : List NormEdge) (order : WindingOrder) : NoNull (windEdges m es order) := by
  intro h
  rcases windEdges_error h with h | h
  · exact nomatch h.2
  · exact nomatch h

theorem firstPoints_noNull (es : List NormEdge) : NoNull (firstPoints es) := by
  induction es with
  | nil => exact .ok _
  | cons e es ih =>
    unfold firstPoints
    split
    · exact fun h => nomatch h
    · exact .bind ih fun _ _ => .ok _

theorem rotateEdges_noNull (es : List NormEdge) : NoNull (rotateEdges es) := by
  unfold rotateEdges
  split
  · refine .bind ?_ fun _ _ => .ok _
    unfold rotateIslandEdge
    split
    · exact .ok _
    · exact .ok _
    · split
      · exact .ok _
      · exact fun h => nomatch h
  · refine .bind ?_ fun ps _ => ?_
    · exact firstPoints_noNull es
    · split <;> exact .ok _

theorem indexEdges_noNull (map : MergeMap) (es : List NormEdge) : NoNull (indexEdges map es) := by
  induction es generalizing map with
  | nil => exact .ok _
  | cons e es ih =>
    unfold indexEdges
    split
    · exact fun h => nomatch h
    · exact .bind (fun h => nomatch (mergeMap_insert_error h).1) fun _ _ => ih _

theorem splitRings_noNull (ret : List NormRing) (map : MergeMap) (rings : List NormRing) : NoNull (splitRings ret map rings) := by
  induction rings generalizing ret map with
  | nil => exact .ok _
  | cons r rings ih =>
    unfold splitRings
    simp only
    split
    · exact ih _ _
    · split
      · exact ih _ _
      · exact .bind (indexEdges_noNull _ _) fun _ _ => ih _ _

theorem follow_noNull (start : Point) (fuel : Nat) (current : Point) (map : MergeMap) (edges : List NormEdge) :
    NoNull (follow start fuel current map edges) := by
  induction fuel generalizing current map edges with
  | zero => exact fun h => nomatch h
  | succ fuel ih =>
    unfold follow
    split
    · exact fun h => nomatch h
    · split
      · exact fun h => nomatch h
      · split
        · exact .ok _
        · exact ih _ _ _

theorem mergeLoop_noNull (fuel : Nat) (map : MergeMap) (ret : List NormRing) : NoNull (mergeLoop fuel map ret) := by
  induction fuel generalizing map ret with
  | zero =>
    unfold mergeLoop
    split
    · exact .ok _
    · exact fun h => nomatch h
  | succ fuel ih =>
    unfold mergeLoop
    split
    · exact .ok _
    · exact .bind (follow_noNull _ _ _ _ _) fun _ _ => .bind (joinRelatedEdges_noNull _) fun _ _ =>
        .bind (rotateEdges_noNull _) fun _ _ => ih _ _

theorem sortRings_noNull (rings : List NormRing) : NoNull (sortRings rings) := by
  refine .bind ?_ fun _ _ => .ok _
  induction rings with
  | nil => exact .ok _
  | cons r rings ih =>
    refine .bind ?_ fun _ _ => .bind ih fun _ _ => .ok _
    unfold ringKey
    split
    · exact fun h => nomatch h
    · split
      · exact fun h => nomatch h
      · exact .ok _

theorem joinAdjacentRings_noNull (rings : List NormRing) : NoNull (joinAdjacentRings rings) := by
  refine .bind (splitRings_noNull _ _ _) fun x _ => ?_
  simp only
  split
  · exact .ok _
  · exact .bind (mergeLoop_noNull _ _ _) fun _ _ => sortRings_noNull _

theorem normRingsOf_noNull (order : WindingOrder) (rings : List (List NormEdge)) : NoNull (normRingsOf m order rings) := by
  induction rings with
  | nil => exact .ok _
  | cons r rings ih =>
    exact .bind (.bind (joinRelatedEdges_noNull _) fun _ _ => .bind (windEdges_noNull _ _) fun _ _ => rotateEdges_noNull _)
      fun _ _ => .bind ih fun _ _ => .ok _

theorem normRegionRingsOf_noNull (order : WindingOrder) (rings : List (List NormEdge)) : NoNull (normRegionRingsOf m order rings) :=
  .bind (normRingsOf_noNull _ _) fun _ _ => .bind (joinAdjacentRings_noNull _) fun _ _ => .bind (sortRings_noNull _) fun _ _ => .ok _

theorem buildTopology_noNull (rs : List (Region δ)) : NoNull (buildTopology m rs) := by
  refine .bind (.of_onlyOverflow (addRegions_onlyOverflow m rs _)) fun b hb h => ?_
  obtain ⟨g1, g2⟩ := C12_into_topology m rs b hb
  by_cases hc : ∃ p, 3 ≤ ((allPaths rs).filter fun e => stored e = p).length
  · rw [g1 hc] at h
    cases h
  · obtain ⟨t', ht'⟩ := g2 fun p => by
      by_contra hp
      exact hc ⟨p, by omega⟩
    rw [ht'] at h
    cases h

theorem apply_noNull {t : Topology δ} (hb : BackPointersExact t) (op : Operation) (hop : ThresholdFits op) : NoNull (op.apply m t) := by
  cases op with
  | normalize =>
    intro h
    simp only [Operation.apply, normalize, bind_error] at h
    rcases h with h | ⟨b, h1, h⟩
    · rcases normalizeLoop_error h with h | ⟨r, hr, h⟩
      · exact nomatch h.2
      · rw [normalizeRegion_alone hb hr] at h
        exact NoNull.bind (normRegionRingsOf_noNull _ _) (fun _ _ => .bind (normRegionRingsOf_noNull _ _) fun _ _ => .ok _) h
    · obtain ⟨rs, _, h2⟩ := normalizeLoop_ok.mp h1
      refine buildTopology_noNull (m := m) rs ?_
      unfold buildTopology
      rw [h2]
      exact h
  | clip mask =>
    intro h
    rcases C36_debug m mask t hb.2.2 _ h with h | h
    · exact nomatch h.2
    · exact nomatch h
  | simplify s =>
    intro h
    simp only [Operation.apply, simplify, bind_error] at h
    rcases h with h | ⟨_, _, h⟩
    · obtain ⟨x, _, he⟩ := simplifyEdges_error h
      rcases C40_panics m x.points s _ hop he with ⟨_, h⟩ | ⟨_, h⟩
      · exact nomatch h
      · exact nomatch h.2
    · cases h

end TopoGeo
