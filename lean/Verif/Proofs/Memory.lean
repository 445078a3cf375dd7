import Verif.Spec.Memory
import Verif.Proofs.Topology
/-!
# Pointers and numbers: facts
-/

namespace TopoGeo

open Spec

/-! ## Addresses -/

theorem locate_elemAddress {base size len i : Nat} (hs : 0 < size) :
    locate base size len (elemAddress base size i) = if i < len then some i else none := by
  unfold locate elemAddress
  rw [Nat.add_sub_cancel_left, Nat.mul_mod_right, Nat.mul_div_cancel_left _ hs]
  by_cases h : i < len
  · rw [if_pos ⟨Nat.le_add_right _ _, rfl, h⟩, if_pos h]
  · rw [if_neg (fun hc => h hc.2.2), if_neg h]

theorem locate_eq_some {base size len p i : Nat} (hs : 0 < size) :
    locate base size len p = some i ↔ i < len ∧ p = elemAddress base size i := by
  constructor
  · intro h
    unfold locate at h
    by_cases hc : base ≤ p ∧ (p - base) % size = 0 ∧ (p - base) / size < len
    · rw [if_pos hc] at h
      obtain rfl := Option.some.inj h
      refine ⟨hc.2.2, ?_⟩
      unfold elemAddress
      have := Nat.div_add_mod (p - base) size
      rw [hc.2.1] at this
      omega
    · rw [if_neg hc] at h
      cases h
  · rintro ⟨h1, rfl⟩
    rw [locate_elemAddress hs, if_pos h1]

/-! ## Numbers to addresses -/

/-- The address of a ring. -/
def ringAddr (w : World) : Option RingPtr → Nat
  | none => 0
  | some rp => elemAddress (w.address (.rings rp.region rp.inner)) w.ringSize rp.index

/-- An edge in memory. -/
def placeEdge (w : World) (e : TopoEdge) : MEdge := ⟨e.points, ringAddr w e.ring0, ringAddr w e.ring1⟩

/-- A directed edge in memory. -/
def placeDirected (w : World) (de : DirectedEdge) : MDirectedEdge :=
  ⟨elemAddress (w.address .edges) w.edgeSize de.edge, de.direction⟩

/-- The address of a region. -/
def regionAddr (w : World) : Option Nat → Nat
  | none => 0
  | some n => elemAddress (w.address .regions) w.regionSize n

/-- A ring in memory. -/
def placeRing (w : World) (r : TopoRing) : MRing := ⟨r.directedEdges.map (placeDirected w), regionAddr w r.region⟩

/-- A region in memory. -/
def placeRegion {δ : Type} (w : World) (n : Nat) (r : TopoRegion δ) : MRegion δ :=
  ⟨r.data, ⟨w.address (.rings n false), r.outerRings.map (placeRing w)⟩,
    ⟨w.address (.rings n true), r.innerRings.map (placeRing w)⟩⟩

/-- Regions in memory. -/
def placeRegions {δ : Type} (w : World) (n : Nat) : List (TopoRegion δ) → List (MRegion δ)
  | [] => []
  | r :: rest => placeRegion w n r :: placeRegions w (n + 1) rest

/-- A vector of edges in memory. -/
def placeEdges' (w : World) (cap : Nat) (es : List TopoEdge) : MVec MEdge := ⟨w.address .edges, cap, es.map (placeEdge w)⟩

theorem ringAddr_eq_zero {w : World} (hw : RealWorld w) (o : Option RingPtr) : ringAddr w o = 0 ↔ o = none := by
  cases o with
  | none => simp [ringAddr]
  | some rp =>
    have := hw.address (.rings rp.region rp.inner)
    simp only [ringAddr, elemAddress]
    constructor
    · intro h; omega
    · intro h; cases h

theorem mBuildRing_eq (w : World) (cap : Nat) (es : List TopoEdge) (ring : BuildRing) :
    mBuildRing w (placeEdges' w cap es) ring = (buildRingToTopoRing es.length ring).map (placeRing w) := by
  unfold mBuildRing buildRingToTopoRing
  simp only [placeEdges', List.length_map]
  by_cases h : (ring.all fun de => decide (de.edge < es.length)) = true
  · rw [if_pos h, if_pos h]; rfl
  · rw [if_neg h, if_neg h]; rfl

theorem mBuildRings_eq (w : World) (cap : Nat) (es : List TopoEdge) (rings : List BuildRing) :
    mBuildRings w (placeEdges' w cap es) rings =
      (buildRingsToTopoRings es.length rings).map (fun rs => rs.map (placeRing w)) := by
  induction rings with
  | nil => rfl
  | cons r rest ih =>
    rw [mBuildRings, buildRingsToTopoRings, mBuildRing_eq, ih]
    cases buildRingToTopoRing es.length r with
    | error p => rfl
    | ok a => cases buildRingsToTopoRings es.length rest <;> rfl

theorem mBuildRegions_eq {δ : Type} (w : World) (cap : Nat) (es : List TopoEdge) (n : Nat) (regions : List (BuildRegion δ)) :
    mBuildRegions w (placeEdges' w cap es) n regions =
      (buildRegionsToTopoRegions es.length regions).map (placeRegions w n) := by
  induction regions generalizing n with
  | nil => rfl
  | cons r rest ih =>
    rw [mBuildRegions, buildRegionsToTopoRegions, mBuildRings_eq, mBuildRings_eq, ih]
    cases buildRingsToTopoRings es.length r.outerRings with
    | error p => rfl
    | ok a =>
      cases buildRingsToTopoRings es.length r.innerRings with
      | error p => rfl
      | ok b => cases buildRegionsToTopoRegions es.length rest <;> rfl

theorem mAttachRing_eq {w : World} (hw : RealWorld w) (cap : Nat) (es : List TopoEdge) (rp : RingPtr) (des : List DirectedEdge) :
    mAttachRing w (placeEdges' w cap es) (ringAddr w (some rp)) (des.map (placeDirected w)) =
      (attachRing es rp des).map (placeEdges' w cap) := by
  induction des generalizing es with
  | nil => rfl
  | cons de rest ih =>
    rw [List.map_cons, mAttachRing, attachRing]
    have hl : locate (placeEdges' w cap es).address w.edgeSize (placeEdges' w cap es).elems.length (placeDirected w de).edge =
        if de.edge < es.length then some de.edge else none := by
      simp only [placeEdges', placeDirected, List.length_map]
      exact locate_elemAddress hw.edge
    rw [hl]
    cases he : es[de.edge]? with
    | none =>
      rw [if_neg (by rw [List.getElem?_eq_none_iff] at he; omega)]
      rfl
    | some e =>
      have hlt := (List.getElem?_eq_some_iff.mp he).1
      rw [if_pos hlt]
      have : (placeEdges' w cap es).elems[de.edge]? = some (placeEdge w e) := by
        simp only [placeEdges', List.getElem?_map, he]
        rfl
      simp only [Option.bind_some, this, Option.map_some]
      have hset : ∀ e' : TopoEdge, ({ placeEdges' w cap es with elems := (placeEdges' w cap es).elems.set de.edge (placeEdge w e') } : MVec MEdge) =
          placeEdges' w cap (es.set de.edge e') := by
        intro e'
        simp only [placeEdges', List.map_set]
      have z0 : (placeEdge w e).ring0 = 0 ↔ e.ring0 = none := ringAddr_eq_zero hw _
      have z1 : (placeEdge w e).ring1 = 0 ↔ e.ring1 = none := ringAddr_eq_zero hw _
      by_cases h0 : e.ring0 = none
      · rw [if_pos h0, if_pos (z0.mpr h0), ← ih, ← hset]
        rfl
      · rw [if_neg h0, if_neg (fun h => h0 (z0.mp h))]
        by_cases h1 : e.ring1 = none
        · rw [if_pos h1, if_pos (z1.mpr h1), ← ih, ← hset]
          rfl
        · rw [if_neg h1, if_neg (fun h => h1 (z1.mp h))]
          rfl

theorem mAttachRings_eq {w : World} (hw : RealWorld w) (cap : Nat) (es : List TopoEdge) (n : Nat) (inner : Bool) (index : Nat)
    (rings : List TopoRing) :
    mAttachRings w (placeEdges' w cap es) (regionAddr w (some n)) (w.address (.rings n inner)) index (rings.map (placeRing w)) =
      (attachRings es n inner index rings).map fun es' =>
        (rings.map fun r => placeRing w { r with region := some n }, placeEdges' w cap es') := by
  induction rings generalizing es index with
  | nil => rfl
  | cons r rest ih =>
    rw [List.map_cons, mAttachRings, attachRings]
    have := mAttachRing_eq hw cap es ⟨n, inner, index⟩ r.directedEdges
    simp only [ringAddr] at this
    simp only [placeRing] at this ⊢
    rw [this]
    cases attachRing es ⟨n, inner, index⟩ r.directedEdges with
    | error p => rfl
    | ok es1 =>
      have h2 := ih es1 (index + 1)
      simp only [placeRing] at h2
      simp only [Except.map, bind, Except.bind]
      rw [h2]
      cases attachRings es1 n inner (index + 1) rest <;> rfl

theorem mAttachRegions_eq {δ : Type} {w : World} (hw : RealWorld w) (cap : Nat) (es : List TopoEdge) (n : Nat)
    (regions : List (TopoRegion δ)) :
    mAttachRegions w (placeEdges' w cap es) (w.address .regions) n (placeRegions w n regions) =
      (attachRegions es n regions).map fun es' => (placeRegions w n (setRegionPtrs n regions), placeEdges' w cap es') := by
  induction regions generalizing es n with
  | nil => rfl
  | cons r rest ih =>
    rw [placeRegions, mAttachRegions, attachRegions]
    have h1 := mAttachRings_eq hw cap es n false 0 r.outerRings
    simp only [regionAddr] at h1
    simp only [placeRegion]
    rw [h1]
    cases attachRings es n false 0 r.outerRings with
    | error p => rfl
    | ok e1 =>
      have h2 := mAttachRings_eq hw cap e1 n true 0 r.innerRings
      simp only [regionAddr] at h2
      simp only [Except.map, bind, Except.bind]
      rw [h2]
      cases attachRings e1 n true 0 r.innerRings with
      | error p => rfl
      | ok e2 =>
        simp only [Except.map]
        rw [ih]
        cases attachRegions e2 (n + 1) rest with
        | error p => rfl
        | ok e3 =>
          simp only [Except.map, setRegionPtrs, placeRegions, placeRegion, setRegionPtr, List.map_map, Function.comp_def]

/-- A topology in memory. -/
def placeTopology {δ : Type} (w : World) (t : Topology δ) : MTopology δ :=
  ⟨(⟨w.address .regions, w.regionsCapacity t.regions.length, placeRegions w 0 t.regions⟩ : MVec (MRegion δ)).intoBoxedSlice
      (w.address .regionsShrunk),
    (placeEdges' w (w.edgesCapacity t.edges.length) t.edges).intoBoxedSlice (w.address .edgesShrunk)⟩

theorem placeRegions_length {δ : Type} (w : World) (n : Nat) (rs : List (TopoRegion δ)) : (placeRegions w n rs).length = rs.length := by
  induction rs generalizing n with
  | nil => rfl
  | cons r rs ih => simp [placeRegions, ih]

theorem setRegionPtrs_length {δ : Type} (n : Nat) (rs : List (TopoRegion δ)) : (setRegionPtrs n rs).length = rs.length := by
  induction rs generalizing n with
  | nil => rfl
  | cons r rs ih => simp [setRegionPtrs, ih]

theorem attachRing_length {es es' : List TopoEdge} {rp : RingPtr} {des : List DirectedEdge} (h : attachRing es rp des = .ok es') :
    es'.length = es.length := by
  induction des generalizing es with
  | nil => rw [attachRing] at h; rw [Except.ok.inj h]
  | cons de rest ih =>
    rw [attachRing] at h
    cases he : es[de.edge]? with
    | none => rw [he] at h; cases h
    | some e =>
      rw [he] at h
      simp only at h
      by_cases h0 : e.ring0 = none
      · rw [if_pos h0] at h; rw [ih h, List.length_set]
      · rw [if_neg h0] at h
        by_cases h1 : e.ring1 = none
        · rw [if_pos h1] at h; rw [ih h, List.length_set]
        · rw [if_neg h1] at h; cases h

theorem attachRings_length {es es' : List TopoEdge} {n : Nat} {inner : Bool} {k : Nat} {rings : List TopoRing}
    (h : attachRings es n inner k rings = .ok es') : es'.length = es.length := by
  induction rings generalizing es k with
  | nil => rw [attachRings] at h; rw [Except.ok.inj h]
  | cons r rest ih =>
    simp only [attachRings, bind_ok] at h
    obtain ⟨e1, h1, h2⟩ := h
    rw [ih h2, attachRing_length h1]

theorem attachRegions_length {δ : Type} {es es' : List TopoEdge} {n : Nat} {rs : List (TopoRegion δ)}
    (h : attachRegions es n rs = .ok es') : es'.length = es.length := by
  induction rs generalizing es n with
  | nil => rw [attachRegions] at h; rw [Except.ok.inj h]
  | cons r rest ih =>
    simp only [attachRegions, bind_ok] at h
    obtain ⟨e1, h1, e2, h2, h3⟩ := h
    rw [ih h3, attachRings_length h2, attachRings_length h1]

/-- The model with addresses does what the model with numbers does. -/
theorem mFinishTopology_eq {δ : Type} {w : World} (hw : RealWorld w) (points : List (List Point)) (regions : List (BuildRegion δ)) :
    mFinishTopology w points regions = (finishTopology points regions).map (placeTopology w) := by
  unfold mFinishTopology finishTopology
  have h0 : (⟨w.address .edges, w.edgesCapacity points.length, points.map fun ps => ⟨ps, 0, 0⟩⟩ : MVec MEdge) =
      placeEdges' w (w.edgesCapacity points.length) (points.map fun ps => ⟨ps, none, none⟩) := by
    simp [placeEdges', placeEdge, ringAddr, Function.comp_def]
  simp only [h0]
  rw [mBuildRegions_eq]
  cases buildRegionsToTopoRegions (points.map fun ps => (⟨ps, none, none⟩ : TopoEdge)).length regions with
  | error p => rfl
  | ok rs =>
    simp only [Except.map, bind, Except.bind]
    rw [mAttachRegions_eq hw]
    cases ha : attachRegions (points.map fun ps => (⟨ps, none, none⟩ : TopoEdge)) 0 rs with
    | error p => rfl
    | ok es =>
      have := attachRegions_length ha
      rw [List.length_map] at this
      simp only [Except.map, placeTopology, placeRegions_length, this]

end TopoGeo
