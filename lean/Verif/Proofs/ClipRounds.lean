import Verif.Proofs.NormalizeRounds
/-!
# Rounds of clipping a topology
-/

namespace TopoGeo

open Timed Spec

theorem clipLoopT_rounds (m : Build) (mask : ClipMask) (prev : Point) (loc : ClipLocation) (ret ps : List Point) :
    (clipLoopT m mask prev loc ret ps).rounds ≤ ps.length := by
  induction ps generalizing prev loc ret with
  | nil => simp [clipLoopT]
  | cons p rest ih => exact rounds_tick_bind (rounds_lift_bind fun r _ => ih _ _ r)

theorem clipEdgeT_rounds (m : Build) (mask : ClipMask) (ps : List Point) : (clipEdgeT m mask ps).rounds ≤ ps.length := by
  match ps with
  | [] => simp [clipEdgeT]
  | [_] => simp [clipEdgeT]
  | p :: q :: rest => exact Nat.le_trans (clipLoopT_rounds ..) (by simp)

theorem clipOldEdgesT_rounds (m : Build) (mask : ClipMask) (c : List (List Point)) (f : List (Option Nat))
    (es : List TopoEdge) : (clipOldEdgesT m mask c f es).rounds ≤ pathsVolume (es.map (·.points)) := by
  induction es generalizing c f with
  | nil => simp [clipOldEdgesT]
  | cons e rest ih =>
    rw [List.map_cons, pathsVolume_cons]
    have : (clipOldEdgesT m mask c f (e :: rest)).rounds ≤ (e.points.length + pathsVolume (rest.map (·.points))) + 1 := by
      refine rounds_tick_bind (rounds_bind (clipEdgeT_rounds ..) fun x _ => ?_)
      split
      · exact ih _ _
      · exact ih _ _
    omega

/-- What is left of an edge is not much longer than the edge. -/
theorem oldEdge_length {δ : Type} {m : Build} {mask : ClipMask} {t : Topology δ} {cs : List (List Point)}
    (hcs : ClippedBy m mask t.edges cs) {b : ClipBuilder} (hb : ForEdges cs b) {de : DirectedEdge} {id : Nat}
    {c : List Point} (h1 : b.findOldEdgeId de.edge = .ok (some id)) (h2 : b.oldEdges[id]? = some c) :
    c.length ≤ 2 * (pathOf t de).length := by
  simp only [ClipBuilder.findOldEdgeId, hb.finder, finderOf_getElem?] at h1
  cases hc : cs[de.edge]? with
  | none => rw [hc] at h1; cases h1
  | some c' =>
    rw [hc] at h1
    by_cases hne : c' = []
    · simp [hne] at h1
    · simp only [Option.map_some, hne, if_false, Nat.zero_add, Except.ok.injEq, Option.some.injEq] at h1
      subst h1
      rw [hb.oldEdges, filter_getElem?_newId hc hne] at h2
      obtain rfl := Option.some.inj h2
      obtain ⟨hlt, hget⟩ := List.getElem?_eq_some_iff.mp hc
      have hl := hcs.length_eq
      have hclip := List.Forall₂.get hcs (i := de.edge) (by omega) hlt
      have hle := clipEdge_length hclip
      have e : (pathOf t de).length = (t.edges[de.edge]'(by omega)).points.length := by
        unfold pathOf walk
        rw [List.getElem?_eq_getElem (by omega)]
        cases de.direction <;> simp
      rw [List.get_eq_getElem, List.get_eq_getElem, hget] at hle
      simp only at hle
      omega

theorem plugGapT_rounds (m : Build) (s : ClipRingState) (a z : Option Point) : (plugGapT m s a z).rounds ≤ 7 := by
  unfold plugGapT
  split
  · split
    · unfold ClipRingState.plugT
      rw [rounds_ticks_bind_eq, rounds_ticks_bind_eq, rounds_lift]
    · simp
  · simp

theorem plugGap_length {m : Build} {s s' : ClipRingState} {a z : Option Point} (h : plugGap m s a z = .ok s') :
    s'.ret.length ≤ s.ret.length + 1 ∧ s'.newEdges.edges.length ≤ s.newEdges.edges.length + 1 := by
  unfold plugGap at h
  split at h
  · split at h
    · simp only [ClipRingState.plug, bind_ok] at h
      obtain ⟨t, _, a, _, h⟩ := h
      obtain rfl := Except.ok.inj h
      refine ⟨by simp, ?_⟩
      exact mapEntry_length ..
    · obtain rfl := Except.ok.inj h; omega
  · obtain rfl := Except.ok.inj h; omega

theorem clipRingVisibleT_rounds (m : Build) (s : ClipRingState) (id : Nat) (d : Direction) (c : List Point) :
    (clipRingVisibleT m s id d c).rounds ≤ 7 + c.length := by
  refine rounds_lift_bind fun first _ => ?_
  refine rounds_bind (plugGapT_rounds ..) fun s2 _ => rounds_lift_bind fun last _ => ?_
  have e : (orient d c).length = c.length := by cases d <;> simp [orient]
  exact Nat.le_trans (rounds_bind (signedArea2T_rounds ..) (l := 0) fun t _ => rounds_lift_bind fun a _ => by simp)
    (by omega)

theorem clipRingVisible_length {m : Build} {s s' : ClipRingState} {id : Nat} {d : Direction} {c : List Point}
    (h : clipRingVisible m s id d c = .ok s') :
    s'.ret.length ≤ s.ret.length + 2 ∧ s'.newEdges.edges.length ≤ s.newEdges.edges.length + 1 := by
  simp only [clipRingVisible, bind_ok] at h
  obtain ⟨first, _, s2, h2, last, _, t, _, a, _, h⟩ := h
  obtain rfl := Except.ok.inj h
  have := plugGap_length h2
  have e1 : (if s.start = none then { s with start := some first } else s : ClipRingState).ret = s.ret := by
    split <;> rfl
  have e2 : (if s.start = none then { s with start := some first } else s : ClipRingState).newEdges = s.newEdges := by
    split <;> rfl
  rw [e1, e2] at this
  simp only [List.length_append, List.length_cons, List.length_nil]
  omega

theorem clipRingStepT_rounds {δ : Type} {m : Build} {mask : ClipMask} {t : Topology δ} {cs : List (List Point)}
    (hcs : ClippedBy m mask t.edges cs) {b : ClipBuilder} (hb : ForEdges cs b) (s : ClipRingState) (de : DirectedEdge) :
    (clipRingStepT m b s de).rounds ≤ 8 * ((pathOf t de).length + 1) := by
  have : (clipRingStepT m b s de).rounds ≤ (7 + 2 * (pathOf t de).length) + 1 := by
    refine rounds_tick_bind (rounds_lift_bind fun o ho => ?_)
    cases o with
    | none => simp
    | some id =>
      cases hid : b.oldEdges[id]? with
      | none => simp [hid]
      | some c =>
        simp only [hid]
        have := oldEdge_length hcs hb ho hid
        exact Nat.le_trans (clipRingVisibleT_rounds ..) (by omega)
  omega

theorem clipRingStep_length {m : Build} {b : ClipBuilder} {s s' : ClipRingState} {de : DirectedEdge}
    (h : clipRingStep m b s de = .ok s') :
    s'.ret.length ≤ s.ret.length + 2 ∧ s'.newEdges.edges.length ≤ s.newEdges.edges.length + 1 := by
  rw [clipRingStep_eq, bind_ok] at h
  obtain ⟨o, _, h⟩ := h
  cases o with
  | none => obtain rfl := Except.ok.inj h; omega
  | some id =>
    cases hid : b.oldEdges[id]? with
    | none => simp [hid] at h
    | some c =>
      simp only [hid] at h
      exact clipRingVisible_length h

theorem clipRingLoopT_rounds {δ : Type} {m : Build} {mask : ClipMask} {t : Topology δ} {cs : List (List Point)}
    (hcs : ClippedBy m mask t.edges cs) {b : ClipBuilder} (hb : ForEdges cs b) (s : ClipRingState)
    (des : List DirectedEdge) : (clipRingLoopT m b s des).rounds ≤ 8 * pathsVolume (des.map (pathOf t)) := by
  induction des generalizing s with
  | nil => simp [clipRingLoopT]
  | cons de rest ih =>
    rw [List.map_cons, pathsVolume_cons, Nat.mul_add]
    exact rounds_bind (clipRingStepT_rounds hcs hb s de) fun s' _ => ih s'

theorem clipRingLoop_length {m : Build} {b : ClipBuilder} {s s' : ClipRingState} {des : List DirectedEdge}
    (h : clipRingLoop m b s des = .ok s') :
    s'.ret.length ≤ s.ret.length + 2 * des.length ∧
      s'.newEdges.edges.length ≤ s.newEdges.edges.length + des.length := by
  induction des generalizing s with
  | nil => obtain rfl := Except.ok.inj h; simp
  | cons de rest ih =>
    simp only [clipRingLoop, bind_ok] at h
    obtain ⟨s1, h1, h2⟩ := h
    have a1 := clipRingStep_length h1
    have a2 := ih h2
    rw [List.length_cons]
    omega

theorem clipRingT_rounds {δ : Type} {m : Build} {mask : ClipMask} {t : Topology δ} {cs : List (List Point)}
    (hcs : ClippedBy m mask t.edges cs) {b : ClipBuilder} (hb : ForEdges cs b) (ring : TopoRing) :
    (clipRingT m b ring).rounds + 1 ≤ 8 * topoRingVolume t ring := by
  have : (clipRingT m b ring).rounds ≤ 8 * pathsVolume (ring.directedEdges.map (pathOf t)) + (7 + 0) := by
    refine rounds_bind (clipRingLoopT_rounds hcs hb _ _) fun s _ => rounds_bind (plugGapT_rounds ..) fun s' _ => ?_
    split <;> simp
  simp only [topoRingVolume, pathsOf]
  omega

theorem clipRing_length {δ : Type} {m : Build} (t : Topology δ) {b : ClipBuilder} {ring : TopoRing}
    {x : Option BuildRing × ClipBuilder} (h : clipRing m b ring = .ok x) :
    builtVolume x.1.toList ≤ 2 * topoRingVolume t ring ∧
      x.2.newEdges.edges.length ≤ b.newEdges.edges.length + topoRingVolume t ring := by
  have hv : ring.directedEdges.length + 1 ≤ topoRingVolume t ring := by
    have := pathsVolume_length (pathsOf t ring)
    simp only [pathsOf, List.length_map] at this
    simp only [topoRingVolume, pathsOf]
    omega
  rw [clipRing_eq] at h
  simp only [bind_ok] at h
  obtain ⟨s, h1, s', h2, h⟩ := h
  have a1 := clipRingLoop_length h1
  have a2 := plugGap_length h2
  simp only [List.length_nil] at a1
  split at h
  · obtain rfl := Except.ok.inj h
    refine ⟨by simp [builtVolume], ?_⟩
    dsimp only
    omega
  · obtain rfl := Except.ok.inj h
    simp only [builtVolume, Option.toList, List.map_cons, List.map_nil, List.sum_cons, List.sum_nil]
    omega

theorem clipRingsT_rounds {δ : Type} {m : Build} {mask : ClipMask} {t : Topology δ} {cs : List (List Point)}
    (hcs : ClippedBy m mask t.edges cs) {b : ClipBuilder} (hb : ForEdges cs b) (rs : List TopoRing) :
    (clipRingsT m b rs).rounds ≤ 8 * topoRingsVolume t rs := by
  induction rs generalizing b with
  | nil => simp [clipRingsT]
  | cons r rest ih =>
    rw [topoRingsVolume_cons]
    have h1 := clipRingT_rounds hcs hb r
    have : (clipRingsT m b (r :: rest)).rounds ≤ ((clipRingT m b r).rounds + (8 * topoRingsVolume t rest + 0)) + 1 := by
      refine rounds_tick_bind (rounds_bind (Nat.le_refl _) fun o ho => ?_)
      rw [clipRingT_result] at ho
      exact rounds_bind (ih (clipRing_forEdges hb ho)) fun _ _ => by simp
    omega

theorem clipRings_length {δ : Type} {m : Build} (t : Topology δ) {b : ClipBuilder} {rs : List TopoRing}
    {x : List BuildRing × ClipBuilder} (h : clipRings m b rs = .ok x) :
    builtVolume x.1 ≤ 2 * topoRingsVolume t rs ∧
      x.2.newEdges.edges.length ≤ b.newEdges.edges.length + topoRingsVolume t rs := by
  induction rs generalizing b x with
  | nil => obtain rfl := Except.ok.inj h; simp [builtVolume]
  | cons r rest ih =>
    simp only [clipRings, bind_ok] at h
    obtain ⟨o, h1, rs', h2, h⟩ := h
    obtain rfl := Except.ok.inj h
    have a1 := clipRing_length t h1
    have a2 := ih h2
    rw [builtVolume_append, topoRingsVolume_cons]
    dsimp only at a1 a2 ⊢
    omega

theorem clipRegionT_rounds {δ : Type} {m : Build} {mask : ClipMask} {t : Topology δ} {cs : List (List Point)}
    (hcs : ClippedBy m mask t.edges cs) {b : ClipBuilder} (hb : ForEdges cs b) (r : TopoRegion δ) :
    (clipRegionT m b r).rounds + 8 ≤ 8 * topoRegionVolume t r := by
  rw [topoRegionVolume_eq]
  have : (clipRegionT m b r).rounds ≤ 8 * topoRingsVolume t r.outerRings + (8 * topoRingsVolume t r.innerRings + 0) := by
    refine rounds_bind (clipRingsT_rounds hcs hb _) fun o ho => ?_
    rw [clipRingsT_result] at ho
    split
    · exact rounds_bind (clipRingsT_rounds hcs (clipRings_forEdges hb ho) _) fun _ _ => by simp
    · simp
  omega

theorem clipRegion_facts {δ : Type} {m : Build} (t : Topology δ) {cs : List (List Point)} {b : ClipBuilder}
    (hb : ForEdges cs b) {r : TopoRegion δ} {x : Option (BuildRegion δ) × ClipBuilder}
    (h : clipRegion m b r = .ok x) :
    ForEdges cs x.2 ∧ buildRounds x.1.toList ≤ 2 * topoRegionVolume t r ∧
      x.2.newEdges.edges.length ≤ b.newEdges.edges.length + topoRegionVolume t r := by
  rw [topoRegionVolume_eq]
  simp only [clipRegion, bind_ok] at h
  obtain ⟨o, h1, h⟩ := h
  have a1 := clipRings_length t h1
  have f1 := clipRings_forEdges hb h1
  split at h
  · rw [bind_ok] at h
    obtain ⟨i, h2, h⟩ := h
    obtain rfl := Except.ok.inj h
    have a2 := clipRings_length t h2
    refine ⟨clipRings_forEdges f1 h2, ?_⟩
    dsimp only [Option.toList] at a1 a2 ⊢
    rw [buildRounds_single]
    omega
  · obtain rfl := Except.ok.inj h
    refine ⟨f1, ?_⟩
    dsimp only [Option.toList] at a1 ⊢
    have e : buildRounds ([] : List (BuildRegion δ)) = 0 := rfl
    omega

theorem clipRegionsT_rounds {δ : Type} {m : Build} {mask : ClipMask} {t : Topology δ} {cs : List (List Point)}
    (hcs : ClippedBy m mask t.edges cs) {b : ClipBuilder} (hb : ForEdges cs b) (rs : List (TopoRegion δ)) :
    (clipRegionsT m b rs).rounds ≤ 8 * topoRegionsVolume t rs := by
  induction rs generalizing b with
  | nil => simp [clipRegionsT]
  | cons r rest ih =>
    rw [topoRegionsVolume_cons]
    have h1 := clipRegionT_rounds hcs hb r
    have : (clipRegionsT m b (r :: rest)).rounds ≤
        ((clipRegionT m b r).rounds + (8 * topoRegionsVolume t rest + 0)) + 1 := by
      refine rounds_tick_bind (rounds_bind (Nat.le_refl _) fun o ho => ?_)
      rw [clipRegionT_result] at ho
      exact rounds_bind (ih (clipRegion_facts t hb ho).1) fun _ _ => by simp
    omega

theorem clipRegions_facts {δ : Type} {m : Build} (t : Topology δ) {cs : List (List Point)} {b : ClipBuilder}
    (hb : ForEdges cs b) {rs : List (TopoRegion δ)} {x : List (BuildRegion δ) × ClipBuilder}
    (h : clipRegions m b rs = .ok x) :
    ForEdges cs x.2 ∧ buildRounds x.1 ≤ 2 * topoRegionsVolume t rs ∧
      x.2.newEdges.edges.length ≤ b.newEdges.edges.length + topoRegionsVolume t rs := by
  induction rs generalizing b x with
  | nil => obtain rfl := Except.ok.inj h; exact ⟨hb, by simp [buildRounds], by simp⟩
  | cons r rest ih =>
    simp only [clipRegions, bind_ok] at h
    obtain ⟨o, h1, rs', h2, h⟩ := h
    obtain rfl := Except.ok.inj h
    have a1 := clipRegion_facts t hb h1
    have a2 := ih a1.1 h2
    refine ⟨a2.1, ?_⟩
    rw [buildRounds_append, topoRegionsVolume_cons]
    dsimp only at a1 a2 ⊢
    omega

theorem placeNewEdges_slots {first : Nat} {slots out : List (Point × Point)} {order : List ((Point × Point) × Nat)}
    (h : placeNewEdges first slots order = .ok out) : out.length = slots.length := by
  induction order generalizing slots with
  | nil => obtain rfl := Except.ok.inj h; rfl
  | cons x rest ih =>
    simp only [placeNewEdges, bind_ok] at h
    obtain ⟨s, h1, h2⟩ := h
    rw [ih h2]
    unfold vecSet at h1
    split at h1
    · obtain rfl := Except.ok.inj h1; simp
    · cases h1

theorem clipTopologyT_rounds {δ : Type} (m : Build) (t : Topology δ) (mask : ClipMask) :
    (clipTopologyT m t mask).rounds ≤ 15 * walkedVolume t + 2 * storedVolume t := by
  have hw : walkedVolume t = topoRegionsVolume t t.regions := rfl
  have : (clipTopologyT m t mask).rounds ≤ storedVolume t + (8 * walkedVolume t +
      (7 * walkedVolume t + storedVolume t)) := by
    refine rounds_bind (clipOldEdgesT_rounds ..) fun cf h1 => ?_
    rw [clipOldEdgesT_result] at h1
    obtain ⟨cs, hcs, e1, e2⟩ := clipOldEdges_ok h1
    have hb : ForEdges cs ⟨cf.1, cf.2, ⟨cf.1.length, []⟩⟩ := ⟨by simpa using e1, by simpa using e2⟩
    refine rounds_bind (clipRegionsT_rounds hcs hb _) fun rb h2 => ?_
    rw [clipRegionsT_result] at h2
    obtain ⟨f1, f2, f3⟩ := clipRegions_facts t hb h2
    have hold : rb.2.oldEdges.length ≤ storedVolume t := by
      rw [f1.oldEdges]
      have h3 : (cs.filter (· ≠ [])).length ≤ cs.length := List.length_filter_le ..
      have h4 := hcs.length_eq
      have h5 := pathsVolume_length (t.edges.map (·.points))
      simp only [List.length_map] at h5
      unfold storedVolume
      omega
    simp only [List.length_nil, Nat.zero_add] at f3
    have : (rb.2.intoTopologyT rb.1).rounds ≤ rb.2.newEdges.edges.length + (rb.2.newEdges.edges.length +
        (rb.2.oldEdges.length + rb.2.newEdges.edges.length + 2 * buildRounds rb.1)) := by
      refine rounds_ticks_bind (rounds_ticks_bind (rounds_lift_bind fun fresh h6 => ?_))
      refine Nat.le_trans (finishTopologyT_rounds ..) ?_
      have := placeNewEdges_slots h6
      rw [List.length_replicate] at this
      simp only [List.length_append, List.length_map]
      omega
    omega
  omega

end TopoGeo
