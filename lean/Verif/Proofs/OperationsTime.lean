import Verif.Model.OperationsTime
import Verif.Proofs.SimplifyTime
import Verif.Proofs.ClipTopology
/-!
# The counting functions compute the same results
-/

namespace TopoGeo

open Timed

theorem signedArea2T_result (m : Build) (ps : List Point) : (signedArea2T m ps).result = signedArea2 m ps := by
  simp [signedArea2T, ok_bind']

theorem edgesAreaLoopT_result (m : Build) (a : Int) (es : List Edge) :
    (edgesAreaLoopT m a es).result = edgesAreaLoop m a es := by
  induction es generalizing a with
  | nil => rfl
  | cons e rest ih =>
    simp only [edgesAreaLoopT, edgesAreaLoop, result_bind, result_tick, ok_bind', signedArea2T_result, result_lift, ih]

theorem area2AndWindingOrderT_result (m : Build) (r : Ring) :
    (r.area2AndWindingOrderT m).result = r.area2AndWindingOrder m := by
  cases r with
  | points ps => simp [Ring.area2AndWindingOrderT, Ring.area2AndWindingOrder, ok_bind']
  | edges es => simp [Ring.area2AndWindingOrderT, Ring.area2AndWindingOrder, edgesAreaLoopT_result]

theorem canonicalizeT_result (m : Build) (ps : List Point) : (canonicalizeT m ps).result = canonicalize m ps := by
  unfold canonicalizeT canonicalize
  cases ps.head? with
  | none => rfl
  | some p1 =>
    cases ps.getLast? with
    | none => rfl
    | some p2 =>
      simp only [result_ite, result_bind, result_ticks, ok_bind', area2AndWindingOrderT_result, Ring.windingOrder,
        bind_assoc, result_pure]

theorem buildDirectedEdgeT_result (m : Build) (es : EdgeMap) (e : Edge) :
    (buildDirectedEdgeT m es e).result = buildDirectedEdge m es e := by
  simp only [buildDirectedEdgeT, buildDirectedEdge, result_bind, result_ticks, ok_bind', result_ite, result_pure,
    canonicalizeT_result]

theorem buildDirectedEdgesT_result (m : Build) (es : EdgeMap) (edges : List Edge) :
    (buildDirectedEdgesT m es edges).result = buildDirectedEdges m es edges := by
  induction edges generalizing es with
  | nil => rfl
  | cons e rest ih =>
    simp only [buildDirectedEdgesT, buildDirectedEdges, result_bind, result_tick, ok_bind', buildDirectedEdgeT_result,
      ih, result_pure]

theorem buildRingT_result (m : Build) (es : EdgeMap) (r : Ring) : (buildRingT m es r).result = buildRing m es r := by
  simp only [buildRingT, buildRing, Ring.area2, bind_assoc, result_bind, area2AndWindingOrderT_result, ok_bind',
    result_ite, result_pure, result_ticks, buildDirectedEdgesT_result]

theorem buildRingsT_result (m : Build) (es : EdgeMap) (rings : List Ring) :
    (buildRingsT m es rings).result = buildRings m es rings := by
  induction rings generalizing es with
  | nil => rfl
  | cons r rest ih =>
    simp only [buildRingsT, buildRings, result_bind, result_tick, ok_bind', buildRingT_result, ih, result_pure]

theorem addRegionT_result {δ : Type} (m : Build) (b : TopologyBuilder δ) (r : Region δ) :
    (b.addRegionT m r).result = b.addRegion m r := by
  simp only [TopologyBuilder.addRegionT, TopologyBuilder.addRegion, result_bind, result_tick, ok_bind',
    buildRingsT_result, result_ite, result_pure]

theorem addRegionsT_result {δ : Type} (m : Build) (b : TopologyBuilder δ) (rs : List (Region δ)) :
    (b.addRegionsT m rs).result = b.addRegions m rs := by
  induction rs generalizing b with
  | nil => rfl
  | cons r rest ih =>
    simp only [TopologyBuilder.addRegionsT, TopologyBuilder.addRegions, result_bind, addRegionT_result, ih]

theorem finishTopologyT_result {δ : Type} (ps : List (List Point)) (rs : List (BuildRegion δ)) :
    (finishTopologyT ps rs).result = finishTopology ps rs := by
  simp only [finishTopologyT, finishTopology, result_bind, result_ticks, ok_bind', result_lift, result_pure]

theorem intoTopologyT_result {δ : Type} (b : TopologyBuilder δ) : b.intoTopologyT.result = b.intoTopology := by
  simp only [TopologyBuilder.intoTopologyT, TopologyBuilder.intoTopology, TopologyBuilder.intoTopologyWith,
    result_bind, result_ticks, ok_bind', result_lift, finishTopologyT_result]

theorem buildTopologyT_result {δ : Type} (m : Build) (rs : List (Region δ)) :
    (buildTopologyT m rs).result = buildTopology m rs := by
  simp only [buildTopologyT, buildTopology, result_bind, addRegionsT_result, intoTopologyT_result]

/-! ## Clipping -/

theorem clipLoopT_result (m : Build) (mask : ClipMask) (prev : Point) (loc : ClipLocation) (ret ps : List Point) :
    (clipLoopT m mask prev loc ret ps).result = clipLoop m mask prev loc ret ps := by
  induction ps generalizing prev loc ret with
  | nil => rfl
  | cons p rest ih =>
    simp only [clipLoopT, clipLoop, result_bind, result_tick, ok_bind', result_lift, ih]

theorem clipEdgeT_result (m : Build) (mask : ClipMask) (ps : List Point) :
    (clipEdgeT m mask ps).result = clipEdge m mask ps := by
  match ps with
  | [] => rfl
  | [_] => rfl
  | p :: q :: rest => simp only [clipEdgeT, clipEdge, clipLoopT_result]

theorem clipOldEdgesT_result (m : Build) (mask : ClipMask) (c : List (List Point)) (f : List (Option Nat))
    (es : List TopoEdge) : (clipOldEdgesT m mask c f es).result = clipOldEdges m mask c f es := by
  induction es generalizing c f with
  | nil => rfl
  | cons e rest ih =>
    simp only [clipOldEdgesT, clipOldEdges, result_bind, result_tick, ok_bind', clipEdgeT_result, result_ite, ih]

theorem plugT_result (m : Build) (s : ClipRingState) (p q : Point) : (s.plugT m p q).result = s.plug m p q := by
  show ((ticks 2 >>= fun _ => ticks 5 >>= fun _ => lift (s.plug m p q)) : Timed ClipRingState).result = _
  rw [result_bind, result_ticks, ok_bind', result_bind, result_ticks, ok_bind', result_lift]

theorem plugGapT_result (m : Build) (s : ClipRingState) (a z : Option Point) :
    (plugGapT m s a z).result = plugGap m s a z := by
  cases a with
  | none => rfl
  | some p =>
    cases z with
    | none => rfl
    | some q => simp only [plugGapT, plugGap, result_ite, plugT_result, result_pure]

theorem clipRingVisibleT_result (m : Build) (s : ClipRingState) (id : Nat) (d : Direction) (c : List Point) :
    (clipRingVisibleT m s id d c).result = clipRingVisible m s id d c := by
  simp only [clipRingVisibleT, clipRingVisible, result_bind, result_lift, plugGapT_result, signedArea2T_result,
    result_pure]

theorem clipRingStepT_result (m : Build) (b : ClipBuilder) (s : ClipRingState) (de : DirectedEdge) :
    (clipRingStepT m b s de).result = clipRingStep m b s de := by
  rw [clipRingStep_eq]
  simp only [clipRingStepT, result_bind, result_tick, ok_bind', result_lift]
  refine bind_congr fun o => ?_
  cases o with
  | none => rfl
  | some id =>
    cases h : b.oldEdges[id]? with
    | none => simp only [h, result_lift]
    | some old => simp only [h, clipRingVisibleT_result]

theorem clipRingLoopT_result (m : Build) (b : ClipBuilder) (s : ClipRingState) (des : List DirectedEdge) :
    (clipRingLoopT m b s des).result = clipRingLoop m b s des := by
  induction des generalizing s with
  | nil => rfl
  | cons de rest ih => simp only [clipRingLoopT, clipRingLoop, result_bind, clipRingStepT_result, ih]

theorem clipRingT_result (m : Build) (b : ClipBuilder) (r : TopoRing) : (clipRingT m b r).result = clipRing m b r := by
  rw [clipRing_eq]
  simp only [clipRingT, result_bind, clipRingLoopT_result, plugGapT_result, result_ite, result_pure]

theorem clipRingsT_result (m : Build) (b : ClipBuilder) (rs : List TopoRing) :
    (clipRingsT m b rs).result = clipRings m b rs := by
  induction rs generalizing b with
  | nil => rfl
  | cons r rest ih =>
    simp only [clipRingsT, clipRings, result_bind, result_tick, ok_bind', clipRingT_result, ih, result_pure]

theorem clipRegionT_result {δ : Type} (m : Build) (b : ClipBuilder) (r : TopoRegion δ) :
    (clipRegionT m b r).result = clipRegion m b r := by
  simp only [clipRegionT, clipRegion, result_bind, clipRingsT_result, result_ite, result_pure]

theorem clipRegionsT_result {δ : Type} (m : Build) (b : ClipBuilder) (rs : List (TopoRegion δ)) :
    (clipRegionsT m b rs).result = clipRegions m b rs := by
  induction rs generalizing b with
  | nil => rfl
  | cons r rest ih =>
    simp only [clipRegionsT, clipRegions, result_bind, result_tick, ok_bind', clipRegionT_result, ih, result_pure]

theorem clipIntoTopologyT_result {δ : Type} (b : ClipBuilder) (rs : List (BuildRegion δ)) :
    (b.intoTopologyT rs).result = b.intoTopologyWith rs b.newEdges.edges := by
  simp only [ClipBuilder.intoTopologyT, ClipBuilder.intoTopologyWith, result_bind, result_ticks, ok_bind', result_lift,
    finishTopologyT_result]

theorem clipTopologyT_result {δ : Type} (m : Build) (t : Topology δ) (mask : ClipMask) :
    (clipTopologyT m t mask).result = clipTopology m t mask := by
  simp only [clipTopologyT, clipTopology, ClipBuilder.new, bind_assoc, result_bind, clipOldEdgesT_result, ok_bind',
    clipRegionsT_result, clipIntoTopologyT_result]

/-! ## Normalizing -/

theorem withDirectedEdgeT_result {δ : Type} (t : Topology δ) (de : DirectedEdge) :
    (withDirectedEdgeT t de).result = withDirectedEdge t de := by
  unfold withDirectedEdgeT
  split
  · rename_i h
    simp [withDirectedEdge, h]
  · simp only [result_bind, result_ticks, ok_bind', result_ite, result_lift, ite_self]

theorem withDirectedEdgesT_result {δ : Type} (t : Topology δ) (des : List DirectedEdge) :
    (withDirectedEdgesT t des).result = withDirectedEdges t des := by
  induction des with
  | nil => rfl
  | cons de rest ih =>
    simp only [withDirectedEdgesT, withDirectedEdges, result_bind, result_tick, ok_bind', withDirectedEdgeT_result, ih,
      result_pure]

theorem joinLoopT_result (ret es : List NormEdge) : (joinLoopT ret es).result = joinLoop ret es := by
  induction es generalizing ret with
  | nil => rfl
  | cons e rest ih =>
    simp only [joinLoopT, joinLoop, result_bind, result_tick, result_ticks, ok_bind', result_lift, ih]

theorem joinWrapT_result (ret : List NormEdge) : (joinWrapT ret).result = joinWrap ret := by
  match ret with
  | [] => rfl
  | [_] => rfl
  | first :: second :: rest =>
    simp only [joinWrapT, joinWrap]
    split
    · rename_i h
      simp [h, ok_bind', joinWrap]
    · rfl

theorem joinRelatedEdgesT_result (es : List NormEdge) : (joinRelatedEdgesT es).result = joinRelatedEdges es := by
  simp only [joinRelatedEdgesT, joinRelatedEdges, result_bind, joinLoopT_result, joinWrapT_result]

theorem windEdgesT_result (m : Build) (es : List NormEdge) (order : WindingOrder) :
    (windEdgesT m es order).result = windEdges m es order := by
  simp only [windEdgesT, windEdges, calculateWindingOrderT, result_bind, result_ticks, ok_bind', result_lift,
    result_ite, result_pure]

theorem rotateEdgesT_result (es : List NormEdge) : (rotateEdgesT es).result = rotateEdges es := by
  unfold rotateEdgesT
  split
  · simp [rotateEdges, rotateIslandEdgeT, ok_bind']
  · simp [ok_bind']

theorem indexEdgesT_result (map : MergeMap) (es : List NormEdge) : (indexEdgesT map es).result = indexEdges map es := by
  induction es generalizing map with
  | nil => rfl
  | cons e rest ih =>
    simp only [indexEdgesT, indexEdges, result_bind, result_tick, ok_bind']
    cases e.points.head? with
    | none => rfl
    | some p => simp only [result_bind, result_ticks, ok_bind', result_lift, ih]

theorem splitRingsT_result (ret : List NormRing) (map : MergeMap) (rings : List NormRing) :
    (splitRingsT ret map rings).result = splitRings ret map rings := by
  induction rings generalizing ret map with
  | nil => rfl
  | cons r rest ih =>
    simp only [splitRingsT, splitRings, result_bind, result_tick, result_ticks, ok_bind', result_ite, ih,
      indexEdgesT_result]

theorem followT_result (start : Point) (fuel : Nat) (current : Point) (map : MergeMap) (es : List NormEdge) :
    (followT start fuel current map es).result = follow start fuel current map es := by
  induction fuel generalizing current map es with
  | zero => rfl
  | succ fuel ih =>
    simp only [followT, follow, result_bind, result_tick, result_ticks, ok_bind']
    cases map.remove current with
    | none => rfl
    | some x =>
      dsimp only
      cases x.1.points.getLast? with
      | none => rfl
      | some e => simp only [result_ite, result_pure, ih]

theorem mergeLoopT_result (fuel : Nat) (map : MergeMap) (ret : List NormRing) :
    (mergeLoopT fuel map ret).result = mergeLoop fuel map ret := by
  induction fuel generalizing map ret with
  | zero => cases map <;> rfl
  | succ fuel ih =>
    cases map with
    | nil => rfl
    | cons x rest =>
      simp only [mergeLoopT, mergeLoop, result_bind, result_tick, result_ticks, ok_bind', followT_result,
        joinRelatedEdgesT_result, rotateEdgesT_result, ih]

theorem sortRingsT_result (rings : List NormRing) : (sortRingsT rings).result = sortRings rings := by
  simp [sortRingsT, ok_bind']

theorem joinAdjacentRingsT_result (rings : List NormRing) :
    (joinAdjacentRingsT rings).result = joinAdjacentRings rings := by
  simp only [joinAdjacentRingsT, joinAdjacentRings, result_bind, splitRingsT_result, result_ite, result_pure,
    mergeLoopT_result, sortRingsT_result]

theorem normalizeRingT_result {δ : Type} (m : Build) (t : Topology δ) (order : WindingOrder) (r : TopoRing) :
    (normalizeRingT m t order r).result = normalizeRing m t order r := by
  simp only [normalizeRingT, normalizeRing, result_bind, withDirectedEdgesT_result, joinRelatedEdgesT_result,
    windEdgesT_result, rotateEdgesT_result]

theorem normalizeRingsT_result {δ : Type} (m : Build) (t : Topology δ) (order : WindingOrder) (rs : List TopoRing) :
    (normalizeRingsT m t order rs).result = normalizeRings m t order rs := by
  induction rs with
  | nil => rfl
  | cons r rest ih =>
    simp only [normalizeRingsT, normalizeRings, result_bind, result_tick, ok_bind', normalizeRingT_result, ih,
      result_pure]

theorem normalizeRegionRingsT_result {δ : Type} (m : Build) (t : Topology δ) (rs : List TopoRing)
    (order : WindingOrder) : (normalizeRegionRingsT m t rs order).result = normalizeRegionRings m t rs order := by
  simp only [normalizeRegionRingsT, normalizeRegionRings, normalizeRegionNormRings, bind_assoc, result_bind,
    normalizeRingsT_result, joinAdjacentRingsT_result, sortRingsT_result, result_ticks, ok_bind', result_pure]

theorem normalizeRegionT_result {δ : Type} (m : Build) (t : Topology δ) (r : TopoRegion δ) :
    (normalizeRegionT m t r).result = normalizeRegion m t r := by
  simp only [normalizeRegionT, normalizeRegion, result_bind, result_tick, ok_bind', normalizeRegionRingsT_result,
    result_pure]

theorem normalizeLoopT_result {δ : Type} (m : Build) (t : Topology δ) (b : TopologyBuilder δ)
    (rs : List (TopoRegion δ)) : (normalizeLoopT m t b rs).result = normalizeLoop m t b rs := by
  induction rs generalizing b with
  | nil => rfl
  | cons r rest ih =>
    simp only [normalizeLoopT, normalizeLoop, result_bind, normalizeRegionT_result, addRegionT_result, ih]

theorem normalizeT_result {δ : Type} (m : Build) (t : Topology δ) : (normalizeT m t).result = normalize m t := by
  simp only [normalizeT, normalize, result_bind, normalizeLoopT_result, intoTopologyT_result]

end TopoGeo
