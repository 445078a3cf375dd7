import Verif.Spec.NoOverflow
import Verif.Props.Checked
import Verif.Props.Sizes
import Verif.Props.Pipeline
/-!
# Maps that are too small for an overflow
-/

namespace TopoGeo
open Spec

/-- It does not stop at an overflow. -/
def Stays {α : Type} (x : R α) : Prop := x ≠ .error .overflow

theorem Stays.ok {α : Type} (a : α) : Stays (.ok a : R α) := fun h => nomatch h

theorem Stays.bind {α β : Type} {x : R α} {f : α → R β} (h : Stays x) (hf : ∀ a, x = .ok a → Stays (f a)) : Stays (x >>= f) := by
  intro he
  rcases bind_error.mp he with he | ⟨a, ha, he⟩
  · exact h he
  · exact hf a ha he

theorem Stays.same {α : Type} {x y : R α} (h : Stays x) (hs : StopsOrSame x y) : x = y := hs.resolve_left h

theorem tupleWindows_segs (ps : List Point) : tupleWindows ps = segs ps := by
  induction ps with
  | nil => rfl
  | cons a l ih =>
    cases l with
    | nil => rfl
    | cons b l => rw [tupleWindows, segs, ih]

/-! ## Areas -/

/-- On the grid. -/
def SegsOn (k : Nat) (S : List (Point × Point)) : Prop := ∀ s ∈ S, OnGrid k s.1 ∧ OnGrid k s.2

theorem product_small {k a b : Nat} (ha : a < 2 ^ k) (hb : b < 2 ^ k) : a * b < 2 ^ (2 * k) := by
  have h : (2 : Nat) ^ (2 * k) = 2 ^ k * 2 ^ k := by rw [← pow_add]; congr 1; omega
  rw [h]
  exact Nat.mul_lt_mul'' ha hb

theorem shoelaceTerm_small (m : Build) {k : Nat} {p q : Point} (hp : OnGrid k p) (hq : OnGrid k q) (hk : 2 ^ (2 * k) < 2 ^ 63) :
    ∃ v, shoelaceTerm m p q = .ok v ∧ v.natAbs < 2 ^ (2 * k) := by
  have h1 := product_small hp.1 hq.2
  have h2 := product_small hq.1 hp.2
  have e1 : p.xi * q.yi = ((p.x.toNat * q.y.toNat : Nat) : Int) := by simp [Point.xi, Point.yi]
  have e2 : q.xi * p.yi = ((q.x.toNat * p.y.toNat : Nat) : Int) := by simp [Point.xi, Point.yi]
  unfold shoelaceTerm
  rw [e1, e2]
  generalize p.x.toNat * q.y.toNat = a at *
  generalize q.x.toNat * p.y.toNat = b at *
  rw [i64_of_inI64 (by unfold InI64; omega), ok_bind, i64_of_inI64 (by unfold InI64; omega), ok_bind,
    i64_of_inI64 (by unfold InI64; omega)]
  exact ⟨_, rfl, by omega⟩

theorem signedArea2Loop_small (m : Build) {k : Nat} {l : List (Point × Point)} (h : SegsOn k l) {a : Int}
    (hb : a.natAbs + l.length * 2 ^ (2 * k) < 2 ^ 63) :
    ∃ v, signedArea2Loop m a l = .ok v ∧ v.natAbs ≤ a.natAbs + l.length * 2 ^ (2 * k) := by
  induction l generalizing a with
  | nil => exact ⟨a, rfl, by simp⟩
  | cons s l ih =>
    obtain ⟨p, q⟩ := s
    rw [List.length_cons, Nat.add_mul, one_mul] at hb ⊢
    obtain ⟨v, hv, hv'⟩ := shoelaceTerm_small m (h (p, q) (by simp)).1 (h (p, q) (by simp)).2 (k := k) (by omega)
    obtain ⟨w, hw, hw'⟩ := ih (fun s hs => h s (by simp [hs])) (a := a + v) (by omega)
    refine ⟨w, ?_, by omega⟩
    rw [signedArea2Loop, hv, ok_bind, i64_of_inI64 (by unfold InI64; omega), ok_bind, hw]

theorem signedArea2_small (m : Build) {k : Nat} {ps : List Point} (h : SegsOn k (segs ps))
    (hb : (segs ps).length * 2 ^ (2 * k) < 2 ^ 63) :
    ∃ v, signedArea2 m ps = .ok v ∧ v.natAbs ≤ (segs ps).length * 2 ^ (2 * k) := by
  unfold signedArea2
  rw [tupleWindows_segs]
  simpa using signedArea2Loop_small m h (a := 0) (by simpa using hb)

theorem splitSign_small (m : Build) {a : Int} (h : a.natAbs < 2 ^ 63) : Stays (splitSign m a) := by
  unfold splitSign
  split
  · exact .ok _
  · rw [i64_of_inI64 (by unfold InI64; omega), ok_bind]
    exact .ok _

theorem edgesAreaLoop_small (m : Build) {k : Nat} {es : List Edge} (h : SegsOn k (es.flatMap segs)) {a : Int}
    (hb : a.natAbs + (es.flatMap segs).length * 2 ^ (2 * k) < 2 ^ 63) :
    ∃ v, edgesAreaLoop m a es = .ok v ∧ v.natAbs ≤ a.natAbs + (es.flatMap segs).length * 2 ^ (2 * k) := by
  induction es generalizing a with
  | nil => exact ⟨a, rfl, by simp⟩
  | cons e es ih =>
    rw [List.flatMap_cons, List.length_append, Nat.add_mul] at hb ⊢
    rw [List.flatMap_cons] at h
    obtain ⟨v, hv, hv'⟩ := signedArea2_small m (fun s hs => h s (List.mem_append_left _ hs)) (k := k) (by omega)
    obtain ⟨w, hw, hw'⟩ := ih (fun s hs => h s (List.mem_append_right _ hs)) (a := a + v) (by omega)
    refine ⟨w, ?_, by omega⟩
    rw [edgesAreaLoop, hv, ok_bind, i64_of_inI64 (by unfold InI64; omega), ok_bind, hw]

theorem ringArea_small (m : Build) {k : Nat} {r : Ring} (h : SmallSegs k (ringSegs r)) : Stays (r.area2AndWindingOrder m) := by
  cases r with
  | points ps =>
    obtain ⟨v, hv, hv'⟩ := signedArea2_small m h.1 h.2
    have := h.2
    simp only [Ring.area2AndWindingOrder, area2AndWindingOrder, ringSegs, hv, ok_bind] at this ⊢
    exact splitSign_small m (by omega)
  | edges es =>
    obtain ⟨v, hv, hv'⟩ := edgesAreaLoop_small m h.1 (a := 0) (by rw [Int.natAbs_zero, Nat.zero_add]; exact h.2)
    have := h.2
    simp only [Ring.area2AndWindingOrder, ringSegs, hv, ok_bind] at this ⊢
    exact splitSign_small m (by omega)

/-! ## Building -/

theorem canonicalize_small (m : Build) {k : Nat} {ps : List Point} (h : SmallSegs k (segs ps)) : Stays (canonicalize m ps) := by
  unfold canonicalize
  split
  · split
    · exact .ok _
    · split
      · refine .bind (.bind (ringArea_small m (r := .points ps) h) fun _ _ => .ok _) fun w _ => ?_
        split <;> exact .ok _
      · exact .ok _
  · intro h; cases h

theorem buildDirectedEdge_small (m : Build) {k : Nat} (es : EdgeMap) {e : Edge} (h : SmallSegs k (segs e)) :
    Stays (buildDirectedEdge m es e) := by
  unfold buildDirectedEdge
  split
  · exact .ok _
  · exact .bind (canonicalize_small m h) fun _ _ => .ok _

theorem Spec.SmallSegs.sub {k : Nat} {S S' : List (Point × Point)} (h : SmallSegs k S) (hs : S' ⊆ S) (hl : S'.length ≤ S.length) : SmallSegs k S' :=
  ⟨fun s m => h.1 s (hs m), lt_of_le_of_lt (Nat.mul_le_mul_right _ hl) h.2⟩

theorem Spec.SmallSegs.onLeft {k : Nat} {S S' : List (Point × Point)} (h : SmallSegs k (S ++ S')) : SmallSegs k S :=
  h.sub (List.subset_append_left _ _) (by simp)

theorem Spec.SmallSegs.onRight {k : Nat} {S S' : List (Point × Point)} (h : SmallSegs k (S ++ S')) : SmallSegs k S' :=
  h.sub (List.subset_append_right _ _) (by simp)

theorem buildDirectedEdges_small (m : Build) {k : Nat} (es : EdgeMap) {l : List Edge} (h : SmallSegs k (l.flatMap segs)) :
    Stays (buildDirectedEdges m es l) := by
  induction l generalizing es with
  | nil => exact .ok _
  | cons e l ih =>
    rw [List.flatMap_cons] at h
    exact .bind (buildDirectedEdge_small m es h.onLeft) fun _ _ => .bind (ih _ h.onRight) fun _ _ => .ok _

theorem getEdges_segs (r : Ring) : r.getEdges.flatMap segs = ringSegs r := by
  cases r with
  | edges es => rfl
  | points ps =>
    simp only [Ring.getEdges, ringSegs, tupleWindows_segs, List.flatMap_map]
    generalize segs ps = S
    induction S with
    | nil => rfl
    | cons s S ih => rw [List.flatMap_cons, ih]; rfl

theorem buildRing_small (m : Build) {k : Nat} (es : EdgeMap) {r : Ring} (h : SmallSegs k (ringSegs r)) : Stays (buildRing m es r) := by
  unfold buildRing
  refine .bind (.bind (ringArea_small m h) fun _ _ => .ok _) fun a _ => ?_
  split
  · exact .ok _
  · exact .bind (buildDirectedEdges_small m es (by rw [getEdges_segs]; exact h)) fun _ _ => .ok _

theorem buildRings_small (m : Build) {k : Nat} (es : EdgeMap) {l : List Ring} (h : ∀ r ∈ l, SmallSegs k (ringSegs r)) :
    Stays (buildRings m es l) := by
  induction l generalizing es with
  | nil => exact .ok _
  | cons r l ih =>
    exact .bind (buildRing_small m es (h r (by simp))) fun _ _ => .bind (ih _ fun r hr => h r (by simp [hr])) fun _ _ => .ok _

theorem addRegion_small {δ : Type} (m : Build) {k : Nat} (b : TopologyBuilder δ) {r : Region δ}
    (h : ∀ ring ∈ r.outerRings ++ r.innerRings, SmallSegs k (ringSegs ring)) : Stays (b.addRegion m r) := by
  unfold TopologyBuilder.addRegion
  refine .bind (buildRings_small m _ fun ring hr => h ring (List.mem_append_left _ hr)) fun x _ => ?_
  obtain ⟨outer, es1⟩ := x
  simp only
  split
  · exact .bind (buildRings_small m _ fun ring hr => h ring (List.mem_append_right _ hr)) fun _ _ => .ok _
  · exact .ok _

theorem addRegions_small {δ : Type} (m : Build) {k : Nat} (b : TopologyBuilder δ) {rs : List (Region δ)}
    (h : ∀ r ∈ rs, ∀ ring ∈ r.outerRings ++ r.innerRings, SmallSegs k (ringSegs ring)) : Stays (b.addRegions m rs) := by
  induction rs generalizing b with
  | nil => exact .ok _
  | cons r rs ih => exact .bind (addRegion_small m b (h r (by simp))) fun _ _ => ih _ fun r hr => h r (by simp [hr])

/-! ## Normalizing -/

theorem normAreaLoop_small (m : Build) {k : Nat} {es : List NormEdge} (h : SegsOn k ((npts es).flatMap segs)) {a : Int}
    (hb : a.natAbs + ((npts es).flatMap segs).length * 2 ^ (2 * k) < 2 ^ 63) : ∃ v, normAreaLoop m a es = .ok v := by
  induction es generalizing a with
  | nil => exact ⟨a, rfl⟩
  | cons e es ih =>
    rw [npts, List.map_cons, List.flatMap_cons] at h
    rw [npts, List.map_cons, List.flatMap_cons, List.length_append, Nat.add_mul] at hb
    obtain ⟨v, hv, hv'⟩ := signedArea2Loop_small m (fun s hs => h s (List.mem_append_left _ hs)) (k := k) (a := a) (by omega)
    rw [normAreaLoop, tupleWindows_segs, hv, ok_bind]
    exact ih (fun s hs => h s (List.mem_append_right _ hs)) (by unfold npts; omega)

theorem windEdges_small (m : Build) {k : Nat} {es : List NormEdge} {order : WindingOrder} (h : SmallSegs k ((npts es).flatMap segs)) :
    Stays (windEdges m es order) := by
  obtain ⟨v, hv⟩ := normAreaLoop_small m h.1 (a := 0) (by simpa using h.2)
  unfold windEdges calculateWindingOrder
  rw [hv, ok_bind]
  refine .bind ?_ fun w _ => ?_
  · split
    · intro h; cases h
    · split <;> exact .ok _
  · split <;> exact .ok _

theorem Spec.SmallSegs.mono {k : Nat} {S S' : List (Point × Point)} (h : SmallSegs k S) (hs : ∀ s ∈ S', s ∈ S ∨ s.swap ∈ S)
    (hl : S'.length ≤ S.length) : SmallSegs k S' := by
  refine ⟨fun s hm => ?_, lt_of_le_of_lt (Nat.mul_le_mul_right _ hl) h.2⟩
  rcases hs s hm with h1 | h1
  · exact h.1 s h1
  · exact (h.1 _ h1).symm

theorem sidedSegs_paths (bs : List Bound) : (sidedSegs bs).map (·.1) = (pathsIn bs).flatMap segs := by
  unfold sidedSegs pathsIn
  rw [List.map_flatMap, List.flatMap_map]
  simp [Function.comp_def]

theorem wound_segs {δ : Type} (t : Topology δ) (order : WindingOrder) (ring : TopoRing) :
    ((∀ s ∈ (sidedSegs (wound t order ring)).map (·.1), s ∈ (pathsOf t ring).flatMap segs ∨ s.swap ∈ (pathsOf t ring).flatMap segs)) ∧
      (sidedSegs (wound t order ring)).length = ((pathsOf t ring).flatMap segs).length := by
  have hp : pathsIn (bounds t ring) = pathsOf t ring := by simp [pathsIn, bounds, pathsOf]
  have hl : ∀ bs, (sidedSegs bs).length = ((pathsIn bs).flatMap segs).length := by
    intro bs; rw [← sidedSegs_paths, List.length_map]
  rw [sidedSegs_paths, hl]
  unfold wound
  split
  · rw [hp]; exact ⟨fun s h => .inl h, rfl⟩
  · have ht : pathsIn (turned (bounds t ring)) = ((pathsOf t ring).map List.reverse).reverse := by
      rw [← hp]; simp [pathsIn, turned, Function.comp_def]
    rw [ht]
    constructor
    · intro s hs
      obtain ⟨l, hl, hs⟩ := List.mem_flatMap.mp hs
      obtain ⟨l', hl', rfl⟩ := List.mem_map.mp (List.mem_reverse.mp hl)
      rw [segs_reverse, List.mem_reverse, List.mem_map] at hs
      obtain ⟨s', hs', rfl⟩ := hs
      exact .inr (List.mem_flatMap.mpr ⟨l', hl', hs'⟩)
    · rw [List.length_flatMap, List.length_flatMap, List.map_reverse, List.sum_reverse, List.map_map]
      congr 1
      refine List.map_congr_left fun l _ => ?_
      simp [segs_reverse]

theorem boundary_segs {δ : Type} (t : Topology δ) (order : WindingOrder) (rings : List TopoRing) :
    (∀ s ∈ (boundary t order rings).map (·.1), s ∈ (rings.flatMap fun ring => (pathsOf t ring).flatMap segs) ∨
      s.swap ∈ rings.flatMap fun ring => (pathsOf t ring).flatMap segs) ∧
    (boundary t order rings).length ≤ (rings.flatMap fun ring => (pathsOf t ring).flatMap segs).length := by
  have hsub : ∀ ring, (sidedSegs ((wound t order ring).filter Bound.separates)).Sublist (sidedSegs (wound t order ring)) := by
    intro ring
    unfold sidedSegs
    exact List.Sublist.flatMap List.filter_sublist _
  constructor
  · intro s hs
    obtain ⟨x, hx, rfl⟩ := List.mem_map.mp hs
    obtain ⟨ring, hr, hx⟩ := List.mem_flatMap.mp hx
    rcases (wound_segs t order ring).1 x.1 (List.mem_map_of_mem ((hsub ring).subset hx)) with h | h
    · exact .inl (List.mem_flatMap.mpr ⟨ring, hr, h⟩)
    · exact .inr (List.mem_flatMap.mpr ⟨ring, hr, h⟩)
  · unfold boundary
    induction rings with
    | nil => simp
    | cons ring rings ih =>
      rw [List.flatMap_cons, List.flatMap_cons, List.length_append, List.length_append]
      have := (hsub ring).length_le
      rw [(wound_segs t order ring).2] at this
      omega

theorem normalizeRing_small {δ : Type} (m : Build) {k : Nat} {t : Topology δ} (hb : BackPointersExact t) (hc : RingsClosed t)
    {order : WindingOrder} {ring : TopoRing} (hr : ring ∈ allRings t) (h : SmallSegs k ((pathsOf t ring).flatMap segs)) :
    Stays (normalizeRing m t order ring) := by
  have hclosed := closed_pathsOf hc hr
  rw [← npts_nedges] at hclosed
  obtain ⟨j, hj, j1, j2, -⟩ := joinRelatedEdges_closed hclosed
  rw [normalizeRing, withDirectedEdges_eq hb (mem_allDirectedEdges_of_ring hr), ok_bind,
    show ring.directedEdges.map (nedge t) = nedges t ring from rfl, hj, ok_bind]
  have hp : ((npts j).flatMap segs).Perm ((pathsOf t ring).flatMap segs) := by
    rw [← nsegs_fst, ← npts_nedges, ← nsegs_fst]
    exact j2.perm.map _
  refine .bind (windEdges_small m (h.sub hp.subset hp.length_eq.le)) fun w hw => ?_
  obtain ⟨-, w2⟩ := windEdges_ok hw
  have hwc : ClosedRing (npts w) := by
    rw [w2]; split
    · exact j1
    · rw [npts_nturned]; exact closedRing_reverse j1
  obtain ⟨r, hr1, -⟩ := rotateEdges_ok hwc
  rw [hr1]
  exact .ok _

theorem normalizeRings_small {δ : Type} (m : Build) {k : Nat} {t : Topology δ} (hb : BackPointersExact t) (hc : RingsClosed t)
    {order : WindingOrder} {rings : List TopoRing} (hr : ∀ ring ∈ rings, ring ∈ allRings t)
    (h : SmallSegs k (rings.flatMap fun ring => (pathsOf t ring).flatMap segs)) : Stays (normalizeRings m t order rings) := by
  induction rings with
  | nil => exact .ok _
  | cons r rest ih =>
    rw [List.flatMap_cons] at h
    exact .bind (normalizeRing_small m hb hc (hr r (by simp)) h.onLeft) fun _ _ =>
      .bind (ih (fun x hx => hr x (by simp [hx])) h.onRight) fun _ _ => .ok _

theorem normalizeRegionRings_small {δ : Type} (m : Build) {k : Nat} {t : Topology δ} (hb : BackPointersExact t) (hc : RingsClosed t)
    {order : WindingOrder} {rings : List TopoRing} (hr : ∀ ring ∈ rings, ring ∈ allRings t)
    (h : SmallSegs k (rings.flatMap fun ring => (pathsOf t ring).flatMap segs)) :
    Stays (normalizeRegionRings m t rings order) ∧
      ∀ out, normalizeRegionRings m t rings order = .ok out → ∀ ring ∈ out, SmallSegs k (ringSegs ring) := by
  constructor
  · unfold normalizeRegionRings normalizeRegionNormRings
    refine .bind (.bind (normalizeRings_small m hb hc hr h) fun ns h1 => ?_) fun _ _ => .ok _
    have hns := normalizeRings_ok hb hc hr h1
    refine .bind ?_ fun joined h2 => ?_
    · intro he
      have := joinAdjacentRings_error (fun r hr => by
        obtain ⟨x, _, hx⟩ := forall₂_exists_left hns hr
        exact hx.nice.closed) he
      cases this
    · obtain ⟨merged, had⟩ := joinAdjacentRings_ok h2
      obtain ⟨out, ho⟩ := sortRings_total (rings := joined) (by
        intro r hr
        rcases List.mem_append.mp (had.parts.mem_iff.mp hr) with h | h
        · obtain ⟨x, _, hx⟩ := forall₂_exists_left hns (List.mem_of_mem_filter h)
          exact hx.nice.closed
        · exact (had.nice r h).closed)
      rw [ho]
      exact .ok _
  · intro out ho ring hring
    obtain ⟨ns, h1, rfl⟩ := normalizeRegionRings_ok ho
    obtain ⟨_, _, hn⟩ := normalizeRegionNormRings_ok hb hc hr h1
    obtain ⟨r, hrm, rfl⟩ := List.mem_map.mp hring
    have hb := boundary_segs t order rings
    have hsub : (nsegs r).Sublist (ns.flatMap nsegs) := by
      clear hn h1 ho hring
      induction ns with
      | nil => cases hrm
      | cons a ns ih =>
        rw [List.flatMap_cons]
        rcases List.mem_cons.mp hrm with rfl | h
        · exact List.sublist_append_left _ _
        · exact (ih h).trans (List.sublist_append_right _ _)
    have he : ringSegs (normRingToRing r) = (nsegs r).map (·.1) := by
      rw [nsegs_fst]; rfl
    rw [he]
    refine h.mono (fun s hs => ?_) ?_
    · obtain ⟨x, hx, rfl⟩ := List.mem_map.mp hs
      exact hb.1 x.1 (List.mem_map_of_mem (hn.segs.subset (hsub.subset hx)))
    · rw [List.length_map]
      exact le_trans hsub.length_le (le_trans hn.segs.length_eq.le hb.2)

theorem normalizeLoop_small {δ : Type} (m : Build) {k : Nat} {t : Topology δ} (hb : BackPointersExact t) (hc : RingsClosed t)
    (b : TopologyBuilder δ) {rs : List (TopoRegion δ)} (hr : ∀ r ∈ rs, r ∈ t.regions)
    (h : ∀ r ∈ rs, SmallSegs k (topoRegionSegs t r)) : Stays (normalizeLoop m t b rs) := by
  induction rs generalizing b with
  | nil => exact .ok _
  | cons r rs ih =>
    have hs := h r (by simp)
    unfold topoRegionSegs at hs
    rw [List.flatMap_append] at hs
    have ho := normalizeRegionRings_small m hb hc (order := .clockwise) (mem_allRings_outer (hr r (by simp))) hs.onLeft
    have hi := normalizeRegionRings_small m hb hc (order := .counterClockwise) (mem_allRings_inner (hr r (by simp))) hs.onRight
    refine .bind (.bind ho.1 fun _ _ => .bind hi.1 fun _ _ => .ok _) fun region he => ?_
    obtain ⟨outer, ho', he⟩ := bind_ok.mp he
    obtain ⟨inner, hi', he⟩ := bind_ok.mp he
    obtain rfl := Except.ok.inj he
    refine .bind (addRegion_small m b (k := k) fun ring hm => ?_) fun _ _ => ih _ (fun r hm => hr r (by simp [hm])) fun r hm => h r (by simp [hm])
    rcases List.mem_append.mp hm with hm | hm
    · exact ho.2 _ ho' ring hm
    · exact hi.2 _ hi' ring hm

theorem intoTopology_stays {δ : Type} (m : Build) (rs : List (Region δ)) (b : TopologyBuilder δ)
    (h : TopologyBuilder.new.addRegions m rs = .ok b) : Stays b.intoTopology := by
  intro he
  rcases em (∃ p, 3 ≤ ((allPaths rs).filter fun e => stored e = p).length) with h3 | h3
  · have := (C12_into_topology m rs b h).1 h3
    rw [this] at he; cases he
  · obtain ⟨t, ht⟩ := (C12_into_topology m rs b h).2 fun p => by
      by_contra hn
      exact h3 ⟨p, by omega⟩
    rw [ht] at he; cases he

theorem buildTopology_small {δ : Type} (m : Build) {k : Nat} {rs : List (Region δ)}
    (h : ∀ r ∈ rs, ∀ ring ∈ r.outerRings ++ r.innerRings, SmallSegs k (ringSegs ring)) : Stays (buildTopology m rs) :=
  .bind (addRegions_small m _ h) fun b hb => intoTopology_stays m rs b hb

theorem normalize_small {δ : Type} (m : Build) {k : Nat} {t : Topology δ} (hb : BackPointersExact t) (hc : RingsClosed t)
    (h : ∀ r ∈ t.regions, SmallSegs k (topoRegionSegs t r)) : Stays (normalize m t) := by
  refine .bind (normalizeLoop_small m hb hc _ (fun _ h => h) h) fun b hb => ?_
  obtain ⟨rs, -, h⟩ := normalizeLoop_ok.mp hb
  exact intoTopology_stays m rs b h

end TopoGeo
