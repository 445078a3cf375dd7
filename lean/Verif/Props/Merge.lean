import Verif.Proofs.Merge
import Verif.Proofs.NormalizeClean
import Verif.Props.Canonical
/-!
# C86: merging the polygons of a region
-/

namespace TopoGeo

open Spec
open scoped List

/-- C86: normalizing succeeds only if, for every region, the segments inside of
it (those with the region on both sides) are balanced: as many start at a point
as end there, counted in the outer and in the inner rings separately. -/
theorem C86_needed {δ : Type} (m : Build) (t t' : Topology δ) (hb : BackPointersExact t) (hc : RingsClosed t)
    (h : normalize m t = .ok t') : InsideBalanced t := by
  obtain ⟨rs, _, h2⟩ := normalize_rebuilt hb hc h
  intro r hr
  obtain ⟨r', _, _, outer, inner, _, _, ⟨n1, m1, g1⟩, ⟨n2, m2, g2⟩⟩ := forall₂_exists_right h2 hr
  have key : ∀ (order : WindingOrder) (rings : List TopoRing) (ns out merged : List NormRing),
      NormalizedRings t order rings ns out merged → Balanced (selfSegs t order rings) := by
    intro order rings ns out merged hn
    rw [balanced_iff]
    intro p
    have h1 := net_parts hn.single p
    rw [← net_perm (hn.segs.map (·.1)), net_flatMap_closed fun r hr => (hn.nice r hr).closed] at h1
    omega
  exact ⟨key _ _ _ _ _ g1, key _ _ _ _ _ g2⟩

/-- C86: and that is enough, in release builds, if the rings are closed and have
an area, no boundary of a region leaves a point twice, and no segment is passed
more than twice. -/
theorem C86_merge {δ : Type} (t : Topology δ) (hw : WellFormed t)
    (ha : ∀ ring ∈ allRings t, wrap64 (shoelaceEdges (pathsOf t ring)) ≠ 0)
    (ho : PassedOnce t) (h2 : ∀ p q, passes t p q ≤ 2) :
    (∃ t', normalize .release t = .ok t') ↔ InsideBalanced t := by
  refine ⟨fun ⟨t', h⟩ => C86_needed _ _ _ hw.pointers hw.closed h, fun hs => ?_⟩
  have hrings : ∀ (order : WindingOrder) (rings : List TopoRing), (∀ ring ∈ rings, ring ∈ allRings t) →
      ((boundary t order rings).map (·.1.1)).Nodup → Balanced (selfSegs t order rings) →
      ∃ out, normalizeRegionRings .release t rings order = .ok out := by
    intro order rings hr hnd hbal
    obtain ⟨ns, hns⟩ := normalizeRings_release (order := order) hw.pointers hw.closed hr fun ring h => ha ring (hr ring h)
    have hsg := normalizeRings_ok hw.pointers hw.closed hr hns
    have hx := extended_singles hw hr hsg
    have hcl : ∀ n ∈ ns, ClosedRing (npts n) := by
      intro n hn
      obtain ⟨ring, _, hnr⟩ := forall₂_exists_left hsg hn
      exact hnr.nice.closed
    have hperm := boundary_perm hsg
    obtain ⟨joined, hj⟩ := joinAdjacentRings_total hcl hx (((hperm.map (·.1.1)).nodup_iff).mpr hnd) (by
      intro p
      rw [net_perm (hperm.map (·.1))]
      have h1 := net_parts hsg p
      rw [balanced_iff.mp hbal p] at h1
      omega)
    obtain ⟨merged, had⟩ := joinAdjacentRings_ok hj
    obtain ⟨out, hout⟩ := sortRings_total (rings := joined) (by
      intro r hr
      rcases List.mem_append.mp (had.parts.mem_iff.mp hr) with h | h
      · exact hcl r (List.mem_of_mem_filter h)
      · exact (had.nice r h).closed)
    refine ⟨out.map normRingToRing, ?_⟩
    rw [normalizeRegionRings, normalizeRegionNormRings, hns, ok_bind, hj, ok_bind, hout]
    rfl
  have hregs : ∀ regs : List (TopoRegion δ), (∀ r ∈ regs, r ∈ t.regions) →
      ∃ rs, List.Forall₂ (fun r r' => normalizeRegion .release t r = .ok r') regs rs := by
    intro regs
    induction regs with
    | nil => intro _; exact ⟨[], .nil⟩
    | cons r regs ih =>
      intro hmem
      obtain ⟨rs, hrs⟩ := ih fun x hx => hmem x (by simp [hx])
      have hr := hmem r (by simp)
      obtain ⟨o, ho'⟩ := hrings .clockwise r.outerRings (mem_allRings_outer hr) (ho r hr).1 (hs r hr).1
      obtain ⟨i, hi⟩ := hrings .counterClockwise r.innerRings (mem_allRings_inner hr) (ho r hr).2 (hs r hr).2
      exact ⟨⟨r.data, o, i⟩ :: rs, .cons (by rw [normalizeRegion, ho', ok_bind, hi]; rfl) hrs⟩
  obtain ⟨rs, hrs⟩ := hregs t.regions fun r hr => hr
  obtain ⟨b, hb⟩ := C12_add_region_total rs
  obtain ⟨t', ht'⟩ := (C12_into_topology .release rs b hb).2 (users_le_passes hw.pointers hw.closed hrs h2)
  exact ⟨t', normalize_ok.mpr ⟨rs, hrs, by rw [buildTopology, hb, ok_bind, ht']⟩⟩

theorem balanced_of_swap {l : List (Point × Point)} (h : (l.map Prod.swap).Perm l) : Balanced l := by
  rw [balanced_iff]
  intro p
  have := net_perm h p
  rw [net_swap] at this
  omega

/-! ## Maps without overlaps -/

theorem user_outer {δ : Type} {t : Topology δ} {A : Nat} {r : TopoRegion δ} (hr : t.regions[A]? = some r)
    {ring : TopoRing} (hring : ring ∈ r.outerRings) {de : DirectedEdge} (hde : de ∈ ring.directedEdges) :
    ∃ p ∈ ringsUsing t de.edge, p.region = A ∧ p.inner = false := by
  obtain ⟨k, hk⟩ := List.mem_iff_getElem?.mp hring
  exact ⟨⟨A, false, k⟩, List.mem_flatMap.mpr ⟨(r, A), List.mk_mem_zipIdx_iff_getElem?.mpr hr,
    List.mem_append.mpr (Or.inl (List.mem_flatMap.mpr ⟨(ring, k), List.mk_mem_zipIdx_iff_getElem?.mpr hk,
      List.mem_map.mpr ⟨de, List.mem_filter.mpr ⟨hde, by simp⟩, rfl⟩⟩))⟩, rfl, rfl⟩

theorem user_inner {δ : Type} {t : Topology δ} {A : Nat} {r : TopoRegion δ} (hr : t.regions[A]? = some r)
    {ring : TopoRing} (hring : ring ∈ r.innerRings) {de : DirectedEdge} (hde : de ∈ ring.directedEdges) :
    ∃ p ∈ ringsUsing t de.edge, p.region = A ∧ p.inner = true := by
  obtain ⟨k, hk⟩ := List.mem_iff_getElem?.mp hring
  exact ⟨⟨A, true, k⟩, List.mem_flatMap.mpr ⟨(r, A), List.mk_mem_zipIdx_iff_getElem?.mpr hr,
    List.mem_append.mpr (Or.inr (List.mem_flatMap.mpr ⟨(ring, k), List.mk_mem_zipIdx_iff_getElem?.mpr hk,
      List.mem_map.mpr ⟨de, List.mem_filter.mpr ⟨hde, by simp⟩, rfl⟩⟩))⟩, rfl, rfl⟩

/-- If all users of an edge are outer (inner) rings of one region, then all its
uses are found there. -/
theorem users_role {δ : Type} {t : Topology δ} {A i : Nat} {r : TopoRegion δ} (hr : t.regions[A]? = some r)
    {inner : Bool} (h : ∀ p ∈ ringsUsing t i, p.region = A ∧ p.inner = inner) :
    (((if inner then r.innerRings else r.outerRings).flatMap (·.directedEdges)).filter (·.edge = i)).length =
      (ringsUsing t i).length := by
  rw [← allDirectedEdges_count, ← List.countP_eq_length_filter]
  obtain ⟨hlt, hget⟩ := List.getElem?_eq_some_iff.mp hr
  have hsplit : t.regions = t.regions.take A ++ r :: t.regions.drop (A + 1) := by
    rw [← hget, List.getElem_cons_drop, List.take_append_drop]
  have hzero : ∀ rings : List TopoRing, (∀ ring ∈ rings, ∀ de ∈ ring.directedEdges, de.edge ≠ i) →
      (rings.flatMap (·.directedEdges)).countP (·.edge = i) = 0 := by
    intro rings hz
    rw [List.countP_eq_zero]
    intro de hde
    obtain ⟨ring, h1, h2⟩ := List.mem_flatMap.mp hde
    simpa using hz ring h1 de h2
  have hother : ∀ (k : Nat) (r' : TopoRegion δ), t.regions[k]? = some r' → k ≠ A →
      ∀ ring ∈ r'.outerRings ++ r'.innerRings, ∀ de ∈ ring.directedEdges, de.edge ≠ i := by
    intro k r' hk hne ring hring de hde he
    obtain ⟨p, hp, hpA⟩ := mem_ringsUsing.mpr ⟨r', ring, de, hk, hring, hde, he⟩
    exact hne (hpA.symm.trans (h p hp).1)
  have hall : (allDirectedEdges t).countP (·.edge = i) =
      ((r.outerRings ++ r.innerRings).flatMap (·.directedEdges)).countP (·.edge = i) := by
    unfold allDirectedEdges allRings
    rw [hsplit, List.flatMap_append, List.flatMap_cons, List.flatMap_append, List.flatMap_append, List.countP_append,
      List.countP_append, hzero (List.flatMap _ (t.regions.take A)), hzero (List.flatMap _ (t.regions.drop (A + 1)))]
    · omega
    · intro ring hring
      obtain ⟨r', hr', hring⟩ := List.mem_flatMap.mp hring
      obtain ⟨k, hk⟩ := List.mem_iff_getElem?.mp hr'
      rw [List.getElem?_drop] at hk
      exact hother _ r' hk (by omega) ring hring
    · intro ring hring
      obtain ⟨r', hr', hring⟩ := List.mem_flatMap.mp hring
      obtain ⟨k, hk⟩ := List.mem_iff_getElem?.mp hr'
      have hkA : k < A := by
        have := (List.getElem?_eq_some_iff.mp hk).1
        rw [List.length_take] at this
        omega
      rw [List.getElem?_take_of_lt hkA] at hk
      exact hother k r' hk (by omega) ring hring
  rw [hall, List.flatMap_append, List.countP_append]
  cases inner with
  | false =>
    rw [hzero r.innerRings]
    · rfl
    · intro ring hring de hde he
      obtain ⟨p, hp, _, hpi⟩ := user_inner hr hring hde
      rw [he] at hp
      rw [(h p hp).2] at hpi
      cases hpi
  | true =>
    rw [hzero r.outerRings, Nat.zero_add]
    · rfl
    · intro ring hring de hde he
      obtain ⟨p, hp, _, hpi⟩ := user_outer hr hring hde
      rw [he] at hp
      rw [(h p hp).2] at hpi
      cases hpi

theorem selfSegs_uses {δ : Type} {t : Topology δ} {order : WindingOrder} {rings : List TopoRing} {de : DirectedEdge}
    (hlt : de.edge < t.edges.length) (hself : (sides t de.edge).1 = (sides t de.edge).2) {p q : Point}
    (hs : (p, q) ∈ segs (pathOf t de) ∨ (q, p) ∈ segs (pathOf t de)) :
    ((rings.flatMap (·.directedEdges)).filter (·.edge = de.edge)).length ≤ (selfSegs t order rings).countP (either p q) := by
  have hpath : ∀ d : DirectedEdge, d.edge = de.edge → pathOf t d = pathOf t de ∨ pathOf t d = (pathOf t de).reverse := by
    intro d hd
    unfold pathOf walk
    rw [hd, List.getElem?_eq_getElem hlt]
    simp only [Option.map_some, Option.getD_some]
    cases de.direction <;> cases d.direction <;> simp
  have hex : ∃ s ∈ segs (pathOf t de), either p q s = true := by
    rcases hs with h | h
    · exact ⟨_, h, by simp [either]⟩
    · exact ⟨_, h, by simp [either]⟩
  have hrev : ∀ l : List Point, (∃ s ∈ segs l, either p q s = true) → ∃ s ∈ segs l.reverse, either p q s = true := by
    rintro l ⟨s, h1, h2⟩
    refine ⟨s.swap, ?_, ?_⟩
    · rw [segs_reverse]
      exact List.mem_reverse.mpr (List.mem_map_of_mem h1)
    · obtain ⟨a, b⟩ := s
      simp only [either, decide_eq_true_eq, Prod.swap_prod_mk, Prod.mk.injEq] at h2 ⊢
      rcases h2 with ⟨rfl, rfl⟩ | ⟨rfl, rfl⟩ <;> simp
  have hex' : ∀ d : DirectedEdge, d.edge = de.edge → ∃ s ∈ segs (pathOf t d), either p q s = true := by
    intro d hd
    rcases hpath d hd with h | h
    · rw [h]; exact hex
    · rw [h]; exact hrev _ hex
  have hring : ∀ ring : TopoRing, (ring.directedEdges.filter (·.edge = de.edge)).length ≤
      ((sidedSegs ((wound t order ring).filter fun b => !b.separates)).map (·.1)).countP (either p q) := by
    intro ring
    have aux : ∀ (g : List Point → List Point) (des : List DirectedEdge),
        (∀ l, (∃ s ∈ segs l, either p q s = true) → ∃ s ∈ segs (g l), either p q s = true) →
        (des.filter (·.edge = de.edge)).length ≤
        ((sidedSegs ((des.map fun d => (⟨g (pathOf t d), sides t d.edge⟩ : Bound)).filter fun b => !b.separates)).map
          (·.1)).countP (either p q) := by
      intro g des hg
      have : ((sidedSegs ((des.map fun d => (⟨g (pathOf t d), sides t d.edge⟩ : Bound)).filter fun b => !b.separates)).map
          (·.1)) = des.flatMap fun d => if (sides t d.edge).1 = (sides t d.edge).2 then segs (g (pathOf t d)) else [] := by
        clear hg
        induction des with
        | nil => rfl
        | cons d des ih =>
          rw [List.map_cons, List.filter_cons, List.flatMap_cons, ← ih]
          by_cases h : (sides t d.edge).1 = (sides t d.edge).2
          · rw [if_pos (by simp [Bound.separates, h]), if_pos h]
            simp [sidedSegs, Function.comp_def]
          · rw [if_neg (by simp [Bound.separates, h]), if_neg h, List.nil_append]
      rw [this]
      refine length_filter_le_countP _ _ _ _ ?_
      intro d _ hd
      have hd : d.edge = de.edge := by simpa using hd
      rw [if_pos (by rw [hd]; exact hself)]
      exact hg _ (hex' d hd)
    unfold wound
    split
    · exact aux id _ fun _ h => h
    · have := aux List.reverse ring.directedEdges.reverse hrev
      rw [List.filter_reverse, List.length_reverse] at this
      unfold turned bounds
      rw [List.map_map, ← List.map_reverse]
      exact this
  unfold selfSegs
  induction rings with
  | nil => simp
  | cons ring rings ih =>
    rw [List.flatMap_cons, List.filter_append, List.length_append, List.flatMap_cons, List.map_append, List.countP_append]
    exact Nat.add_le_add (hring ring) ih

theorem selfSegs_cancel {δ : Type} {t : Topology δ} (hb : BackPointersExact t)
    (ho : ((walks t).flatMap fun w => w.2.map (·.1)).Nodup) (hm : MeetsAlike t) {A : Nat} {r : TopoRegion δ}
    (hr : t.regions[A]? = some r) (inner : Bool) (order : WindingOrder)
    (hsub : ((if inner then r.innerRings else r.outerRings).flatMap fun ring =>
      (sidedSegs (wound t order ring)).map (·.1)).Sublist ((walks t).flatMap fun w => w.2.map (·.1))) :
    ((selfSegs t order (if inner then r.innerRings else r.outerRings)).map Prod.swap).Perm
      (selfSegs t order (if inner then r.innerRings else r.outerRings)) := by
  have hmemr : ∀ ring ∈ (if inner then r.innerRings else r.outerRings), ring ∈ r.outerRings ++ r.innerRings := by
    intro ring h
    cases inner <;> simp_all
  have hnodup : (selfSegs t order (if inner then r.innerRings else r.outerRings)).Nodup := by
    refine List.Nodup.sublist (List.Sublist.trans ?_ hsub) ho
    unfold selfSegs
    generalize (if inner then r.innerRings else r.outerRings) = rings
    induction rings with
    | nil => exact List.Sublist.refl _
    | cons ring rings ih =>
      rw [List.flatMap_cons, List.map_append, List.flatMap_cons, sidedSegs_self]
      exact (List.filter_sublist.map _).append ih
  have hclosed : ∀ s ∈ selfSegs t order (if inner then r.innerRings else r.outerRings),
      s.swap ∈ selfSegs t order (if inner then r.innerRings else r.outerRings) := by
    intro s hs
    obtain ⟨a, ha, rfl⟩ := List.mem_map.mp hs
    obtain ⟨ring, hring, ha⟩ := List.mem_flatMap.mp ha
    rw [sidedSegs_self, List.mem_filter] at ha
    obtain ⟨de, hde, hsd, hseg⟩ := walk_segment ha.1
    have hself : (sides t de.edge).1 = (sides t de.edge).2 := by
      have := ha.2
      rw [← hsd]
      simpa [keepSeg] using this
    have hlt := hb.2.2 de (List.mem_flatMap.mpr ⟨ring, List.mem_flatMap.mpr ⟨r, List.mem_of_getElem? hr,
      hmemr ring hring⟩, hde⟩)
    obtain ⟨h2, _, _⟩ := hb.1 _ _ (List.getElem?_eq_getElem hlt)
    have huser : ∃ p ∈ ringsUsing t de.edge, p.region = A ∧ p.inner = inner := by
      cases inner with
      | false => exact user_outer hr hring hde
      | true => exact user_inner hr hring hde
    obtain ⟨u, hu, huA, hui⟩ := huser
    have hlen : (ringsUsing t de.edge).length = 2 ∧ ∀ p ∈ ringsUsing t de.edge, p.region = A := by
      unfold sides at hself
      match hl : ringsUsing t de.edge with
      | [] => rw [hl] at hu; simp at hu
      | [x] => rw [hl] at hself; simp at hself
      | [x, y] =>
        rw [hl] at hself hu
        have hxy : x.region = y.region := by simpa using hself
        refine ⟨rfl, fun p hp => ?_⟩
        simp only [List.mem_cons, List.not_mem_nil, or_false] at hp hu
        rcases hp with rfl | rfl <;> rcases hu with rfl | rfl <;> simp_all
      | x :: y :: z :: l => rw [hl] at h2; simp at h2
    have hcount := users_role (i := de.edge) (inner := inner) hr fun p hp =>
      ⟨hlen.2 p hp, (hm _ p hp u hu ((hlen.2 p hp).trans huA.symm)).trans hui⟩
    have huses := selfSegs_uses (order := order) (rings := if inner then r.innerRings else r.outerRings) hlt hself
      (p := a.1.1) (q := a.1.2) hseg
    rw [hcount, hlen.1] at huses
    exact (both_of_two hnodup huses).2
  refine (List.perm_ext_iff_of_nodup (hnodup.map Prod.swap_injective) hnodup).mpr fun s => ?_
  constructor
  · intro h
    obtain ⟨s', hs', rfl⟩ := List.mem_map.mp h
    exact hclosed s' hs'
  · intro h
    exact List.mem_map.mpr ⟨s.swap, hclosed s h, Prod.swap_swap s⟩

/-- C86: if no two rings have area on the same side of a segment, and regions
meet themselves only where two of their outer rings or two of their inner rings
meet, then what lies inside of regions is walked both ways. So it is balanced. -/
theorem C86_cancel {δ : Type} (t : Topology δ) (hb : BackPointersExact t)
    (ho : ((walks t).flatMap fun w => w.2.map (·.1)).Nodup) (hm : MeetsAlike t) :
    InsideBalanced t ∧ ∀ r ∈ t.regions,
      ((selfSegs t .clockwise r.outerRings).map Prod.swap).Perm (selfSegs t .clockwise r.outerRings) ∧
      ((selfSegs t .counterClockwise r.innerRings).map Prod.swap).Perm (selfSegs t .counterClockwise r.innerRings) := by
  have key : ∀ r ∈ t.regions,
      ((selfSegs t .clockwise r.outerRings).map Prod.swap).Perm (selfSegs t .clockwise r.outerRings) ∧
      ((selfSegs t .counterClockwise r.innerRings).map Prod.swap).Perm (selfSegs t .counterClockwise r.innerRings) := by
    intro r hr
    obtain ⟨A, hA⟩ := List.mem_iff_getElem?.mp hr
    have hin : ((r.outerRings.map fun ring => (A, sidedSegs (wound t .clockwise ring))) ++
        (r.innerRings.map fun ring => (A, sidedSegs (wound t .counterClockwise ring)))).Sublist (walks t) := by
      unfold walks
      rw [List.flatMap_def]
      exact List.sublist_flatten_of_mem (List.mem_map.mpr ⟨(r, A), List.mk_mem_zipIdx_iff_getElem?.mpr hA, rfl⟩)
    have hfl := hin.flatMap fun w : Nat × List ((Point × Point) × Sides) => w.2.map (·.1)
    rw [List.flatMap_append, List.flatMap_map, List.flatMap_map] at hfl
    exact ⟨selfSegs_cancel hb ho hm hA false .clockwise ((List.sublist_append_left _ _).trans hfl),
      selfSegs_cancel hb ho hm hA true .counterClockwise ((List.sublist_append_right _ _).trans hfl)⟩
  exact ⟨fun r hr => ⟨balanced_of_swap (key r hr).1, balanced_of_swap (key r hr).2⟩, key⟩

/-- C86: so, in release builds, the topology of rings of points is normalized
without a panic if its rings are closed, no two rings have area on the same side
of a segment, regions meet themselves where two outer or two inner rings meet,
and no boundary of a region leaves a point twice. -/
theorem C86_points {δ : Type} (m : Build) (rs : List (Region δ)) (t : Topology δ) (h : buildTopology m rs = .ok t)
    (hp : ∀ r ∈ rs, ∀ ring ∈ r.outerRings ++ r.innerRings, ∃ ps, ring = .points ps)
    (hclosed : ∀ r ∈ rs, ∀ ring ∈ r.outerRings ++ r.innerRings, ringArea ring ≠ 0 → ClosedRing (ringPaths ring))
    (ho : ((walks t).flatMap fun w => w.2.map (·.1)).Nodup) (hm : MeetsAlike t) (h1 : PassedOnce t) :
    ∃ t', normalize .release t = .ok t' := by
  obtain ⟨hw, _, ha⟩ := wellFormed_of_built h hclosed
  exact (C86_merge t hw ha h1 (C21_points_passes m rs t h hp)).mpr (C86_cancel t hw.pointers ho hm).1

/-! ## Examples -/

/-- Three squares in a row, of one region, and a square of another region below
the one in the middle. -/
def exRow : List (Region String) :=
  [⟨"A", [.points [⟨1, 1⟩, ⟨2, 1⟩, ⟨2, 2⟩, ⟨1, 2⟩, ⟨1, 1⟩], .points [⟨3, 1⟩, ⟨3, 2⟩, ⟨2, 2⟩, ⟨2, 1⟩, ⟨3, 1⟩],
      .points [⟨3, 1⟩, ⟨4, 1⟩, ⟨4, 2⟩, ⟨3, 2⟩, ⟨3, 1⟩]], []⟩,
   ⟨"B", [.points [⟨2, 2⟩, ⟨3, 2⟩, ⟨3, 3⟩, ⟨2, 3⟩, ⟨2, 2⟩]], []⟩]
def exRowTopo : Topology String := (buildTopology .debug exRow).toOption.getD ⟨[], []⟩

-- the hypotheses hold, four segments lie inside of the region, and its rings become one
example : buildTopology .debug exRow = .ok exRowTopo ∧
    (∀ r ∈ exRow, ∀ ring ∈ r.outerRings ++ r.innerRings, ringArea ring ≠ 0 → ClosedRing (ringPaths ring)) ∧
    ((walks exRowTopo).flatMap fun w => w.2.map (·.1)).Nodup ∧ PassedOnce exRowTopo ∧
    exRowTopo.regions.map (fun r => (selfSegs exRowTopo .clockwise r.outerRings).length) = [4, 0] ∧
    ((normalize .release exRowTopo).toOption.map fun t => t.regions.map fun r => r.outerRings.length) = some [1, 1] := by
  decide +kernel
example : ∀ r ∈ exRow, ∀ ring ∈ r.outerRings ++ r.innerRings, ∃ ps, ring = Ring.points ps := by
  intro r hr ring hring
  simp only [exRow, List.mem_cons, List.not_mem_nil, or_false] at hr
  rcases hr with rfl | rfl <;> simp at hring
  · rcases hring with rfl | rfl | rfl <;> exact ⟨_, rfl⟩
  · subst hring; exact ⟨_, rfl⟩
example : MeetsAlike exRowTopo := by
  have hin : ∀ i, ∀ a ∈ ringsUsing exRowTopo i, a.inner = false := by
    intro i a ha
    obtain ⟨⟨r, n⟩, hr, h⟩ := List.mem_flatMap.mp ha
    have hnil : r.innerRings = [] := by
      have h0 : ∀ r ∈ exRowTopo.regions, r.innerRings = [] := by decide +kernel
      exact h0 r (List.mem_of_getElem? (List.mk_mem_zipIdx_iff_getElem?.mp hr))
    rcases List.mem_append.mp h with h | h
    · obtain ⟨⟨ring, k⟩, _, h⟩ := List.mem_flatMap.mp h
      obtain ⟨de, _, rfl⟩ := List.mem_map.mp h
      rfl
    · simp [hnil] at h
  intro i a ha b hb _
  rw [hin i a ha, hin i b hb]

/-- A square with a hole that shares a side with it. -/
def exNotch : List (Region String) :=
  [⟨"A", [.points [⟨0, 0⟩, ⟨4, 0⟩, ⟨4, 1⟩, ⟨4, 3⟩, ⟨4, 4⟩, ⟨0, 4⟩, ⟨0, 0⟩]],
    [.points [⟨4, 1⟩, ⟨4, 3⟩, ⟨2, 3⟩, ⟨2, 1⟩, ⟨4, 1⟩]]⟩]
def exNotchTopo : Topology String := (buildTopology .debug exNotch).toOption.getD ⟨[], []⟩

theorem exNotch_built : buildTopology .debug exNotch = .ok exNotchTopo := by decide +kernel

/-- C86: a hole that shares a side with the outer ring of its region makes
normalizing panic, although the boundary leaves each point once. -/
theorem C86_hole_panics : ∃ t : Topology String, (∃ rs, buildTopology .debug rs = .ok t) ∧ WellFormed t ∧ PassedOnce t ∧
    ¬ InsideBalanced t ∧ ∀ m, normalize m t = .error .explicit :=
  ⟨exNotchTopo, ⟨_, exNotch_built⟩, (wellFormed_of_built exNotch_built (by decide +kernel)).1, by decide +kernel, by
    intro h
    have h0 : ∀ r ∈ exNotchTopo.regions, (selfSegs exNotchTopo .clockwise r.outerRings).countP (·.1 = ⟨4, 1⟩) ≠
        (selfSegs exNotchTopo .clockwise r.outerRings).countP (·.2 = ⟨4, 1⟩) := by decide +kernel
    match hr : exNotchTopo.regions with
    | [] => revert hr; decide +kernel
    | r :: _ => exact h0 r (by simp [hr]) ((h r (by simp [hr])).1 _), by
    intro m
    cases m <;> decide +kernel⟩

/-- Two pairs of triangles that touch in a point. -/
def exBowTie : List (Region String) :=
  [⟨"A", [.points [⟨2, 2⟩, ⟨1, 0⟩, ⟨2, 0⟩, ⟨2, 2⟩], .points [⟨2, 2⟩, ⟨2, 0⟩, ⟨3, 0⟩, ⟨2, 2⟩],
      .points [⟨2, 2⟩, ⟨2, 4⟩, ⟨1, 4⟩, ⟨2, 2⟩], .points [⟨2, 2⟩, ⟨3, 4⟩, ⟨2, 4⟩, ⟨2, 2⟩]], []⟩]
def exBowTieTopo : Topology String := (buildTopology .debug exBowTie).toOption.getD ⟨[], []⟩

theorem exBowTie_built : buildTopology .debug exBowTie = .ok exBowTieTopo := by decide +kernel

/-- C86: polygons of a region that touch in a point where others of its polygons
meet make normalizing panic, although what lies inside is walked both ways. -/
theorem C86_touch_panics : ∃ t : Topology String, (∃ rs, buildTopology .debug rs = .ok t) ∧ WellFormed t ∧
    ((walks t).flatMap fun w => w.2.map (·.1)).Nodup ∧
    (∀ r ∈ t.regions, ((selfSegs t .clockwise r.outerRings).map Prod.swap).Perm (selfSegs t .clockwise r.outerRings)) ∧
    ¬ PassedOnce t ∧ ∀ m, normalize m t = .error .explicit :=
  ⟨exBowTieTopo, ⟨_, exBowTie_built⟩, (wellFormed_of_built exBowTie_built (by decide +kernel)).1, by decide +kernel,
    by decide +kernel, by decide +kernel, by
    intro m
    cases m <;> decide +kernel⟩

end TopoGeo
