import Verif.Spec.Pipeline
import Verif.Proofs.EvenOdd
import Verif.Props.ClipTopology
import Verif.Props.SimplifyTopology
/-!
# Combining the operations
-/

namespace TopoGeo

open Spec

/-! ## C82 -/

/-- What comes out of a start that is not inside begins with two different
points. -/
theorem clipRest_two {m : Build} {mask : ClipMask} {prev : Point} {pts l : List Point} (hp : depth mask prev ≤ 0)
    (h : clipRest m mask prev none pts = .ok l) : l = [] ∨ ∃ x q l', l = x :: q :: l' ∧ x ≠ q := by
  induction pts generalizing prev l with
  | nil => exact Or.inl (Except.ok.inj h).symm
  | cons q rest ih =>
    rw [clipRest] at h
    by_cases q0 : depth mask q = 0
    · rw [if_pos q0, if_neg (by omega)] at h
      exact ih (by omega) h
    · rw [if_neg q0] at h
      by_cases q1 : 0 < depth mask q
      · rw [if_pos q1] at h
        by_cases p1 : depth mask prev < 0
        · rw [if_pos p1, bind_ok] at h
          obtain ⟨x, hx, h⟩ := h
          rw [bind_ok] at h
          obtain ⟨l', _, h⟩ := h
          refine Or.inr ⟨x, q, l', (Except.ok.inj h).symm, ?_⟩
          rintro rfl
          exact q0 (intersect_onLine hx)
        · rw [if_neg p1, if_pos ⟨by omega, by simp⟩, bind_ok] at h
          obtain ⟨l', _, h⟩ := h
          refine Or.inr ⟨prev, q, l', (Except.ok.inj h).symm, ?_⟩
          rintro rfl
          omega
      · rw [if_neg q1, if_neg (by omega)] at h
        exact ih (by omega) h

/-- What is left of an edge that has a length has a length. -/
theorem clipEdge_extended {m : Build} {mask : ClipMask} {e out : List Point} (hz : ¬ ZeroLength e)
    (h : clipEdge m mask e = .ok out) : out = [] ∨ ¬ ZeroLength out := by
  match e with
  | [] => exact absurd (Or.inl (by simp)) hz
  | [p] => exact absurd (Or.inl (by simp)) hz
  | p :: q :: rest =>
    rw [clipEdge_eq] at h
    by_cases p1 : 0 < depth mask p
    · rw [if_pos p1, bind_ok] at h
      obtain ⟨l, hl, h⟩ := h
      obtain rfl := Except.ok.inj h
      refine Or.inr ?_
      have hne := clipRest_ne_nil p1 hl
      obtain ⟨a, l, rfl⟩ := List.exists_cons_of_ne_nil hne
      rintro (hlen | ⟨c, hc⟩)
      · simp only [List.length_cons] at hlen
        omega
      · simp only [List.cons.injEq] at hc
        obtain ⟨rfl, rfl, rfl⟩ := hc
        -- the second point is the first one, so it is the next point of the edge
        rw [clipRest] at hl
        by_cases q0 : depth mask q = 0
        · rw [if_pos q0, if_pos p1, bind_ok] at hl
          obtain ⟨l', _, hl⟩ := hl
          have := (List.cons.inj (Except.ok.inj hl)).1
          rw [this] at q0
          omega
        · rw [if_neg q0] at hl
          by_cases q1 : 0 < depth mask q
          · rw [if_pos q1, if_neg (by omega), if_neg (by omega), bind_ok] at hl
            obtain ⟨l', hl', hl⟩ := hl
            obtain ⟨rfl, rfl⟩ := List.cons.inj (Except.ok.inj hl)
            cases rest with
            | nil => exact hz (Or.inr ⟨q, rfl⟩)
            | cons r rest => exact clipRest_ne_nil q1 hl' rfl
          · rw [if_neg q1, if_pos p1, bind_ok] at hl
            obtain ⟨x, hx, hl⟩ := hl
            rw [bind_ok] at hl
            obtain ⟨l', _, hl⟩ := hl
            have := (List.cons.inj (Except.ok.inj hl)).1
            have := intersect_onLine hx
            subst x
            omega
    · rw [if_neg p1] at h
      rcases clipRest_two (by omega) h with rfl | ⟨x, y, l', rfl, hxy⟩
      · exact Or.inl rfl
      · refine Or.inr ?_
        rintro (hlen | ⟨c, hc⟩)
        · simp at hlen; omega
        · simp only [List.cons.injEq] at hc
          exact hxy (hc.1.trans hc.2.1.symm)

theorem newKeys_ne {δ : Type} {cs : List (List Point)} {t : Topology δ} {k : Point × Point} (h : k ∈ newKeys cs t) :
    k.1 ≠ k.2 := by
  unfold newKeys at h
  rw [mem_addKeys] at h
  rcases h with h | h
  · simp at h
  · obtain ⟨pc, hpc, hk⟩ := List.mem_filterMap.mp h
    have hring : ∃ ring : TopoRing, pc ∈ clippedPieces cs ring := by
      obtain ⟨r, _, hpc⟩ := List.mem_flatMap.mp hpc
      have aux : ∀ rings : List TopoRing, pc ∈ (rings.map (clippedPieces cs)).flatten →
          ∃ ring : TopoRing, pc ∈ clippedPieces cs ring := by
        intro rings h
        obtain ⟨l, hl, hm⟩ := List.mem_flatten.mp h
        obtain ⟨ring, _, rfl⟩ := List.mem_map.mp hl
        exact ⟨ring, hm⟩
      rcases List.mem_append.mp hpc with h | h
      · exact aux _ h
      · split at h
        · simp at h
        · exact aux _ h
    obtain ⟨ring, hring⟩ := hring
    rcases mem_clippedPieces hring with ⟨de, _, hv⟩ | ⟨p, q, hpq, rfl⟩
    · obtain ⟨rfl, _⟩ := visiblePiece_some hv
      simp at hk
    · by_cases hlt : p < q
      · rw [plugPiece, if_pos hlt] at hk
        obtain rfl := Option.some.inj hk
        exact hpq
      · rw [plugPiece, if_neg hlt] at hk
        obtain rfl := Option.some.inj hk
        exact hpq.symm

/-- C82: clipping a well-formed topology gives a well-formed one: the rings are
closed, the pointers are right, and no edge has length 0. -/
theorem C82_clip {δ : Type} (m : Build) (mask : ClipMask) (t t' : Topology δ) (hw : ∀ e ∈ t.edges, ¬ ZeroLength e.points)
    (h : clipTopology m t mask = .ok t') : WellFormed t' := by
  refine ⟨C33_back_pointers m mask t t' h, C30_closed m mask t t' h, ?_⟩
  obtain ⟨cs, hcs, hf⟩ := clipTopology_ok h
  intro e he
  have hm : e.points ∈ clippedPoints cs t := by
    rw [← (finishTopology_backPointers hf).2.1]; exact List.mem_map_of_mem he
  rcases List.mem_append.mp hm with hm | hm
  · obtain ⟨hm, hne⟩ := List.mem_filter.mp hm
    obtain ⟨e0, he0, hc⟩ := forall₂_exists_left hcs hm
    exact (clipEdge_extended (hw e0 he0) hc).resolve_left (by simpa using hne)
  · obtain ⟨k, hk, hkp⟩ := List.mem_map.mp hm
    rw [← hkp]
    have := newKeys_ne hk
    rintro (hlen | ⟨c, hc⟩)
    · simp at hlen
    · simp only [List.cons.injEq, and_true] at hc
      exact this (hc.1.trans hc.2.symm)

/-- C82: whatever the operations are applied to and in which order, the result
is well-formed: each edge knows the rings that use it, each ring is closed, and
no edge has length 0. -/
theorem C82_well_formed {δ : Type} (m : Build) (t : Topology δ) (h : Made m t) : WellFormed t := by
  induction h with
  | built rs t h closed => exact (wellFormed_of_built h closed).1
  | normalized t t' _ h ih => exact wellFormed_normalize ih h
  | clipped t t' mask _ h ih => exact C82_clip m mask t t' ih.extended h
  | simplified t t' s _ hs h ih => exact C81_well_formed m t t' s hs ih h

theorem simplifyEdges_error {m : Build} {s : Nat} {es : List TopoEdge} {e : Panic} (h : simplifyEdges m s es = .error e) :
    ∃ x ∈ es, simplifyEdge m x.points s = .error e := by
  induction es with
  | nil => simp [simplifyEdges] at h
  | cons x es ih =>
    simp only [simplifyEdges, bind_error] at h
    rcases h with h | ⟨ps, _, h⟩
    · exact ⟨x, by simp, h⟩
    · rcases h with h | ⟨_, _, h⟩
      · obtain ⟨y, hy, h⟩ := ih h
        exact ⟨y, by simp [hy], h⟩
      · cases h

/-- C82: so a further operation panics only with an arithmetic overflow in a
checked build, an assertion or (normalizing) an explicit panic: no index is out
of bounds, no null pointer is followed, and nothing loops for ever. -/
theorem C82_panics {δ : Type} (m : Build) (t : Topology δ) (h : Made m t) (e : Panic) :
    (normalize m t = .error e → (m = .debug ∧ e = .overflow) ∨ e = .assert ∨ e = .explicit) ∧
    (∀ mask, clipTopology m t mask = .error e → (m = .debug ∧ e = .overflow) ∨ e = .assert) ∧
    (∀ s, s ≤ u64Max → simplify m t s = .error e → (m = .debug ∧ e = .overflow) ∨ e = .assert) := by
  have hw := C82_well_formed m t h
  refine ⟨C21_panics m t hw.pointers hw.closed e, fun mask => C36_debug m mask t hw.pointers.2.2 e, ?_⟩
  intro s hs he
  unfold simplify at he
  simp only [bind_error] at he
  rcases he with he | ⟨_, _, he⟩
  · obtain ⟨x, _, he⟩ := simplifyEdges_error he
    rcases C40_panics m x.points s e hs he with ⟨_, h⟩ | ⟨_, h⟩
    · exact Or.inr h
    · exact Or.inl h
  · cases he

/-! ### Simplifying after normalizing -/

/-- In a topology of point rings, normalizing joins no segment with its
reverse. -/
theorem boundary_once {δ : Type} {m : Build} {rs : List (Region δ)} {t : Topology δ} (h : buildTopology m rs = .ok t)
    (hp : ∀ r ∈ rs, ∀ ring ∈ r.outerRings ++ r.innerRings, ∃ ps, ring = .points ps) {r : TopoRegion δ}
    (hr : r ∈ t.regions) {order : WindingOrder} {rings : List TopoRing} (hsub : rings.Sublist (r.outerRings ++ r.innerRings))
    {p q : Point} {s s' : Sides} (h1 : ((p, q), s) ∈ boundary t order rings) (h2 : ((q, p), s') ∈ boundary t order rings) :
    False := by
  have hbp := (buildTopology_facts h).1
  have hwalk := points_walk h hp
  obtain ⟨n, hn⟩ := List.getElem?_of_mem hr
  have hall : ∀ ring ∈ rings, ∀ de ∈ ring.directedEdges, de ∈ regionEdges r := fun ring hring de hde =>
    List.mem_flatMap.mpr ⟨ring, hsub.subset hring, hde⟩
  have hall' : ∀ de ∈ regionEdges r, de ∈ allDirectedEdges t := by
    intro de hde
    obtain ⟨ring, hring, hde⟩ := List.mem_flatMap.mp hde
    exact List.mem_flatMap.mpr ⟨ring, List.mem_flatMap.mpr ⟨r, hr, hring⟩, hde⟩
  -- the edge
  obtain ⟨ring, hring, h1'⟩ := List.mem_flatMap.mp h1
  obtain ⟨b, hb, h1'⟩ := List.mem_flatMap.mp h1'
  obtain ⟨hb, hsep⟩ := List.mem_filter.mp hb
  obtain ⟨d, hd, hds, hdp⟩ := mem_wound hb
  obtain ⟨sg, hsg, hsge⟩ := List.mem_map.mp h1'
  obtain rfl : sg = (p, q) := (Prod.mk.inj hsge).1
  have hdall := hall' d (hall ring hring d hd)
  obtain ⟨a, c, hac, hw⟩ := hwalk d hdall
  have hpd : pathOf t d = [a, c] := by simp [pathOf, hw]
  have hcase : (p = a ∧ q = c) ∨ (p = c ∧ q = a) := by
    rcases hdp with e | e
    · rw [e, hpd] at hsg
      left; simpa [segs] using hsg
    · rw [e, hpd] at hsg
      right; simpa [segs] using hsg
  have hpq : p ≠ q := by
    rcases hcase with ⟨rfl, rfl⟩ | ⟨rfl, rfl⟩
    · exact hac
    · exact hac.symm
  have hdp' : pathOf t d = [p, q] ∨ pathOf t d = [q, p] := by
    rw [hpd]
    rcases hcase with ⟨rfl, rfl⟩ | ⟨rfl, rfl⟩ <;> simp
  -- the segment occurs twice
  let P : Point × Point → Bool := either p q
  have htwo : 2 ≤ (boundary t order rings).countP fun s => P s.1 := by
    have hsub : [((p, q), s), ((q, p), s')].Subperm (boundary t order rings) := by
      apply List.subperm_of_subset
      · rw [List.nodup_cons]
        refine ⟨?_, by simp⟩
        simp only [List.mem_cons, List.not_mem_nil, or_false]
        intro he
        exact hpq (Prod.mk.inj (Prod.mk.inj he).1).1
      · intro x hx
        simp only [List.mem_cons, List.not_mem_nil, or_false] at hx
        rcases hx with rfl | rfl
        · exact h1
        · exact h2
    have := hsub.countP_le fun s => P s.1
    simpa [P, either, List.countP_cons] using this
  have hseg : (boundary t order rings).countP (fun s => P s.1) ≤
      (rings.flatMap fun ring => (pathsOf t ring).flatMap segs).countP P := by
    have := countP_boundary t order rings p q
    rw [List.countP_map] at this
    exact this
  have hrings : (rings.flatMap fun ring => (pathsOf t ring).flatMap segs).countP P ≤
      (regionEdges r).countP fun de => pathOf t de = [p, q] ∨ pathOf t de = [q, p] := by
    have aux : ∀ des : List DirectedEdge, (∀ de ∈ des, de ∈ allDirectedEdges t) →
        ((des.map (pathOf t)).flatMap segs).countP P =
        des.countP fun de => pathOf t de = [p, q] ∨ pathOf t de = [q, p] := by
      intro des
      induction des with
      | nil => intro _; rfl
      | cons de des ih =>
        intro hd
        rw [List.map_cons, List.flatMap_cons, List.countP_append, ih fun d hd' => hd d (by simp [hd']), List.countP_cons]
        obtain ⟨a, b, _, hw⟩ := hwalk de (hd de (by simp))
        have hpo : pathOf t de = [a, b] := by simp [pathOf, hw]
        rw [hpo, Nat.add_comm]
        simp [segs, List.countP_cons, P, either]
    have e1 : (rings.flatMap fun ring => (pathsOf t ring).flatMap segs) =
        ((rings.flatMap (·.directedEdges)).map (pathOf t)).flatMap segs := by
      unfold pathsOf
      rw [List.map_flatMap, List.flatMap_assoc]
    rw [e1, aux]
    · exact List.Sublist.countP_le (List.Sublist.flatMap hsub _)
    · intro de hde
      obtain ⟨ring, hring, hde⟩ := List.mem_flatMap.mp hde
      exact hall' de (hall ring hring de hde)
  -- so the region uses the edge twice
  have huses : 2 ≤ usesOf r d.edge := by
    refine Nat.le_trans htwo (Nat.le_trans hseg (Nat.le_trans hrings ?_))
    unfold usesOf
    rw [List.count, List.countP_map]
    apply List.countP_mono_left
    intro d' hd' hp'
    simp only [decide_eq_true_eq] at hp'
    have hd'all := hall' d' hd'
    obtain ⟨a', b', hab', hw'⟩ := hwalk d' hd'all
    have e2 : pathOf t d' = [a', b'] := by simp [pathOf, hw']
    obtain ⟨g1, g2, _⟩ := C10_sharing m rs t h d d' hdall hd'all _ _ hw hw'
    rw [hpd] at hdp'
    rw [e2] at hp'
    simp only [Function.comp, beq_iff_eq]
    by_cases heq : [a', b'] = [a, c]
    · rw [g1 heq]
    · have : ([a', b'] : List Point) = [a, c].reverse := by
        simp at hdp' hp' heq ⊢
        grind
      exact (g2 this (Or.inl (by simp; exact hac))).1.symm
  -- and is on both sides of it
  rw [usesOf_eq hn] at huses
  have hlt := hbp.2.2 d hdall
  have hle := (hbp.1 d.edge _ (List.getElem?_eq_getElem hlt)).1
  have hne : (sides t d.edge).1 ≠ (sides t d.edge).2 := by
    rw [hds]
    simpa [Bound.separates] using hsep
  unfold sides at hne
  match hu : ringsUsing t d.edge with
  | [] => rw [hu] at huses; simp at huses
  | [x] =>
    rw [hu] at huses
    have := List.count_le_length (l := [x].map (·.region)) (a := n)
    simp only [List.length_map, List.length_cons, List.length_nil] at this
    omega
  | [x, y] =>
    rw [hu] at huses hne
    simp only [List.map_cons, List.map_nil, List.count_cons, List.count_nil, beq_iff_eq] at huses
    have hx : x.region = n := by by_contra hc; rw [if_neg hc] at huses; split at huses <;> omega
    have hy : y.region = n := by by_contra hc; rw [if_neg hc] at huses; split at huses <;> omega
    apply hne
    simp [hx, hy]
  | x :: y :: z :: l => rw [hu] at hle; simp at hle

/-- C82: in release builds, a topology that was built from closed rings of points
and normalized can be simplified, with any threshold. -/
theorem C82_points {δ : Type} (m : Build) (rs : List (Region δ)) (t t' : Topology δ) (s : Nat) (hs : s ≤ u64Max)
    (h : buildTopology m rs = .ok t)
    (hp : ∀ r ∈ rs, ∀ ring ∈ r.outerRings ++ r.innerRings, ∃ ps, ring = .points ps)
    (hclosed : ∀ r ∈ rs, ∀ ring ∈ r.outerRings ++ r.innerRings, ringArea ring ≠ 0 → ClosedRing (ringPaths ring))
    (hn : normalize m t = .ok t') : ∃ t'', simplify .release t' s = .ok t'' := by
  rw [C45_release t' s hs]
  obtain ⟨hw, _, _⟩ := wellFormed_of_built h hclosed
  obtain ⟨rs', h1, h2⟩ := normalize_rebuilt hw.pointers hw.closed hn
  intro e he
  have hz := (C09_canonical m rs' t' h1 e he).1
  have hlen : 2 ≤ e.points.length := by
    by_contra hc; exact hz (Or.inl (by omega))
  refine ⟨hlen, ?_⟩
  intro hcl
  by_contra h4
  -- a closed path with three points
  have h3 : ∃ p q, e.points = [p, q, p] := by
    match hpts : e.points with
    | [] => rw [hpts] at hlen; simp at hlen
    | [a] => rw [hpts] at hlen; simp at hlen
    | [a, b] =>
      rw [hpts] at hcl
      simp at hcl
      exact absurd (Or.inr ⟨a, by rw [hpts, hcl]⟩) hz
    | [a, b, c] =>
      rw [hpts] at hcl
      simp at hcl
      exact ⟨a, b, by rw [hcl]⟩
    | a :: b :: c :: d :: l => rw [hpts] at h4; simp at h4
  obtain ⟨p, q, hpts⟩ := h3
  have hm : e.points ∈ keysOf rs' := by
    rw [← (buildTopology_facts h1).2.1]; exact List.mem_map_of_mem he
  unfold keysOf at hm
  obtain ⟨f, hf, hfe⟩ := List.mem_map.mp (mem_firstOccurrences hm)
  have hfp : f = [p, q, p] := by
    rw [hpts] at hfe
    unfold stored at hfe
    split at hfe
    · exact hfe
    · have := congrArg List.reverse hfe
      simpa using this
  -- it comes from a normalized ring
  obtain ⟨k, hk, hfk⟩ := List.mem_flatMap.mp hf
  obtain ⟨r', hr', rfl⟩ := List.mem_map.mp hk
  obtain ⟨r, hr, _, outer, inner, e1, e2, ⟨ns1, m1, g1⟩, ⟨ns2, m2, g2⟩⟩ :=
    forall₂_exists_left h2 (List.mem_of_mem_filter hr')
  have aux : ∀ (out : List NormRing), f ∈ ((keptRings (out.map normRingToRing)).map ringPaths).flatten →
      ∃ s, ((p, q), s) ∈ out.flatMap nsegs ∧ ((q, p), s) ∈ out.flatMap nsegs := by
    intro out hfm
    obtain ⟨l, hl, hfl⟩ := List.mem_flatten.mp hfm
    obtain ⟨ring, hring, rfl⟩ := List.mem_map.mp hl
    obtain ⟨nr, hnr, rfl⟩ := List.mem_map.mp (List.mem_of_mem_filter hring)
    obtain ⟨x, hx, hxf⟩ := List.mem_map.mp (List.mem_of_mem_filter hfl)
    refine ⟨x.regions, ?_, ?_⟩ <;>
    · refine List.mem_flatMap.mpr ⟨nr, hnr, List.mem_flatMap.mpr ⟨x, hx, ?_⟩⟩
      rw [hxf, hfp]
      simp [segs]
  rcases List.mem_append.mp hfk with hfk | hfk
  · simp only [e1] at hfk
    obtain ⟨s, k1, k2⟩ := aux outer hfk
    exact boundary_once h hp hr (List.sublist_append_left _ _) (g1.segs.mem_iff.mp k1) (g1.segs.mem_iff.mp k2)
  · simp only [e2] at hfk
    obtain ⟨s, k1, k2⟩ := aux inner hfk
    exact boundary_once h hp hr (List.sublist_append_right _ _) (g2.segs.mem_iff.mp k1) (g2.segs.mem_iff.mp k2)

/-- A thin triangle and a square. -/
def exSliver : List (Region Nat) :=
  [⟨1, [.points [⟨1, 5⟩, ⟨11, 5⟩, ⟨1, 6⟩, ⟨1, 5⟩]], []⟩,
   ⟨2, [.points [⟨20, 20⟩, ⟨30, 20⟩, ⟨30, 30⟩, ⟨20, 30⟩, ⟨20, 20⟩]], []⟩]

theorem exSliver_closed : ∀ r ∈ exSliver, ∀ ring ∈ r.outerRings ++ r.innerRings, ringArea ring ≠ 0 →
    ClosedRing (ringPaths ring) := by
  simp only [exSliver, List.mem_cons, List.not_mem_nil, or_false, forall_eq_or_imp, forall_eq, List.append_nil]
  decide +kernel

-- non-vacuity: they can be built, normalized and simplified, and the result is
-- one of the topologies of `C82_well_formed`
example : ∃ t1 t2 t3 : Topology Nat, buildTopology .debug exSliver = .ok t1 ∧ normalize .debug t1 = .ok t2 ∧
    simplify .debug t2 1 = .ok t3 ∧ Made .debug t3 ∧
    t3.edges.map (·.points) = [[⟨1, 5⟩, ⟨11, 5⟩, ⟨1, 6⟩, ⟨1, 5⟩], [⟨20, 20⟩, ⟨30, 20⟩, ⟨30, 30⟩, ⟨20, 30⟩, ⟨20, 20⟩]] := by
  let t1 := (buildTopology .debug exSliver).toOption.getD ⟨[], []⟩
  let t2 := (normalize .debug t1).toOption.getD ⟨[], []⟩
  let t3 := (simplify .debug t2 1).toOption.getD ⟨[], []⟩
  have h1 : buildTopology .debug exSliver = .ok t1 := by decide +kernel
  have h2 : normalize .debug t1 = .ok t2 := by decide +kernel
  have h3 : simplify .debug t2 1 = .ok t3 := by decide +kernel
  exact ⟨t1, t2, t3, h1, h2, h3, .simplified t2 t3 1 (.normalized t1 t2 (.built _ t1 h1 exSliver_closed) h2)
    (by decide) h3, by decide +kernel⟩

/-- C82: but with clipping in between, simplifying panics: clipping can leave of
an edge two overlapping segments, which the simplifier takes for a ring with too
few points. -/
theorem C82_refuted : ∃ (rs : List (Region Nat)) (t t1 t2 : Topology Nat) (mask : ClipMask),
    (∀ r ∈ rs, ∀ ring ∈ r.outerRings ++ r.innerRings, ∃ ps, ring = .points ps) ∧
    (∀ r ∈ rs, ∀ ring ∈ r.outerRings ++ r.innerRings, ringArea ring ≠ 0 → ClosedRing (ringPaths ring)) ∧
    buildTopology .debug rs = .ok t ∧ normalize .debug t = .ok t1 ∧ clipTopology .debug t1 mask = .ok t2 ∧
    t2.regions ≠ [] ∧ ∀ m s, simplify m t2 s = .error .assert := by
  let t := (buildTopology .debug exSliver).toOption.getD ⟨[], []⟩
  let t1 := (normalize .debug t).toOption.getD ⟨[], []⟩
  let t2 := (clipTopology .debug t1 (.minX 10)).toOption.getD ⟨[], []⟩
  refine ⟨exSliver, t, t1, t2, .minX 10, ?_, ?_, by decide +kernel, by decide +kernel, by decide +kernel,
    by decide +kernel, ?_⟩
  · simp [exSliver]
  · exact exSliver_closed
  · intro m s
    have h2 : ∃ e es rs, t2 = ⟨rs, ⟨[⟨10, 5⟩, ⟨11, 5⟩, ⟨10, 5⟩], none, none⟩ :: e :: es⟩ :=
      ⟨t2.edges[1]?.getD ⟨[], none, none⟩, t2.edges.drop 2, t2.regions, by decide +kernel⟩
    obtain ⟨e, es, rs, h2⟩ := h2
    rw [h2]
    cases m <;> rfl

end TopoGeo
