import Verif.Props.ClipNormalize
import Verif.Props.Exact
/-!
# C126: a map goes through the whole pipeline
-/

namespace TopoGeo
open Spec

/-- An edge that cannot be simplified leads to a point and back. -/
theorem simplifiable_or {l : List Point} (h : ¬ ZeroLength l) : Simplifiable l ∨ ∃ p q, l = [p, q, p] := by
  match l, h with
  | [], h => exact absurd (Or.inl (by simp)) h
  | [p], h => exact absurd (Or.inl (by simp)) h
  | [p, q], h =>
    refine .inl ⟨by simp, fun he => absurd (Or.inr ⟨p, ?_⟩) h⟩
    have : p = q := by simpa using he
    rw [this]
  | [p, q, r], h =>
    by_cases hpr : p = r
    · exact .inr ⟨p, q, by rw [hpr]⟩
    · exact .inl ⟨by simp, fun he => absurd (by simpa using he) hpr⟩
  | _ :: _ :: _ :: _ :: _, _ => exact .inl ⟨by simp, fun _ => by simp⟩

theorem countP_there_and_back (p q : Point) : (segs [p, q, p]).countP (either p q) = 2 := by
  simp [segs, either]

theorem countP_facing (d : Direction) (p q : Point) (l : List Point) :
    (segs (facing d l)).countP (either p q) = (segs l).countP (either p q) := by
  cases d with
  | forward => rfl
  | backward =>
    rw [facing, segs_reverse, List.countP_reverse, List.countP_map]
    refine List.countP_congr fun s _ => ?_
    obtain ⟨u, v⟩ := s
    simp only [Function.comp, either, Prod.swap, decide_eq_true_eq, Prod.mk.injEq]
    tauto

/-- If every edge is used and no region passes a segment twice then every edge can
be simplified. -/
theorem simplifiable_of_once {δ : Type} {t : Topology δ} (hx : ∀ e ∈ t.edges, ¬ ZeroLength e.points)
    (hused : ∀ i < t.edges.length, ∃ de ∈ allDirectedEdges t, de.edge = i)
    (h1 : ∀ r ∈ t.regions, ∀ p q, (topoRegionSegs t r).countP (either p q) ≤ 1) : ∀ e ∈ t.edges, Simplifiable e.points := by
  intro e he
  rcases simplifiable_or (hx e he) with h | ⟨p, q, h⟩
  · exact h
  · exfalso
    obtain ⟨i, hi, hei⟩ := List.mem_iff_getElem.mp he
    obtain ⟨de, hde, hdi⟩ := hused i hi
    obtain ⟨ring, hring, hde⟩ := List.mem_flatMap.mp hde
    obtain ⟨r, hr, hring⟩ := List.mem_flatMap.mp hring
    have hpath : pathOf t de = facing de.direction [p, q, p] := by
      rw [pathOf_facing, hdi, List.getElem?_eq_getElem hi, hei, ← h]
      rfl
    have hsub : (segs (pathOf t de)).Sublist (topoRegionSegs t r) := by
      unfold topoRegionSegs
      rw [List.flatMap_def]
      refine List.Sublist.trans ?_ (List.sublist_flatten_of_mem (List.mem_map_of_mem hring))
      rw [List.flatMap_def]
      exact List.sublist_flatten_of_mem (List.mem_map_of_mem (List.mem_map_of_mem hde))
    have := hsub.countP_le (p := either p q)
    rw [hpath, countP_facing, countP_there_and_back] at this
    have := h1 r hr p q
    omega

theorem used_built {δ : Type} {m : Build} {rs : List (Region δ)} {t : Topology δ} (h : buildTopology m rs = .ok t) :
    ∀ i < t.edges.length, ∃ de ∈ allDirectedEdges t, de.edge = i := by
  intro i hi
  have hne := ((C11_back_pointers m rs t h).2 i _ (List.getElem?_eq_getElem hi)).2
  obtain ⟨x, hx⟩ := List.exists_mem_of_ne_nil _ hne
  obtain ⟨r, ring, de, hr, hring, hde, rfl⟩ := mem_ringsUsing.mp ⟨x, hx, rfl⟩
  exact ⟨de, List.mem_flatMap.mpr ⟨ring, List.mem_flatMap.mpr ⟨r, List.mem_of_getElem? hr, hring⟩, hde⟩, rfl⟩

/-- A border that does not run along itself passes no segment twice. -/
theorem once_count {l : List (Point × Point)} (hm : ∀ s ∈ l, s.1 ≠ s.2) (hp : l.Pairwise fun s s' => ¬ RunsAlong s s')
    (p q : Point) : l.countP (either p q) ≤ 1 := by
  induction l with
  | nil => simp
  | cons a l ih =>
    rw [List.pairwise_cons] at hp
    rw [List.countP_cons]
    have := ih (fun s hs => hm s (List.mem_cons_of_mem _ hs)) hp.2
    by_cases ha : either p q a
    · rw [if_pos ha, List.countP_eq_zero.mpr]
      intro s hs he
      refine hp.1 s hs ?_
      have hself : ∀ s : Point × Point, s.1 ≠ s.2 → RunsAlong s s := by
        intro s hs
        refine ⟨by unfold InLine; ring, by unfold InLine; ring, ?_⟩
        unfold RangesMeet
        by_contra hc
        push Not at hc
        refine hs (point_ext_int ?_ ?_)
        · have := hc.1; omega
        · have := hc.2; omega
      have hma := hself a (hm a (by simp))
      have hsa : s = a ∨ s = a.swap := by
        have h1 : a = (p, q) ∨ a = (q, p) := by simpa [either] using ha
        have h2 : s = (p, q) ∨ s = (q, p) := by simpa [either] using he
        rcases h1 with rfl | rfl <;> rcases h2 with rfl | rfl <;> simp
      rcases hsa with rfl | rfl
      · exact hma
      · exact runsAlong_right hma
    · rw [if_neg ha]
      omega

theorem SegsTurned.count {l l' : List (Point × Point)} (h : SegsTurned l l') (p q : Point) :
    l.countP (either p q) = l'.countP (either p q) := by
  obtain ⟨l1, h1, h2⟩ := h
  rw [h1.countP_eq]
  clear h1
  induction h2 with
  | nil => rfl
  | @cons a b _ _ hab _ ih =>
    rw [List.countP_cons, List.countP_cons, ih]
    congr 2
    rcases hab with rfl | rfl
    · rfl
    · obtain ⟨u, v⟩ := b
      simp only [either, Prod.swap, eq_iff_iff, decide_eq_true_eq, Prod.mk.injEq]
      tauto

/-- C126: in a topology in which no border runs along itself or stays where it is, and
whose edges are all used, all edges can be simplified. -/
theorem C126_simplifies {δ : Type} (t : Topology δ) (s : Nat) (hs : s ≤ u64Max) (hw : WellFormed t)
    (hused : ∀ i < t.edges.length, ∃ de ∈ allDirectedEdges t, de.edge = i) (hd : DrawnTopology t) :
    ∃ t', simplify .release t s = .ok t' :=
  (C45_release t s hs).mpr (simplifiable_of_once hw.extended hused fun r hr => once_count (hd.moves r hr) (hd.once r hr))

/-- C126: the same after clipping, and after normalizing what was clipped. -/
theorem C126_clipped {δ : Type} (mask : ClipMask) (t : Topology δ) (s : Nat) (hs : s ≤ u64Max) (hw : WellFormed t)
    (hused : ∀ i < t.edges.length, ∃ de ∈ allDirectedEdges t, de.edge = i) (hd : DrawnTopology t)
    (honce : PassesOnce mask t) (hapart : CutsApart .release mask t) :
    ∃ t1 t2, clipTopology .release t mask = .ok t1 ∧ normalize .release t1 = .ok t2 ∧
      (∃ u, simplify .release t1 s = .ok u) ∧ ∃ u, simplify .release t2 s = .ok u := by
  obtain ⟨t1, t2, h1, h2, hns, -⟩ := C125_normalizes mask t hw hd honce hapart
  have hw1 := C82_clip .release mask t t1 hw.extended h1
  have hw2 := wellFormed_normalize hw1 h2
  have hc1 := (clipped_counts hw hd honce hapart h1).2.1
  refine ⟨t1, t2, h1, h2, (C45_release t1 s hs).mpr ?_, (C45_release t2 s hs).mpr ?_⟩
  · obtain ⟨cs, hcs, origin, _, g2, g3⟩ := C72_edges .release mask t t1 h1
    have hle := clipped_le_two hw hd honce hapart hcs
    intro e he
    rcases simplifiable_or (hw1.extended e he) with h | ⟨p, q, h⟩
    · exact h
    · exfalso
      obtain ⟨i, hi, hei⟩ := List.mem_iff_getElem.mp he
      have hpts := (g3 i e (by rw [List.getElem?_eq_getElem hi, hei])).1
      have hm := (g2 (origin i)).mp ⟨i, hi, rfl⟩
      cases ho : origin i with
      | plug a b =>
        rw [ho, h] at hpts
        simp [Spec.PieceEdge.points] at hpts
      | kept j =>
        rw [ho] at hm
        obtain ⟨c, h4, h5⟩ := hm
        have hj : j < t.edges.length := by
          rw [hcs.length_eq]; exact (List.getElem?_eq_some_iff.mp h4).1
        obtain ⟨de, hde, rfl⟩ := hused j hj
        obtain ⟨ring, hring, hde⟩ := List.mem_flatMap.mp hde
        obtain ⟨r, hr, hring⟩ := List.mem_flatMap.mp hring
        have hv : visiblePiece cs de = some ⟨.kept de.edge, de.direction⟩ := by
          unfold visiblePiece
          rw [h4, if_neg (by simpa using h5)]
        have hpc : (⟨.kept de.edge, de.direction⟩ : Spec.Piece) ∈ clippedPieces cs ring := by
          have : (⟨.kept de.edge, de.direction⟩ : Spec.Piece) ∈ ring.directedEdges.filterMap (visiblePiece cs) :=
            List.mem_filterMap.mpr ⟨de, hde, hv⟩
          rw [← C31_visible_edges] at this
          exact (List.mem_filter.mp this).1
        have hsum := (hle p q).1 r hr
        have hone : sumAlong (isSeg p q) (Spec.Piece.path cs ⟨.kept de.edge, de.direction⟩) = 2 := by
          rw [sumAlong_isSeg]
          unfold Spec.Piece.path
          rw [countP_facing]
          rw [ho] at hpts
          show (segs (Spec.PieceEdge.points cs (.kept de.edge))).countP _ = 2
          rw [← hpts, h, countP_there_and_back]
        have h6 : 2 ≤ piecesSum (isSeg p q) cs (clippedPieces cs ring) := by
          rw [← hone]
          unfold piecesSum
          rw [List.map_map]
          exact List.single_le_sum (by simp) _ (List.mem_map_of_mem (f := sumAlong (isSeg p q) ∘ Spec.Piece.path cs) hpc)
        have h7 : piecesSum (isSeg p q) cs (clippedPieces cs ring) ≤ ringsSum (isSeg p q) cs (r.outerRings ++ r.innerRings) :=
          List.single_le_sum (by simp) _ (List.mem_map_of_mem (f := fun ring => piecesSum (isSeg p q) cs (clippedPieces cs ring)) hring)
        omega
  · obtain ⟨rs, hb, _⟩ := normalize_rebuilt hw1.pointers hw1.closed h2
    refine simplifiable_of_once hw2.extended (used_built hb) fun r2 hr2 p q => ?_
    have ho : ∀ r ∈ t1.regions, r.outerRings ≠ [] := by
      obtain ⟨cs, _, hf⟩ := C31_regions .release mask t t1 h1
      intro r hr hnil
      obtain ⟨k, hk, _, g, _⟩ := forall₂_exists_left hf hr
      obtain ⟨r0, hr0, rfl⟩ := List.mem_map.mp hk
      have hlen := g.length_eq
      rw [hnil] at hlen
      exact of_decide_eq_true (List.mem_filter.mp hr0).2 (List.length_eq_zero_iff.mp hlen)
    obtain ⟨r1, hr1, ht⟩ := segsTurned_normalized hw1 hns ho h2 r2 hr2
    rw [ht.count]
    exact hc1 r1 hr1 p q

/-- C126: from the regions on. The map is built, normalized, clipped, normalized
again and simplified, and could have been simplified at any time before. -/
theorem C126_pipeline {δ : Type} (mask : ClipMask) (s : Nat) (hs : s ≤ u64Max) (rs : List (Region δ)) (hd : DrawnMap rs)
    (closed : ∀ r ∈ rs, ∀ ring ∈ r.outerRings ++ r.innerRings, ringArea ring ≠ 0 → ClosedRing (ringPaths ring)) :
    ∃ t t1, buildTopology .release rs = .ok t ∧ normalize .release t = .ok t1 ∧
      (∃ u, simplify .release t s = .ok u) ∧ (∃ u, simplify .release t1 s = .ok u) ∧
      (PassesOnce mask t1 → CutsApart .release mask t1 →
        ∃ t2 t3, clipTopology .release t1 mask = .ok t2 ∧ normalize .release t2 = .ok t3 ∧
          (∃ u, simplify .release t2 s = .ok u) ∧ ∃ u, simplify .release t3 s = .ok u) := by
  obtain ⟨t, t1, ht, h1, hdt, hd1, -⟩ := C125_pipeline mask rs hd closed
  obtain ⟨hw, _, _⟩ := wellFormed_of_built ht closed
  have hw1 := wellFormed_normalize hw h1
  obtain ⟨rs', hb, _⟩ := normalize_rebuilt hw.pointers hw.closed h1
  exact ⟨t, t1, ht, h1, C126_simplifies t s hs hw (used_built ht) hdt, C126_simplifies t1 s hs hw1 (used_built hb) hd1,
    fun honce hapart => C126_clipped mask t1 s hs hw1 (used_built hb) hd1 honce hapart⟩

/-- C126: if the coordinates have at most `k` bits, at most 21, and three times the number of
segments times 2^2k is below 2^63, then this holds for both builds. -/
theorem C126_small {δ : Type} (m : Build) (k : Nat) (hk : k ≤ 21) (mask : ClipMask) (s : Nat) (hs : s ≤ u64Max)
    (rs : List (Region δ)) (hd : DrawnMap rs)
    (closed : ∀ r ∈ rs, ∀ ring ∈ r.outerRings ++ r.innerRings, ringArea ring ≠ 0 → ClosedRing (ringPaths ring))
    (hg : ∀ s ∈ givenSegs rs, OnGrid k s.1 ∧ OnGrid k s.2) (h : 3 * (givenSegs rs).length * 2 ^ (2 * k) < 2 ^ 63) :
    ∃ t t1, buildTopology m rs = .ok t ∧ normalize m t = .ok t1 ∧
      (PassesOnce mask t1 → CutsApart .release mask t1 →
        ∃ t2 t3 t4, clipTopology m t1 mask = .ok t2 ∧ normalize m t2 = .ok t3 ∧ simplify m t3 s = .ok t4) := by
  obtain ⟨t, t1, ht, h1, hclip⟩ := C125_small m k (by omega) mask rs hd closed hg h
  refine ⟨t, t1, ht, h1, fun honce hapart => ?_⟩
  obtain ⟨u, u1, hu, hu1, _, _, hrest⟩ := C126_pipeline mask s hs rs hd closed
  have hall := C122_all k (by omega) rs [.normalize, .clip mask, .normalize, .simplify s] closed hg
    (by rw [show clips [.normalize, .clip mask, .normalize, .simplify s] = 1 from rfl]; simpa [Nat.mul_comm] using h)
    (by simp only [List.mem_cons, reduceCtorEq, Operation.simplify.injEq, List.not_mem_nil, or_false, false_or]
        rintro s rfl
        exact ⟨hk, hs⟩)
  have hsame : ∀ {α : Type} {f g : R α}, StopsOrSame f g → ∀ {a b}, f = .ok a → g = .ok b → a = b := by
    intro α f g hfg a b hf hg
    rcases hfg with h | h
    · rw [h] at hf; cases hf
    · rw [h, hg] at hf; exact (Except.ok.inj hf).symm
  have e0 : t = u ∧ t1 = u1 := by
    cases m with
    | release =>
      have e0 := Except.ok.inj (ht.symm.trans hu)
      subst e0
      exact ⟨rfl, Except.ok.inj (h1.symm.trans hu1)⟩
    | debug =>
      have e0 := hsame (.bind (addRegions_checked _ _) fun _ => .refl _ :
        StopsOrSame (buildTopology .debug rs) (buildTopology .release rs)) ht hu
      subst e0
      exact ⟨rfl, hsame (normalize_checked t) h1 hu1⟩
  obtain ⟨rfl, rfl⟩ := e0
  obtain ⟨t2, t3, h2, h3, _, t4, h4⟩ := hrest honce hapart
  have e : ∀ m t, applyAll m (δ := δ) t [.normalize, .clip mask, .normalize, .simplify s] =
      normalize m t >>= fun t1 => clipTopology m t1 mask >>= fun t2 => normalize m t2 >>= fun t3 =>
        simplify m t3 s >>= fun t4 => .ok t4 := fun _ _ => rfl
  cases m with
  | release => exact ⟨t2, t3, t4, h2, h3, h4⟩
  | debug =>
    have hall := hall.1
    rw [hu, ht, ok_bind, ok_bind, e, e, hu1, h1, ok_bind, ok_bind, h2, ok_bind, h3, ok_bind, h4, ok_bind, bind_ok] at hall
    obtain ⟨v2, hv2, hall⟩ := hall
    rw [bind_ok] at hall
    obtain ⟨v3, hv3, hall⟩ := hall
    rw [bind_ok] at hall
    obtain ⟨v4, hv4, _⟩ := hall
    exact ⟨v2, v3, v4, hv2, hv3, hv4⟩

-- non-vacuity: the square with the hole that another region fills, clipped through the middle
example : DrawnMap exPlainMap ∧
    (∀ r ∈ exPlainMap, ∀ ring ∈ r.outerRings ++ r.innerRings, ringArea ring ≠ 0 → ClosedRing (ringPaths ring)) ∧
    (∀ s ∈ givenSegs exPlainMap, OnGrid 6 s.1 ∧ OnGrid 6 s.2) ∧ 3 * (givenSegs exPlainMap).length * 2 ^ (2 * 6) < 2 ^ 63 ∧
    buildTopology .debug exPlainMap = .ok exPlainTopology ∧ normalize .debug exPlainTopology = .ok exPlainNormal ∧
    PassesOnce (.maxX 15) exPlainNormal ∧ CutsApart .release (.maxX 15) exPlainNormal ∧
    ∀ i < exPlainNormal.edges.length, ∃ de ∈ allDirectedEdges exPlainNormal, de.edge = i :=
  ⟨exPlainMap_drawn, by decide +kernel, by decide +kernel, by decide +kernel, exPlain_built, by decide +kernel,
    passesOnce_of (by decide +kernel), cutsApart_of (by decide +kernel), by decide +kernel⟩

/-! ## None of the conditions can be dropped -/

theorem simplify_fails {δ : Type} (m : Build) (s : Nat) (rs : List (TopoRegion δ)) (p q : Point) (r0 r1 : Option RingPtr)
    (es : List TopoEdge) : simplify m ⟨rs, ⟨[p, q, p], r0, r1⟩ :: es⟩ s = .error .assert := by
  have h : PointHeap.from m [p, q, p] = .error .assert := by simp [PointHeap.from]
  simp [simplify, simplifyEdges, simplifyEdge, h]

/-- An edge that leads to a point and back, and that is not used. -/
def exUnused : Topology Nat := ⟨[], [⟨[⟨10, 10⟩, ⟨20, 10⟩, ⟨10, 10⟩], none, none⟩]⟩

/-- C126: the edges must be used. -/
theorem C126_used_matters : ∃ t : Topology Nat, WellFormed t ∧ DrawnTopology t ∧ ∀ m s, simplify m t s = .error .assert :=
  ⟨exUnused, ⟨⟨fun i e h => by
      match i, h with
      | 0, h => cases h; decide +kernel, by simp [exUnused], by decide +kernel⟩, by simp [RingsClosed, exUnused, allRings], by decide +kernel⟩,
    ⟨by simp [cover, exUnused], by simp [exUnused], by simp [exUnused]⟩, fun m s => simplify_fails m s _ _ _ _ _ _⟩

/-- A triangle with a spur. -/
def exSpur : List (Region Nat) :=
  [⟨1, [.edges [[⟨10, 10⟩, ⟨20, 10⟩, ⟨10, 10⟩], [⟨10, 10⟩, ⟨10, 20⟩, ⟨0, 20⟩, ⟨10, 10⟩]]], []⟩]

/-- A triangle that stays where it begins. -/
def exRest : List (Region Nat) :=
  [⟨1, [.edges [[⟨10, 10⟩, ⟨10, 10⟩, ⟨10, 10⟩], [⟨10, 10⟩, ⟨10, 20⟩, ⟨0, 20⟩, ⟨10, 10⟩]]], []⟩]

/-- C126: borders may not run along themselves. -/
theorem C126_once_matters : ∃ t : Topology Nat, WellFormed t ∧
    (∀ i < t.edges.length, ∃ de ∈ allDirectedEdges t, de.edge = i) ∧ (∀ x y, cover t x y ≤ 1) ∧
    (∀ r ∈ t.regions, ∀ s ∈ topoRegionSegs t r, s.1 ≠ s.2) ∧ ∀ m s, simplify m t s = .error .assert := by
  let t := (buildTopology .debug exSpur).toOption.getD ⟨[], []⟩
  refine ⟨t, wellFormed_built (rs := exSpur) (by decide +kernel) (by decide +kernel), by decide +kernel,
    fun _ _ => List.countP_le_length.trans (by decide +kernel), by decide +kernel, fun m s => ?_⟩
  obtain ⟨rs, r0, r1, es, h⟩ : ∃ rs r0 r1 es, t = ⟨rs, ⟨[⟨10, 10⟩, ⟨20, 10⟩, ⟨10, 10⟩], r0, r1⟩ :: es⟩ :=
    ⟨t.regions, (t.edges[0]?.bind (·.ring0)), (t.edges[0]?.bind (·.ring1)), t.edges.drop 1, by decide +kernel⟩
  rw [h]
  exact simplify_fails m s _ _ _ _ _ _

/-- C126: segments must lead somewhere. -/
theorem C126_moves_matters : ∃ t : Topology Nat, WellFormed t ∧
    (∀ i < t.edges.length, ∃ de ∈ allDirectedEdges t, de.edge = i) ∧ (∀ x y, cover t x y ≤ 1) ∧
    (∀ r ∈ t.regions, (topoRegionSegs t r).Pairwise fun s s' => ¬ RunsAlong s s') ∧
    ∀ m s, simplify m t s = .error .assert := by
  let t := (buildTopology .debug exRest).toOption.getD ⟨[], []⟩
  refine ⟨t, wellFormed_built (rs := exRest) (by decide +kernel) (by decide +kernel), by decide +kernel,
    fun _ _ => List.countP_le_length.trans (by decide +kernel), by decide +kernel, fun m s => ?_⟩
  obtain ⟨rs, r0, r1, es, h⟩ : ∃ rs r0 r1 es, t = ⟨rs, ⟨[⟨10, 10⟩, ⟨10, 10⟩, ⟨10, 10⟩], r0, r1⟩ :: es⟩ :=
    ⟨t.regions, (t.edges[0]?.bind (·.ring0)), (t.edges[0]?.bind (·.ring1)), t.edges.drop 1, by decide +kernel⟩
  rw [h]
  exact simplify_fails m s _ _ _ _ _ _

/-- A region of a thin triangle and a square. -/
def exSliverRegion : List (Region Nat) :=
  [⟨1, [.points [⟨1, 5⟩, ⟨11, 5⟩, ⟨1, 6⟩, ⟨1, 5⟩], .points [⟨20, 20⟩, ⟨30, 20⟩, ⟨30, 30⟩, ⟨20, 30⟩, ⟨20, 20⟩]], []⟩]

/-- C126: clipping may not move crossings to the same point. -/
theorem C126_rounding_matters : ∃ (mask : ClipMask) (t t1 t2 t3 : Topology Nat), WellFormed t ∧
    (∀ i < t1.edges.length, ∃ de ∈ allDirectedEdges t1, de.edge = i) ∧ normalize .debug t = .ok t1 ∧
    DrawnTopology t1 ∧ PassesOnce mask t1 ∧ clipTopology .debug t1 mask = .ok t2 ∧ normalize .debug t2 = .ok t3 ∧
    t3.regions ≠ [] ∧ ∀ m s, simplify m t2 s = .error .assert := by
  let t := (buildTopology .debug exSliverRegion).toOption.getD ⟨[], []⟩
  let t1 := (normalize .debug t).toOption.getD ⟨[], []⟩
  let t2 := (clipTopology .debug t1 (.minX 10)).toOption.getD ⟨[], []⟩
  let t3 := (normalize .debug t2).toOption.getD ⟨[], []⟩
  refine ⟨.minX 10, t, t1, t2, t3, wellFormed_built (rs := exSliverRegion) (by decide +kernel) (by decide +kernel),
    by decide +kernel, by decide +kernel,
    ⟨fun _ _ => List.countP_le_length.trans (by decide +kernel), by decide +kernel, by decide +kernel⟩,
    passesOnce_of (by decide +kernel), by decide +kernel, by decide +kernel, by decide +kernel, fun m s => ?_⟩
  obtain ⟨rs, es, h⟩ : ∃ rs es, t2 = ⟨rs, ⟨[⟨10, 5⟩, ⟨11, 5⟩, ⟨10, 5⟩], none, none⟩ :: es⟩ :=
    ⟨t2.regions, t2.edges.drop 1, by decide +kernel⟩
  rw [h]
  exact simplify_fails m s _ _ _ _ _ _

end TopoGeo
