import Verif.Proofs.BuildSafe
import Verif.Proofs.NormalizeTwice
import Verif.Props.Checked
import Verif.Props.NoOverflow
import Verif.Props.EvenOdd
import Verif.Props.ClipSafe
/-!
# C123: a map without overlaps can be built and normalized
-/

namespace TopoGeo
open Spec

theorem allPaths_segs {δ : Type} (rs : List (Region δ)) :
    (allPaths rs).flatMap segs = partSegs ((keptRegions rs).flatMap (·.rings)) := by
  unfold allPaths partSegs
  rw [List.flatMap_assoc, List.flatMap_assoc]
  congr 1
  funext k
  rw [Spec.KeptRegion.rings, List.flatMap_append, List.flatMap_append, List.flatten_eq_flatMap, List.flatten_eq_flatMap,
    List.flatMap_assoc, List.flatMap_assoc]
  rfl

theorem partSegs_flatten (parts : List (List (List (List Point)))) : partSegs parts.flatten = parts.flatMap partSegs := by
  unfold partSegs
  rw [List.flatten_eq_flatMap, List.flatMap_assoc]
  rfl

theorem Spec.DrawnMap.drawnIn {δ : Type} {rs : List (Region δ)} (h : DrawnMap rs) :
    DrawnIn ((keptRegions rs).map (·.rings)) rs := ⟨h, by rw [← List.flatMap_def]⟩

/-- If no segment is passed three times, no path is used three times. -/
theorem users_of_counts {δ : Type} {rs : List (Region δ)} {l : List (Point × Point)}
    (hcount : ∀ p q, ((allPaths rs).flatMap segs).countP (either p q) = l.countP (either p q))
    (moves : ∀ s ∈ l, s.1 ≠ s.2) (h2 : ∀ p q, p ≠ q → l.countP (either p q) ≤ 2)
    (k : List Point) : ((allPaths rs).filter fun e => stored e = k).length ≤ 2 := by
  by_cases hk : ∃ e ∈ allPaths rs, stored e = k
  · obtain ⟨e, he, hek⟩ := hk
    have hz := not_zeroLength_of_mem_allPaths he
    obtain ⟨p, q, l', hpq⟩ : ∃ p q l', e = p :: q :: l' := by
      match e, hz with
      | [], hz => exact absurd (Or.inl (by simp)) hz
      | [p], hz => exact absurd (Or.inl (by simp)) hz
      | p :: q :: l, _ => exact ⟨p, q, l, rfl⟩
    have hmem : (p, q) ∈ segs e := by rw [hpq]; simp [segs]
    have hne : p ≠ q := by
      have h0 : 0 < l.countP (either p q) := by
        rw [← hcount, List.countP_pos_iff]
        exact ⟨(p, q), List.mem_flatMap.mpr ⟨e, he, hmem⟩, by simp [either]⟩
      obtain ⟨s, hs, hse⟩ := List.countP_pos_iff.mp h0
      have := moves s hs
      rcases (by simpa [either] using hse : s = (p, q) ∨ s = (q, p)) with rfl | rfl
      · exact this
      · exact this.symm
    refine Nat.le_trans (length_filter_le_countP _ segs _ (either p q) ?_) ?_
    · intro f _ hfk
      have hfe : e = f ∨ e = f.reverse := by
        have hfk : stored f = k := by simpa using hfk
        rcases stored_cases e with h1 | h1 <;> rcases stored_cases f with h2 | h2
        · exact .inl (by rw [← h1, hek, ← hfk, h2])
        · exact .inr (by rw [← h1, hek, ← hfk, h2])
        · exact .inr (by rw [← h2, hfk, ← hek, h1, List.reverse_reverse])
        · exact .inl (List.reverse_injective (by rw [← h1, hek, ← hfk, h2]))
      rcases hfe with h | h
      · exact ⟨(p, q), h ▸ hmem, by simp [either]⟩
      · rw [h, segs_reverse, List.mem_reverse] at hmem
        obtain ⟨s, hs, hsw⟩ := List.mem_map.mp hmem
        exact ⟨s, hs, by rw [← either_swap, hsw]; simp [either]⟩
    · rw [hcount]
      exact h2 p q hne
  · have : ((allPaths rs).filter fun e => stored e = k) = [] := by
      rw [List.filter_eq_nil_iff]
      intro e he h
      exact hk ⟨e, he, by simpa using h⟩
    rw [this]; simp

/-- No path is used three times. -/
theorem users_of_drawn {δ : Type} {parts : List (List (List (List Point)))} {rs : List (Region δ)} (hd : DrawnIn parts rs)
    (k : List Point) : ((allPaths rs).filter fun e => stored e = k).length ≤ 2 := by
  obtain ⟨hd, hperm⟩ := hd
  have hsegs : ((allPaths rs).flatMap segs).Perm (parts.flatMap partSegs) := by
    rw [allPaths_segs, ← partSegs_flatten]
    exact hperm.flatMap_right _
  refine users_of_counts (l := parts.flatMap partSegs) (fun p q => hsegs.countP_eq _) ?_ ?_ k
  · intro s hs
    obtain ⟨part, hpart, hs⟩ := List.mem_flatMap.mp hs
    exact hd.moves part hpart _ hs
  · intro p q hne
    exact (segment_le_two hd.closed hd.apart hd.once hne).1

/-- A release build makes a topology if no path is used three times. -/
theorem build_of_users {δ : Type} {rs : List (Region δ)} (h : ∀ k, ((allPaths rs).filter fun e => stored e = k).length ≤ 2) :
    ∃ t, buildTopology .release rs = .ok t ∧
      (buildTopology .debug rs = .ok t ∨ buildTopology .debug rs = .error .overflow) := by
  obtain ⟨b, hb⟩ := C12_add_region_total rs
  obtain ⟨t, ht⟩ := (C12_into_topology .release rs b hb).2 h
  have hr : buildTopology .release rs = .ok t := by rw [buildTopology, hb, ok_bind, ht]
  refine ⟨t, hr, ?_⟩
  rcases (StopsOrSame.bind (addRegions_checked _ _) fun _ => .refl _ :
      StopsOrSame (buildTopology .debug rs) (buildTopology .release rs)) with h | h
  · exact .inr h
  · exact .inl (Eq.trans h hr)

/-- C123: if the rings of regions make up parts that have no point in common and
whose borders do not run along themselves, then a release build makes a topology
of the regions; a debug build makes the same or stops at an overflow. -/
theorem C123_build {δ : Type} (parts : List (List (List (List Point)))) (rs : List (Region δ)) (hd : DrawnIn parts rs) :
    ∃ t, buildTopology .release rs = .ok t ∧
      (buildTopology .debug rs = .ok t ∨ buildTopology .debug rs = .error .overflow) :=
  build_of_users (users_of_drawn hd)

/-! ## Normalizing -/

/-- The topology's regions have the segments that were given. -/
theorem topoRegionSegs_built {δ : Type} {m : Build} {rs : List (Region δ)} {t : Topology δ} (h : buildTopology m rs = .ok t) :
    List.Forall₂ (fun k r => topoRegionSegs t r = partSegs k.rings) (keptRegions rs) t.regions := by
  refine (C07_round_trip m rs t h).imp ?_
  rintro k r ⟨_, h1, h2⟩
  unfold topoRegionSegs partSegs Spec.KeptRegion.rings
  have key : ∀ {ps : List (List (List Point))} {rings : List TopoRing}, List.Forall₂ (ReadsAs t.edges) ps rings →
      (rings.flatMap fun ring => (pathsOf t ring).flatMap segs) = ps.flatMap fun paths => paths.flatMap segs := by
    intro ps rings hf
    induction hf with
    | nil => rfl
    | cons h1 _ ih => rw [List.flatMap_cons, List.flatMap_cons, ih, pathsOf_reads h1]
  rw [List.flatMap_append, List.flatMap_append, key h1, key h2]

theorem topoSegs_built {δ : Type} {m : Build} {rs : List (Region δ)} {t : Topology δ} (h : buildTopology m rs = .ok t) :
    t.regions.flatMap (topoRegionSegs t) = ((keptRegions rs).map (·.rings)).flatMap partSegs := by
  have hf := topoRegionSegs_built h
  rw [List.flatMap_map]
  generalize t.regions = regs at hf
  generalize keptRegions rs = ks at hf
  induction hf with
  | nil => rfl
  | cons h1 _ ih => rw [List.flatMap_cons, List.flatMap_cons, ih, h1]

/-- What remains of `DrawnMap` in the topology. -/
theorem drawn_built {δ : Type} {m : Build} {rs : List (Region δ)} {t : Topology δ} (hd : DrawnMap rs)
    (h : buildTopology m rs = .ok t) :
    (∀ p q, passes t p q ≤ 2) ∧ ∀ r ∈ t.regions, ∀ p q, (topoRegionSegs t r).countP (either p q) ≤ 1 := by
  have hall : ∀ p q, p = q → ((t.regions.flatMap (topoRegionSegs t)).countP (either p q)) = 0 := by
    rintro p q rfl
    rw [List.countP_eq_zero, topoSegs_built h]
    intro s hs hp
    obtain ⟨part, hpart, hs⟩ := List.mem_flatMap.mp hs
    refine hd.moves part hpart s hs ?_
    have : s = (p, p) := by simpa [either] using hp
    rw [this]
  have hpasses : ∀ p q, passes t p q = (t.regions.flatMap (topoRegionSegs t)).countP (either p q) := by
    intro p q
    unfold passes allRings
    rw [List.flatMap_assoc]
    rfl
  constructor
  · intro p q
    rw [hpasses]
    by_cases hpq : p = q
    · rw [hall p q hpq]; omega
    · rw [topoSegs_built h]
      exact (segment_le_two hd.closed hd.apart hd.once hpq).1
  · intro r hr p q
    by_cases hpq : p = q
    · have := hall p q hpq
      rw [List.countP_eq_zero] at this
      rw [List.countP_eq_zero.mpr fun s hs => this s (List.mem_flatMap.mpr ⟨r, hr, hs⟩)]
      omega
    · obtain ⟨k, hk, hkr⟩ := forall₂_exists_left (topoRegionSegs_built h) hr
      rw [hkr]
      exact (segment_le_two hd.closed hd.apart hd.once hpq).2 _ (List.mem_map_of_mem hk)

theorem noSelf_of_once {δ : Type} {t : Topology δ} (hb : BackPointersExact t)
    (hx : ∀ e ∈ t.edges, ¬ ZeroLength e.points)
    (h1 : ∀ r ∈ t.regions, ∀ p q, (topoRegionSegs t r).countP (either p q) ≤ 1) : NoSelfEdges t (allRings t) := by
  intro ring hring de hde heq
  have hall : de ∈ allDirectedEdges t := List.mem_flatMap.mpr ⟨ring, hring, hde⟩
  have hlt := hb.2.2 de hall
  obtain ⟨r, hr, hring⟩ := List.mem_flatMap.mp hring
  obtain ⟨A, hA⟩ := List.mem_iff_getElem?.mp hr
  obtain ⟨x, hx0, hxA⟩ := mem_ringsUsing.mpr ⟨r, ring, de, hA, hring, hde, rfl⟩
  obtain ⟨s, hs⟩ : ∃ s, s ∈ segs (pathOf t de) := by
    have hz : ¬ ZeroLength (pathOf t de) := by
      have h0 := hx _ (List.getElem_mem hlt)
      unfold pathOf walk
      rw [List.getElem?_eq_getElem hlt]
      simp only [Option.map_some, Option.getD_some]
      cases de.direction
      · exact h0
      · rwa [zeroLength_reverse]
    match hp : pathOf t de with
    | [] => exact absurd (Or.inl (by simp [hp])) hz
    | [p] => exact absurd (Or.inl (by simp [hp])) hz
    | p :: q :: l => exact ⟨(p, q), by simp [segs]⟩
  -- the first two users are the same region
  match hu : ringsUsing t de.edge with
  | [] => rw [hu] at hx0; simp at hx0
  | [a] => rw [sides, hu] at heq; simp at heq
  | a :: b :: l =>
    rw [sides, hu] at heq
    have hab : a.region = b.region := by simpa using heq
    obtain ⟨r', ring', de', hA', hr', hde', he'⟩ := mem_ringsUsing.mp ⟨a, by rw [hu]; simp, rfl⟩
    have := regionUsers_le hA' hlt (p := s.1) (q := s.2) (.inl hs)
    have h2 : (TopoGeo.regionSegs t r').countP (either s.1 s.2) ≤ 1 := h1 r' (List.mem_of_getElem? hA') s.1 s.2
    rw [hu, List.countP_cons, List.countP_cons] at this
    simp [hab] at this
    omega

/-- C123: if moreover different parts are different regions, then the topology can
be normalized; no edge has the same region on both sides, and no segment is passed
more than twice. -/
theorem C123_normalize {δ : Type} (rs : List (Region δ)) (hd : DrawnMap rs)
    (closed : ∀ r ∈ rs, ∀ ring ∈ r.outerRings ++ r.innerRings, ringArea ring ≠ 0 → ClosedRing (ringPaths ring)) :
    ∃ t t', buildTopology .release rs = .ok t ∧ normalize .release t = .ok t' ∧
      NoSelfEdges t (allRings t) ∧ (∀ p q, passes t p q ≤ 2) ∧ (∀ x y, cover t x y ≤ 1 ∧ cover t' x y ≤ 1) ∧
      (normalize .debug t = .ok t' ∨ normalize .debug t = .error .overflow) := by
  obtain ⟨t, ht, _⟩ := C123_build _ rs (DrawnMap.drawnIn hd)
  obtain ⟨hw, ho, ha⟩ := wellFormed_of_built ht closed
  obtain ⟨h2, h1⟩ := drawn_built hd ht
  have hs := noSelf_of_once hw.pointers hw.extended h1
  obtain ⟨t', ht'⟩ := C21_release t hw ha hs h2
  have hcover : ∀ x y, cover t x y ≤ 1 := by
    intro x y
    refine le_trans (le_of_eq ?_) (hd.apart x y)
    unfold cover timesCovered
    rw [List.countP_map]
    have hf := topoRegionSegs_built ht
    generalize t.regions = regs at hf
    generalize keptRegions rs = ks at hf
    induction hf with
    | nil => rfl
    | cons h1 _ ih => rw [List.countP_cons, List.countP_cons, ih, h1]; rfl
  refine ⟨t, t', ht, ht', hs, h2, fun x y => ⟨hcover x y, le_trans (le_of_eq ?_) (hcover x y)⟩, ?_⟩
  · have hf := C78_topology .release t t' hw hs ho ht'
    unfold cover
    generalize t.regions = regs at hf
    generalize t'.regions = regs' at hf
    induction hf with
    | nil => rfl
    | cons h1 _ ih => simp only [List.countP_cons, ih, h1.2 x y]
  · rcases normalize_checked t with h | h
    · exact .inr h
    · exact .inl (by rw [h, ht'])

/-- C123: if the coordinates have at most `k` bits and the number of segments times 2^2k
is below 2^63, then this holds for both builds. -/
theorem C123_small {δ : Type} (m : Build) (k : Nat) (hk : k ≤ 31) (rs : List (Region δ)) (hd : DrawnMap rs)
    (closed : ∀ r ∈ rs, ∀ ring ∈ r.outerRings ++ r.innerRings, ringArea ring ≠ 0 → ClosedRing (ringPaths ring))
    (hg : ∀ s ∈ givenSegs rs, OnGrid k s.1 ∧ OnGrid k s.2) (h : (givenSegs rs).length * 2 ^ (2 * k) < 2 ^ 63) :
    ∃ t t', buildTopology m rs = .ok t ∧ normalize m t = .ok t' := by
  obtain ⟨t, t', h1, h2, _⟩ := C123_normalize rs hd closed
  cases m with
  | release => exact ⟨t, t', h1, h2⟩
  | debug =>
    have hall := (C122_all k hk rs [.normalize] closed hg (by simpa [clips] using h) (by simp)).1
    rw [h1, ok_bind] at hall
    have : applyAll .release t [.normalize] = .ok t' := by
      show (normalize .release t >>= fun t' => Except.ok t') = _
      rw [h2, ok_bind]
    rw [this, bind_ok] at hall
    obtain ⟨u, hu, hall⟩ := hall
    have hall : (normalize .debug u >>= fun t' => Except.ok t') = .ok t' := hall
    rw [bind_ok] at hall
    obtain ⟨u', hu', _⟩ := hall
    exact ⟨u, u', hu, hu'⟩

/-! ## Maps that are drawn like that -/

theorem timesCovered_map (parts : List (List (List (List Point)))) (x y : ℚ) :
    timesCovered parts x y = (parts.map partSegs).countP fun l => Encloses l x y := by
  unfold timesCovered
  rw [List.countP_map]
  rfl

/-- A square with a hole that another region fills, and a neighbour whose border
has one point more. -/
def exPlainMap : List (Region String) :=
  [⟨"A", [.points [⟨0, 0⟩, ⟨30, 0⟩, ⟨30, 30⟩, ⟨0, 30⟩, ⟨0, 0⟩]],
     [.points [⟨10, 10⟩, ⟨10, 20⟩, ⟨20, 20⟩, ⟨20, 10⟩, ⟨10, 10⟩]]⟩,
   ⟨"B", [.points [⟨10, 10⟩, ⟨20, 10⟩, ⟨20, 20⟩, ⟨10, 20⟩, ⟨10, 10⟩]], []⟩,
   ⟨"C", [.points [⟨30, 0⟩, ⟨40, 0⟩, ⟨40, 30⟩, ⟨30, 30⟩, ⟨30, 15⟩, ⟨30, 0⟩]], []⟩]

theorem exPlainMap_first (x y : ℚ) (h : Encloses (segs [⟨0, 0⟩, ⟨30, 0⟩, ⟨30, 30⟩, ⟨0, 30⟩, ⟨0, 0⟩] ++
    segs [⟨10, 10⟩, ⟨10, 20⟩, ⟨20, 20⟩, ⟨20, 10⟩, ⟨10, 10⟩]) x y) :
    x < 30 ∧ ¬ (10 ≤ x ∧ x < 20 ∧ 10 ≤ y ∧ y < 20) := by
  revert h
  simp only [segs, List.cons_append, List.nil_append, encloses_cons, not_encloses_none, RayCrosses, Point.xi, Point.yi]
  norm_num
  grind

theorem exPlainMap_second (x y : ℚ) (h : Encloses (segs [⟨10, 10⟩, ⟨20, 10⟩, ⟨20, 20⟩, ⟨10, 20⟩, ⟨10, 10⟩]) x y) :
    10 ≤ x ∧ x < 20 ∧ 10 ≤ y ∧ y < 20 := by
  revert h
  simp only [segs, encloses_cons, not_encloses_none, RayCrosses, Point.xi, Point.yi]
  norm_num
  grind

theorem exPlainMap_third (x y : ℚ) (h : Encloses (segs [⟨30, 0⟩, ⟨40, 0⟩, ⟨40, 30⟩, ⟨30, 30⟩, ⟨30, 15⟩, ⟨30, 0⟩]) x y) :
    30 ≤ x := by
  revert h
  simp only [segs, encloses_cons, not_encloses_none, RayCrosses, Point.xi, Point.yi]
  norm_num
  grind

theorem exPlainMap_drawn : DrawnMap exPlainMap := by
  refine ⟨by decide +kernel, fun x y => ?_, by decide +kernel, by decide +kernel⟩
  have h0 : ((keptRegions exPlainMap).map (·.rings)).map partSegs =
      [segs [⟨0, 0⟩, ⟨30, 0⟩, ⟨30, 30⟩, ⟨0, 30⟩, ⟨0, 0⟩] ++ segs [⟨10, 10⟩, ⟨10, 20⟩, ⟨20, 20⟩, ⟨20, 10⟩, ⟨10, 10⟩],
       segs [⟨10, 10⟩, ⟨20, 10⟩, ⟨20, 20⟩, ⟨10, 20⟩, ⟨10, 10⟩],
       segs [⟨30, 0⟩, ⟨40, 0⟩, ⟨40, 30⟩, ⟨30, 30⟩, ⟨30, 15⟩, ⟨30, 0⟩]] := by decide +kernel
  rw [timesCovered_map, h0]
  have h1 := exPlainMap_first x y
  have h2 := exPlainMap_second x y
  have h3 := exPlainMap_third x y
  simp only [List.countP_cons, List.countP_nil, decide_eq_true_eq]
  split_ifs <;> first | omega | (exfalso; grind)

-- non-vacuity: it is built and normalized
example : DrawnMap exPlainMap ∧
    (∀ r ∈ exPlainMap, ∀ ring ∈ r.outerRings ++ r.innerRings, ringArea ring ≠ 0 → ClosedRing (ringPaths ring)) ∧
    (∀ s ∈ givenSegs exPlainMap, OnGrid 6 s.1 ∧ OnGrid 6 s.2) ∧ (givenSegs exPlainMap).length * 2 ^ (2 * 6) < 2 ^ 63 :=
  ⟨exPlainMap_drawn, by decide +kernel, by decide +kernel, by decide +kernel⟩

/-- A region of two squares side by side. -/
def exSeam : List (Region String) :=
  [⟨"A", [.points [⟨10, 10⟩, ⟨20, 10⟩, ⟨20, 20⟩, ⟨10, 20⟩, ⟨10, 10⟩],
     .points [⟨20, 10⟩, ⟨30, 10⟩, ⟨30, 20⟩, ⟨20, 20⟩, ⟨20, 10⟩]], []⟩]

theorem exSeam_second (x y : ℚ) (h : Encloses (segs [⟨20, 10⟩, ⟨30, 10⟩, ⟨30, 20⟩, ⟨20, 20⟩, ⟨20, 10⟩]) x y) :
    20 ≤ x := by
  revert h
  simp only [segs, encloses_cons, not_encloses_none, RayCrosses, Point.xi, Point.yi]
  norm_num
  grind

-- non-vacuity: its border runs along itself, but it is made up of two parts
example : ¬ DrawnMap exSeam ∧ DrawnIn (((keptRegions exSeam).flatMap (·.rings)).map fun ring => [ring]) exSeam := by
  refine ⟨fun h => ?_, ⟨by decide +kernel, fun x y => ?_, by decide +kernel, by decide +kernel⟩, by decide +kernel⟩
  · exact absurd h.once (by decide +kernel)
  · have h0 : (((keptRegions exSeam).flatMap (·.rings)).map fun ring => [ring]).map partSegs =
        [segs [⟨10, 10⟩, ⟨20, 10⟩, ⟨20, 20⟩, ⟨10, 20⟩, ⟨10, 10⟩],
         segs [⟨20, 10⟩, ⟨30, 10⟩, ⟨30, 20⟩, ⟨20, 20⟩, ⟨20, 10⟩]] := by decide +kernel
    rw [timesCovered_map, h0]
    have h1 := exPlainMap_second x y
    have h2 := exSeam_second x y
    simp only [List.countP_cons, List.countP_nil, decide_eq_true_eq]
    split_ifs <;> first | omega | (exfalso; grind)

/-! ## None of the conditions can be dropped -/

/-- The same square three times. -/
def exStacked : List (Region String) :=
  [⟨"A", [.points [⟨10, 10⟩, ⟨20, 10⟩, ⟨20, 20⟩, ⟨10, 20⟩, ⟨10, 10⟩]], []⟩,
   ⟨"B", [.points [⟨10, 10⟩, ⟨20, 10⟩, ⟨20, 20⟩, ⟨10, 20⟩, ⟨10, 10⟩]], []⟩,
   ⟨"C", [.points [⟨10, 10⟩, ⟨20, 10⟩, ⟨20, 20⟩, ⟨10, 20⟩, ⟨10, 10⟩]], []⟩]

/-- A triangle of which one side is drawn three times. -/
def exTraced : List (Region String) :=
  [⟨"A", [.points [⟨10, 10⟩, ⟨20, 10⟩, ⟨10, 10⟩, ⟨20, 10⟩, ⟨20, 20⟩, ⟨10, 10⟩]], []⟩]

/-- Three rings that are not closed. -/
def exOpen : List (Region String) :=
  [⟨"A", [.points [⟨10, 10⟩, ⟨20, 10⟩]], []⟩, ⟨"B", [.points [⟨10, 10⟩, ⟨20, 10⟩]], []⟩,
   ⟨"C", [.points [⟨10, 10⟩, ⟨20, 10⟩]], []⟩]

/-- Three triangles that meet in a point, and stay there. -/
def exResting : List (Region String) :=
  [⟨"A", [.edges [[⟨10, 10⟩, ⟨10, 10⟩, ⟨10, 10⟩], [⟨10, 10⟩, ⟨20, 20⟩, ⟨10, 20⟩, ⟨10, 10⟩]]], []⟩,
   ⟨"B", [.edges [[⟨10, 10⟩, ⟨10, 10⟩, ⟨10, 10⟩], [⟨10, 10⟩, ⟨10, 0⟩, ⟨20, 0⟩, ⟨10, 10⟩]]], []⟩,
   ⟨"C", [.edges [[⟨10, 10⟩, ⟨10, 10⟩, ⟨10, 10⟩], [⟨10, 10⟩, ⟨0, 0⟩, ⟨0, 10⟩, ⟨10, 10⟩]]], []⟩]

/-- C123: regions may not overlap. -/
theorem C123_apart_matters : ∃ rs : List (Region String), ∃ parts, parts = (keptRegions rs).map (·.rings) ∧
    (∀ part ∈ parts, ∀ paths ∈ part, ClosedRing paths) ∧
    (∀ part ∈ parts, (partSegs part).Pairwise fun s s' => ¬ RunsAlong s s') ∧
    (∀ part ∈ parts, ∀ s ∈ partSegs part, s.1 ≠ s.2) ∧ ∀ m, buildTopology m rs = .error .assert :=
  ⟨exStacked, _, rfl, by decide +kernel, by decide +kernel, by decide +kernel, fun m => by cases m <;> decide +kernel⟩

/-- C123: nor may a border run along itself. -/
theorem C123_once_matters : ∃ rs : List (Region String), ∃ parts, parts = (keptRegions rs).map (·.rings) ∧
    (∀ part ∈ parts, ∀ paths ∈ part, ClosedRing paths) ∧ (∀ x y, timesCovered parts x y ≤ 1) ∧
    (∀ part ∈ parts, ∀ s ∈ partSegs part, s.1 ≠ s.2) ∧ ∀ m, buildTopology m rs = .error .assert :=
  ⟨exTraced, _, rfl, by decide +kernel, fun _ _ => List.countP_le_length.trans (by decide +kernel), by decide +kernel,
    fun m => by cases m <;> decide +kernel⟩

/-- C123: rings must be closed. -/
theorem C123_closed_matters : ∃ rs : List (Region String), ∃ parts, parts = (keptRegions rs).map (·.rings) ∧
    (∀ x y, timesCovered parts x y ≤ 1) ∧ (∀ part ∈ parts, (partSegs part).Pairwise fun s s' => ¬ RunsAlong s s') ∧
    (∀ part ∈ parts, ∀ s ∈ partSegs part, s.1 ≠ s.2) ∧ ∀ m, buildTopology m rs = .error .assert := by
  refine ⟨exOpen, _, rfl, fun x y => ?_, by decide +kernel, by decide +kernel, fun m => by cases m <;> decide +kernel⟩
  have h0 : ((keptRegions exOpen).map (·.rings)).map partSegs =
      [segs [⟨10, 10⟩, ⟨20, 10⟩], segs [⟨10, 10⟩, ⟨20, 10⟩], segs [⟨10, 10⟩, ⟨20, 10⟩]] := by decide +kernel
  rw [timesCovered_map, h0]
  have h : ¬ Encloses (segs [⟨10, 10⟩, ⟨20, 10⟩]) x y := by
    simp only [segs, encloses_cons, not_encloses_none, RayCrosses, Point.xi, Point.yi]
    norm_num
  simp [h]

theorem exResting_first (x y : ℚ) (h : Encloses (segs [⟨10, 10⟩, ⟨10, 10⟩, ⟨10, 10⟩] ++
    segs [⟨10, 10⟩, ⟨20, 20⟩, ⟨10, 20⟩, ⟨10, 10⟩]) x y) : 10 ≤ y := by
  revert h
  simp only [segs, List.cons_append, List.nil_append, encloses_cons, not_encloses_none, RayCrosses, Point.xi, Point.yi]
  norm_num
  grind

theorem exResting_second (x y : ℚ) (h : Encloses (segs [⟨10, 10⟩, ⟨10, 10⟩, ⟨10, 10⟩] ++
    segs [⟨10, 10⟩, ⟨10, 0⟩, ⟨20, 0⟩, ⟨10, 10⟩]) x y) : y < 10 ∧ 10 ≤ x := by
  revert h
  simp only [segs, List.cons_append, List.nil_append, encloses_cons, not_encloses_none, RayCrosses, Point.xi, Point.yi]
  norm_num
  grind

theorem exResting_third (x y : ℚ) (h : Encloses (segs [⟨10, 10⟩, ⟨10, 10⟩, ⟨10, 10⟩] ++
    segs [⟨10, 10⟩, ⟨0, 0⟩, ⟨0, 10⟩, ⟨10, 10⟩]) x y) : y < 10 ∧ x < 10 := by
  revert h
  simp only [segs, List.cons_append, List.nil_append, encloses_cons, not_encloses_none, RayCrosses, Point.xi, Point.yi]
  norm_num
  grind

/-- C123: segments must lead somewhere. -/
theorem C123_moves_matters : ∃ rs : List (Region String), ∃ parts, parts = (keptRegions rs).map (·.rings) ∧
    (∀ part ∈ parts, ∀ paths ∈ part, ClosedRing paths) ∧ (∀ x y, timesCovered parts x y ≤ 1) ∧
    (∀ part ∈ parts, (partSegs part).Pairwise fun s s' => ¬ RunsAlong s s') ∧
    ∀ m, buildTopology m rs = .error .assert := by
  refine ⟨exResting, _, rfl, by decide +kernel, fun x y => ?_, by decide +kernel, fun m => by cases m <;> decide +kernel⟩
  have h0 : ((keptRegions exResting).map (·.rings)).map partSegs =
      [segs [⟨10, 10⟩, ⟨10, 10⟩, ⟨10, 10⟩] ++ segs [⟨10, 10⟩, ⟨20, 20⟩, ⟨10, 20⟩, ⟨10, 10⟩],
       segs [⟨10, 10⟩, ⟨10, 10⟩, ⟨10, 10⟩] ++ segs [⟨10, 10⟩, ⟨10, 0⟩, ⟨20, 0⟩, ⟨10, 10⟩],
       segs [⟨10, 10⟩, ⟨10, 10⟩, ⟨10, 10⟩] ++ segs [⟨10, 10⟩, ⟨0, 0⟩, ⟨0, 10⟩, ⟨10, 10⟩]] := by decide +kernel
  rw [timesCovered_map, h0]
  have h1 := exResting_first x y
  have h2 := exResting_second x y
  have h3 := exResting_third x y
  simp only [List.countP_cons, List.countP_nil, decide_eq_true_eq]
  split_ifs <;> first | omega | (exfalso; grind)

end TopoGeo
