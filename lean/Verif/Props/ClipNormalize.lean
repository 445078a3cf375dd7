import Verif.Proofs.ClipNormalize
import Verif.Proofs.DrawnNormalized
import Verif.Props.ClipTwins
import Verif.Props.Merge
/-!
# C125: a clipped map can be normalized
-/

namespace TopoGeo
open Spec

/-- C125: if no point belongs to two regions, no border runs along itself or stays where it
is, no region passes the mask line twice in the same point (other than by touching
it), and clipping does not move different crossings to the same point, then the
topology can be clipped and the clipped topology can be normalized: neither panics
in a release build. In a debug build they do the same or stop at an overflow. No
edge of the clipped topology has the same region on both sides, and no segment is
passed more than twice. -/
theorem C125_normalizes {δ : Type} (mask : ClipMask) (t : Topology δ) (hw : WellFormed t) (hd : DrawnTopology t)
    (honce : PassesOnce mask t) (hapart : CutsApart .release mask t) :
    ∃ t1 t2, clipTopology .release t mask = .ok t1 ∧ normalize .release t1 = .ok t2 ∧
      NoSelfEdges t1 (allRings t1) ∧ (∀ p q, passes t1 p q ≤ 2) ∧
      StopsOrSame (clipTopology .debug t mask >>= normalize .debug) (.ok t2) := by
  obtain ⟨t1, h1, _⟩ := C121_clips mask t hw (fun x y _ => hd.apart x y) honce hapart
  have hw1 := C82_clip .release mask t t1 hw.extended h1
  obtain ⟨c1, c2, c3⟩ := clipped_counts hw hd honce hapart h1
  have hs := noSelf_of_once hw1.pointers hw1.extended c2
  obtain ⟨t2, h2⟩ := C21_release t1 hw1 c3 hs c1
  refine ⟨t1, t2, h1, h2, hs, c1, ?_⟩
  have := StopsOrSame.bind (clipTopology_checked t mask) fun t1 => normalize_checked t1
  rwa [h1, ok_bind, h2] at this

theorem drawnTopology_of_map {δ : Type} {m : Build} {rs : List (Region δ)} {t : Topology δ} (hd : DrawnMap rs)
    (ht : buildTopology m rs = .ok t) : DrawnTopology t := by
  have hf := topoRegionSegs_built ht
  refine ⟨fun x y => le_trans (le_of_eq ?_) (hd.apart x y), fun r hr => ?_, fun r hr => ?_⟩
  · unfold cover timesCovered
    rw [List.countP_map]
    generalize t.regions = regs at hf
    generalize keptRegions rs = ks at hf
    induction hf with
    | nil => rfl
    | cons h1 _ ih => rw [List.countP_cons, List.countP_cons, ih, h1]; rfl
  · obtain ⟨k, hk, hkr⟩ := forall₂_exists_left hf hr
    rw [hkr]
    exact hd.once _ (List.mem_map_of_mem hk)
  · obtain ⟨k, hk, hkr⟩ := forall₂_exists_left hf hr
    rw [hkr]
    exact hd.moves _ (List.mem_map_of_mem hk)

/-- C125: from the regions on. The map is built, normalized, clipped and normalized
again, if the mask line is passed as described by the normalized topology. -/
theorem C125_pipeline {δ : Type} (mask : ClipMask) (rs : List (Region δ)) (hd : DrawnMap rs)
    (closed : ∀ r ∈ rs, ∀ ring ∈ r.outerRings ++ r.innerRings, ringArea ring ≠ 0 → ClosedRing (ringPaths ring)) :
    ∃ t t1, buildTopology .release rs = .ok t ∧ normalize .release t = .ok t1 ∧ DrawnTopology t ∧ DrawnTopology t1 ∧
      ∀ u, (u = t ∨ u = t1) → PassesOnce mask u → CutsApart .release mask u →
        ∃ u1 u2, clipTopology .release u mask = .ok u1 ∧ normalize .release u1 = .ok u2 := by
  obtain ⟨t, t1, ht, h1, hs, _, _, _⟩ := C123_normalize rs hd closed
  obtain ⟨hw, ho, _⟩ := wellFormed_of_built ht closed
  have hdt := drawnTopology_of_map hd ht
  have hd1 := drawn_normalized hw hs ho hdt h1
  have hw1 := wellFormed_normalize hw h1
  refine ⟨t, t1, ht, h1, hdt, hd1, ?_⟩
  rintro u (rfl | rfl) honce hapart
  · obtain ⟨u1, u2, h, h', _⟩ := C125_normalizes mask u hw hdt honce hapart
    exact ⟨u1, u2, h, h'⟩
  · obtain ⟨u1, u2, h, h', _⟩ := C125_normalizes mask u hw1 hd1 honce hapart
    exact ⟨u1, u2, h, h'⟩

/-- C125: if the coordinates have at most `k` bits and three times the number of
segments times 2^2k is below 2^63, then this holds for both builds. -/
theorem C125_small {δ : Type} (m : Build) (k : Nat) (hk : k ≤ 31) (mask : ClipMask) (rs : List (Region δ)) (hd : DrawnMap rs)
    (closed : ∀ r ∈ rs, ∀ ring ∈ r.outerRings ++ r.innerRings, ringArea ring ≠ 0 → ClosedRing (ringPaths ring))
    (hg : ∀ s ∈ givenSegs rs, OnGrid k s.1 ∧ OnGrid k s.2) (h : 3 * (givenSegs rs).length * 2 ^ (2 * k) < 2 ^ 63) :
    ∃ t t1, buildTopology m rs = .ok t ∧ normalize m t = .ok t1 ∧
      (PassesOnce mask t1 → CutsApart .release mask t1 →
        ∃ t2 t3, clipTopology m t1 mask = .ok t2 ∧ normalize m t2 = .ok t3) := by
  obtain ⟨t, t1, ht, h1, _, _, hclip⟩ := C125_pipeline mask rs hd closed
  replace hclip := hclip t1 (.inr rfl)
  cases m with
  | release => exact ⟨t, t1, ht, h1, hclip⟩
  | debug =>
    have hb : (givenSegs rs).length * 2 ^ (2 * k) < 2 ^ 63 := by
      refine lt_of_le_of_lt (Nat.mul_le_mul_right _ ?_) h
      omega
    obtain ⟨u, u1, hu, hu1⟩ := C123_small .debug k hk rs hd closed hg hb
    have e0 : u = t := by
      have hh : StopsOrSame (buildTopology .debug rs) (buildTopology .release rs) :=
        .bind (addRegions_checked _ _) fun _ => .refl _
      rcases hh with hh | hh
      · rw [hu] at hh; cases hh
      · rw [hu, ht] at hh; exact Except.ok.inj hh
    subst e0
    have e1 : u1 = t1 := by
      rcases normalize_checked u with hh | hh
      · rw [hu1] at hh; cases hh
      · rw [hu1, h1] at hh; exact Except.ok.inj hh
    subst e1
    refine ⟨u, u1, hu, hu1, fun ho hc => ?_⟩
    obtain ⟨t2, t3, h2, h3⟩ := hclip ho hc
    have hall := (C122_all k hk rs [.normalize, .clip mask, .normalize] closed hg
      (by rw [show clips [.normalize, .clip mask, .normalize] = 1 from rfl]; simpa [Nat.mul_comm] using h) (by simp)).1
    have e : ∀ m t, applyAll m (δ := δ) t [.normalize, .clip mask, .normalize] =
        normalize m t >>= fun t1 => clipTopology m t1 mask >>= fun t2 => normalize m t2 >>= fun t3 => .ok t3 := fun _ _ => rfl
    rw [hu, ht, ok_bind, ok_bind, e, e, hu1, h1, ok_bind, ok_bind, h2, ok_bind, h3, ok_bind, bind_ok] at hall
    obtain ⟨v2, hv2, hall⟩ := hall
    rw [bind_ok] at hall
    obtain ⟨v3, hv3, _⟩ := hall
    exact ⟨v2, v3, hv2, hv3⟩

/-! ## Maps that are drawn like that -/

def exPlainTopology : Topology String := (buildTopology .debug exPlainMap).toOption.getD ⟨[], []⟩
def exPlainNormal : Topology String := (normalize .debug exPlainTopology).toOption.getD ⟨[], []⟩
def exPlainClipped : Topology String := (clipTopology .debug exPlainNormal (.maxX 15)).toOption.getD ⟨[], []⟩

theorem exPlain_built : buildTopology .debug exPlainMap = .ok exPlainTopology := by decide +kernel

-- non-vacuity: the square with the hole that another region fills, clipped through the middle
example : DrawnMap exPlainMap ∧
    (∀ r ∈ exPlainMap, ∀ ring ∈ r.outerRings ++ r.innerRings, ringArea ring ≠ 0 → ClosedRing (ringPaths ring)) ∧
    (∀ s ∈ givenSegs exPlainMap, OnGrid 6 s.1 ∧ OnGrid 6 s.2) ∧ 3 * (givenSegs exPlainMap).length * 2 ^ (2 * 6) < 2 ^ 63 ∧
    buildTopology .debug exPlainMap = .ok exPlainTopology ∧ normalize .debug exPlainTopology = .ok exPlainNormal ∧
    PassesOnce (.maxX 15) exPlainNormal ∧ CutsApart .release (.maxX 15) exPlainNormal :=
  ⟨exPlainMap_drawn, by decide +kernel, by decide +kernel, by decide +kernel, exPlain_built, by decide +kernel,
    passesOnce_of (by decide +kernel), cutsApart_of (by decide +kernel)⟩

-- and what comes of it: "A" still has its hole, with a side on the mask line, and "B" fills it
example : clipTopology .debug exPlainNormal (.maxX 15) = .ok exPlainClipped ∧
    ((normalize .debug exPlainClipped).toOption.map fun t => (t.regions.map (·.data), t.edges.length)) =
      some (["A", "B"], 2) := by decide +kernel

-- non-vacuity: a topology that has not been normalized, with a region that touches the mask line
example : WellFormed exTouchMapTopology ∧ DrawnTopology exTouchMapTopology ∧ PassesOnce (.maxX 9) exTouchMapTopology ∧
    CutsApart .release (.maxX 9) exTouchMapTopology :=
  ⟨wellFormed_built exTouchMap_built (by decide +kernel), ⟨exTouchMap_apart, by decide +kernel, by decide +kernel⟩,
    passesOnce_of (by decide +kernel), cutsApart_of (by decide +kernel)⟩

/-! ## None of the conditions can be dropped

In all of the following the topology can be clipped, and what has been clipped
cannot be normalized. -/

/-- The same square three times, cut into edges differently. -/
def exStackedEdges : List (Region Nat) :=
  [⟨1, [.edges [[⟨10, 10⟩, ⟨20, 10⟩, ⟨20, 20⟩], [⟨20, 20⟩, ⟨10, 20⟩, ⟨10, 10⟩]]], []⟩,
   ⟨2, [.edges [[⟨10, 10⟩, ⟨20, 10⟩], [⟨20, 10⟩, ⟨20, 20⟩, ⟨10, 20⟩, ⟨10, 10⟩]]], []⟩,
   ⟨3, [.edges [[⟨10, 10⟩, ⟨20, 10⟩, ⟨20, 20⟩, ⟨10, 20⟩, ⟨10, 10⟩]]], []⟩]

def exStackedTopology : Topology Nat := (buildTopology .debug exStackedEdges).toOption.getD ⟨[], []⟩
def exStackedClipped : Topology Nat := (clipTopology .debug exStackedTopology (.maxX 30)).toOption.getD ⟨[], []⟩

theorem exStacked_built : buildTopology .debug exStackedEdges = .ok exStackedTopology := by decide +kernel

/-- C125: regions may not overlap. -/
theorem C125_apart_matters : ∃ (mask : ClipMask) (t t1 : Topology Nat), WellFormed t ∧
    (∀ r ∈ t.regions, (topoRegionSegs t r).Pairwise fun s s' => ¬ RunsAlong s s') ∧
    (∀ r ∈ t.regions, ∀ s ∈ topoRegionSegs t r, s.1 ≠ s.2) ∧ PassesOnce mask t ∧ CutsApart .release mask t ∧
    clipTopology .release t mask = .ok t1 ∧ ∀ m, normalize m t1 = .error .assert :=
  ⟨.maxX 30, exStackedTopology, exStackedClipped, wellFormed_built exStacked_built (by decide +kernel), by decide +kernel,
    by decide +kernel, passesOnce_of (by decide +kernel), cutsApart_of (by decide +kernel), by decide +kernel,
    fun m => by cases m <;> decide +kernel⟩

def exNotchClipped : Topology String := (clipTopology .debug exNotchTopo (.maxX 30)).toOption.getD ⟨[], []⟩

/-- C125: a border may not run along itself. -/
theorem C125_once_matters : ∃ (mask : ClipMask) (t t1 : Topology String), WellFormed t ∧ (∀ x y, cover t x y ≤ 1) ∧
    (∀ r ∈ t.regions, ∀ s ∈ topoRegionSegs t r, s.1 ≠ s.2) ∧ PassesOnce mask t ∧ CutsApart .release mask t ∧
    clipTopology .release t mask = .ok t1 ∧ ∀ m, normalize m t1 = .error .explicit :=
  ⟨.maxX 30, exNotchTopo, exNotchClipped, (wellFormed_of_built exNotch_built (by decide +kernel)).1,
    fun _ _ => List.countP_le_length.trans (by decide +kernel), by decide +kernel, passesOnce_of (by decide +kernel),
    cutsApart_of (by decide +kernel), by decide +kernel, fun m => by cases m <;> decide +kernel⟩

/-- Two triangles that meet in a point where the border stays for a while, twice. -/
def exLoitering : List (Region Nat) :=
  [⟨1, [.edges [[⟨10, 10⟩, ⟨10, 10⟩, ⟨10, 10⟩], [⟨10, 10⟩, ⟨20, 20⟩, ⟨10, 20⟩, ⟨10, 10⟩], [⟨10, 10⟩, ⟨10, 10⟩, ⟨10, 10⟩],
      [⟨10, 10⟩, ⟨10, 0⟩, ⟨20, 0⟩, ⟨10, 10⟩]]], []⟩]

def exLoiteringTopology : Topology Nat := (buildTopology .debug exLoitering).toOption.getD ⟨[], []⟩
def exLoiteringClipped : Topology Nat := (clipTopology .debug exLoiteringTopology (.maxX 30)).toOption.getD ⟨[], []⟩

theorem exLoitering_built : buildTopology .debug exLoitering = .ok exLoiteringTopology := by decide +kernel

/-- C125: segments must lead somewhere. -/
theorem C125_moves_matters : ∃ (mask : ClipMask) (t t1 : Topology Nat), WellFormed t ∧ (∀ x y, cover t x y ≤ 1) ∧
    (∀ r ∈ t.regions, (topoRegionSegs t r).Pairwise fun s s' => ¬ RunsAlong s s') ∧ PassesOnce mask t ∧
    CutsApart .release mask t ∧ clipTopology .release t mask = .ok t1 ∧ ∀ m, normalize m t1 = .error .explicit :=
  ⟨.maxX 30, exLoiteringTopology, exLoiteringClipped, wellFormed_built exLoitering_built (by decide +kernel),
    fun _ _ => List.countP_le_length.trans (by decide +kernel), by decide +kernel, passesOnce_of (by decide +kernel),
    cutsApart_of (by decide +kernel), by decide +kernel, fun m => by cases m <;> decide +kernel⟩

/-- Region 1 passes the line `x = 20` twice in (20, 10) and in (20, 30), each time
in the same direction. -/
def exTwiceRound : List (Region Nat) :=
  [⟨1, [.points [⟨20, 30⟩, ⟨5, 30⟩, ⟨5, 10⟩, ⟨20, 10⟩, ⟨30, 15⟩, ⟨30, 25⟩, ⟨20, 30⟩, ⟨10, 25⟩, ⟨10, 15⟩, ⟨20, 10⟩, ⟨40, 10⟩,
      ⟨40, 30⟩, ⟨20, 30⟩]], []⟩]

def exTwiceRoundTopology : Topology Nat := (buildTopology .debug exTwiceRound).toOption.getD ⟨[], []⟩
def exTwiceRoundClipped : Topology Nat := (clipTopology .debug exTwiceRoundTopology (.maxX 20)).toOption.getD ⟨[], []⟩

theorem exTwiceRound_built : buildTopology .debug exTwiceRound = .ok exTwiceRoundTopology := by decide +kernel

/-- C125: a region may not pass the mask line twice in two points. -/
theorem C125_pinched_matters : ∃ (mask : ClipMask) (t t1 : Topology Nat), WellFormed t ∧ DrawnTopology t ∧
    CutsApart .release mask t ∧ clipTopology .release t mask = .ok t1 ∧ ∀ m, normalize m t1 = .error .explicit :=
  ⟨.maxX 20, exTwiceRoundTopology, exTwiceRoundClipped, wellFormed_built exTwiceRound_built (by decide +kernel),
    ⟨fun _ _ => List.countP_le_length.trans (by decide +kernel), by decide +kernel, by decide +kernel⟩,
    cutsApart_of (by decide +kernel), by decide +kernel, fun m => by cases m <;> decide +kernel⟩

def exWedgeCut : Topology Nat := (clipTopology .debug exWedgeTopology (.maxX 10)).toOption.getD ⟨[], []⟩

theorem exWedge_segs : exWedgeTopology.regions.map (topoRegionSegs exWedgeTopology) =
    [segs [⟨9, 10⟩, ⟨9, 0⟩, ⟨19, 0⟩, ⟨19, 10⟩, ⟨9, 10⟩],
     segs [⟨9, 10⟩, ⟨19, 10⟩, ⟨19, 11⟩, ⟨9, 10⟩, ⟨5, 12⟩, ⟨5, 8⟩, ⟨9, 10⟩],
     segs [⟨9, 10⟩, ⟨19, 11⟩, ⟨19, 20⟩, ⟨9, 20⟩, ⟨9, 10⟩]] := by decide +kernel

/-- C125: crossings may not be moved to the same point. -/
theorem C125_rounding_matters : ∃ (mask : ClipMask) (t t1 : Topology Nat), WellFormed t ∧ DrawnTopology t ∧
    PassesOnce mask t ∧ clipTopology .release t mask = .ok t1 ∧ ∀ m, normalize m t1 = .error .assert := by
  refine ⟨.maxX 10, exWedgeTopology, exWedgeCut, wellFormed_built exWedge_built (by decide +kernel),
    ⟨fun x y => ?_, by decide +kernel, by decide +kernel⟩, passesOnce_of (by decide +kernel), by decide +kernel,
    fun m => by cases m <;> decide +kernel⟩
  have h1 := exWedge_upper x y
  have h2 := exWedge_middle x y
  have h3 := exWedge_lower x y
  rw [cover_map, exWedge_segs]
  simp only [List.countP_cons, List.countP_nil, decide_eq_true_eq]
  split_ifs with a b c c b c c <;> first | omega | skip
  all_goals grind

end TopoGeo
