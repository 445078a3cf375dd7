import Verif.Proofs.Sizes
import Verif.Props.ClipTopology
import Verif.Props.Normalize
import Verif.Props.Simplify
/-!
# How large results are
-/

namespace TopoGeo

open Spec

/-- The size of the paths that the rings of a topology walk along. -/
def topoSize {δ : Type} (g : Nat → Nat) (t : Topology δ) : Nat := ((allRings t).map (ringSize g t)).sum

theorem ringSize_one {δ : Type} (t : Topology δ) (ring : TopoRing) :
    ringSize (fun _ => 1) t ring = ring.directedEdges.length := by
  simp [ringSize, pathsOf, Function.comp_def]

theorem length_segs (l : List Point) : (segs l).length = l.length - 1 := by
  induction l with
  | nil => rfl
  | cons p l ih =>
    cases l with
    | nil => rfl
    | cons q l => simp only [segs, List.length_cons] at ih ⊢; omega

theorem ringSize_segs {δ : Type} (t : Topology δ) (ring : TopoRing) :
    ringSize (fun n => n - 1) t ring = ((pathsOf t ring).flatMap segs).length := by
  simp [ringSize, List.length_flatMap, length_segs]

theorem topoSize_one {δ : Type} (t : Topology δ) : topoSize (fun _ => 1) t = (allDirectedEdges t).length := by
  unfold topoSize allDirectedEdges
  rw [List.length_flatMap]
  congr 1
  exact List.map_congr_left fun ring _ => ringSize_one t ring

theorem topoSize_segs {δ : Type} (t : Topology δ) : topoSize (fun n => n - 1) t = walkedSegments t := by
  unfold topoSize walkedSegments
  rw [List.length_flatMap]
  congr 1
  exact List.map_congr_left fun ring _ => ringSize_segs t ring

/-- The size of some paths. -/
def pathsSize (g : Nat → Nat) (ps : List (List Point)) : Nat := (ps.map fun p => g p.length).sum

theorem pathsSize_append (g : Nat → Nat) (a b : List (List Point)) :
    pathsSize g (a ++ b) = pathsSize g a + pathsSize g b := by simp [pathsSize]

theorem pathsSize_flatten (g : Nat → Nat) (l : List (List (List Point))) :
    pathsSize g l.flatten = (l.map (pathsSize g)).sum := by
  induction l with
  | nil => rfl
  | cons a l ih => rw [List.flatten_cons, pathsSize_append, ih, List.map_cons, List.sum_cons]

theorem sum_sublist {a b : List Nat} (h : a.Sublist b) : a.sum ≤ b.sum := by
  induction h with
  | slnil => simp
  | cons e _ ih => rw [List.sum_cons]; omega
  | cons_cons e _ ih => rw [List.sum_cons, List.sum_cons]; omega

theorem sum_map_le {α : Type} {f g : α → Nat} {l : List α} (h : ∀ a ∈ l, f a ≤ g a) : (l.map f).sum ≤ (l.map g).sum := by
  induction l with
  | nil => simp
  | cons a l ih =>
    have := h a List.mem_cons_self
    have := ih fun b hb => h b (List.mem_cons_of_mem _ hb)
    simp only [List.map_cons, List.sum_cons]
    omega

theorem sum_forall₂ {α β : Type} {f : α → Nat} {g : β → Nat} {as : List α} {bs : List β}
    (h : List.Forall₂ (fun a b => f a ≤ g b) as bs) : (as.map f).sum ≤ (bs.map g).sum := by
  induction h with
  | nil => simp
  | cons h _ ih => simp only [List.map_cons, List.sum_cons]; omega

theorem built_size {δ : Type} {m : Build} {rs : List (Region δ)} {t : Topology δ} (h : buildTopology m rs = .ok t)
    (g : Nat → Nat) : topoSize g t = pathsSize g (allPaths rs) := by
  have h7 := C07_round_trip m rs t h
  have hp : ∀ rings : List TopoRing, (rings.map (ringSize g t)).sum = ((rings.map (pathsOf t)).map (pathsSize g)).sum := by
    intro rings
    rw [List.map_map]; rfl
  unfold topoSize allRings allPaths
  generalize t.regions = regions at h7
  generalize keptRegions rs = ks at h7
  induction h7 with
  | nil => rfl
  | cons h1 _ ih =>
    obtain ⟨_, ho, hi⟩ := h1
    rw [List.flatMap_cons, List.flatMap_cons, List.map_append, List.sum_append, ih, pathsSize_append, pathsSize_append,
      List.map_append, List.sum_append, hp, hp, pathsOf_forall₂ ho, pathsOf_forall₂ hi, pathsSize_flatten, pathsSize_flatten]

theorem length_stored (e : List Point) : (stored e).length = e.length := by
  unfold stored; split <;> simp

/-- C80: building. A topology has as many directed edges as there are paths to
store, and at most as many edges and points. -/
theorem C80_build {δ : Type} (m : Build) (rs : List (Region δ)) (t : Topology δ) (h : buildTopology m rs = .ok t) :
    (allDirectedEdges t).length = (allPaths rs).length ∧ t.edges.length ≤ (allPaths rs).length ∧
      pointCount t ≤ ((allPaths rs).map List.length).sum := by
  obtain ⟨_, h2, _⟩ := buildTopology_facts h
  refine ⟨?_, ?_, ?_⟩
  · rw [← topoSize_one, built_size h]; simp [pathsSize]
  · have := (firstOccurrences_sublist ((allPaths rs).map stored)).length_le
    have e : t.edges.length = (keysOf rs).length := by rw [← h2, List.length_map]
    rw [List.length_map] at this
    rw [e]; exact this
  · have : pointCount t = ((keysOf rs).map List.length).sum := by rw [← h2, List.map_map]; rfl
    rw [this]
    refine (sum_sublist ((firstOccurrences_sublist ((allPaths rs).map stored)).map _)).trans (Nat.le_of_eq ?_)
    rw [List.map_map]
    congr 1
    exact List.map_congr_left fun e _ => length_stored e

/-! ## Clipping -/

/-- C80: clipping an edge of `n` points yields at most `(3n - 1) / 2` points; the
code reserves room for `2n`. -/
theorem C80_clip_edge (m : Build) (mask : ClipMask) (points out : List Point) (h : clipEdge m mask points = .ok out) :
    2 * out.length ≤ 3 * points.length - 1 ∧ out.length ≤ points.length * 2 := by
  have := clipEdge_length h
  omega

-- the bound is met: in, out, in, out, ...
example : clipEdge .debug (.maxX 5) [⟨0, 0⟩, ⟨10, 10⟩, ⟨0, 20⟩, ⟨10, 30⟩, ⟨0, 40⟩] =
    .ok [⟨0, 0⟩, ⟨5, 5⟩, ⟨5, 15⟩, ⟨0, 20⟩, ⟨5, 25⟩, ⟨5, 35⟩, ⟨0, 40⟩] := by decide +kernel

theorem atMostTwice_of {cs : List (List Point)} {f : Piece → DirectedEdge} {rings rings' : List TopoRing}
    (h : List.Forall₂ (fun ps (ring : TopoRing) => ring.directedEdges = ps.map f) (keptClipped cs rings) rings') :
    AtMostTwice rings rings' := by
  unfold keptClipped at h
  rw [List.filter_map] at h
  refine ⟨_, List.filter_sublist (p := (fun ps => piecesArea cs ps ≠ 0) ∘ clippedPieces cs), ?_⟩
  rw [List.forall₂_map_left_iff] at h
  refine h.imp ?_
  intro ring ring' h
  rw [h, List.length_map]
  exact clippedPieces_length cs ring

theorem atMostTwice_sum {rings rings' : List TopoRing} (h : AtMostTwice rings rings') :
    (rings'.flatMap (·.directedEdges)).length ≤ 2 * (rings.flatMap (·.directedEdges)).length := by
  obtain ⟨l, h1, h2⟩ := h
  have e1 : (l.flatMap (·.directedEdges)).length ≤ (rings.flatMap (·.directedEdges)).length := by
    rw [List.length_flatMap, List.length_flatMap]
    exact sum_sublist (h1.map _)
  have e2 : (rings'.flatMap (·.directedEdges)).length ≤ 2 * (l.flatMap (·.directedEdges)).length := by
    induction h2 generalizing rings with
    | nil => simp
    | cons h _ ih =>
      have := ih (rings := _) (List.Sublist.refl _) (Nat.le_refl _)
      simp only [List.flatMap_cons, List.length_append]
      omega
  omega

/-- C80: clipping keeps some of the regions and some of their rings, in their
order. A ring gets at most twice as many edges as it had, the capacity that the
code reserves for it. -/
theorem C80_clip_rings {δ : Type} (m : Build) (mask : ClipMask) (t t' : Topology δ) (h : clipTopology m t mask = .ok t') :
    ∃ from', from'.Sublist t.regions ∧ List.Forall₂ (fun r r' => r'.data = r.data ∧
      AtMostTwice r.outerRings r'.outerRings ∧ AtMostTwice r.innerRings r'.innerRings) from' t'.regions := by
  obtain ⟨cs, _, hf⟩ := clipTopology_ok h
  have hr := clip_rings hf
  refine ⟨_, List.filter_sublist (p := fun r => keptClipped cs r.outerRings ≠ []), ?_⟩
  unfold clippedRegions at hr
  rw [List.forall₂_map_left_iff] at hr
  refine hr.imp ?_
  rintro r r' ⟨_, hd, ho, hi⟩
  exact ⟨hd, atMostTwice_of ho, atMostTwice_of hi⟩

theorem edgeUses_sublist {δ : Type} {a b : List (TopoRegion δ)} (h : a.Sublist b) : edgeUses a ≤ edgeUses b := by
  induction h with
  | slnil => simp
  | cons e _ ih => rw [edgeUses_cons]; omega
  | cons_cons e _ ih => rw [edgeUses_cons, edgeUses_cons]; omega

theorem clippedBy_length {m : Build} {mask : ClipMask} {es : List TopoEdge} {cs : List (List Point)}
    (h : ClippedBy m mask es cs) : 2 * (cs.map List.length).sum ≤ 3 * (es.map fun e => e.points.length).sum := by
  unfold ClippedBy at h
  induction h with
  | nil => simp
  | cons h1 _ ih =>
    have := clipEdge_length h1
    simp only [List.map_cons, List.sum_cons]
    omega

/-- C80: the clipped topology has at most twice as many directed edges; at most
one new edge for each directed edge; and at most three points for two old ones,
besides the two points of each new edge. -/
theorem C80_clip_topology {δ : Type} (m : Build) (mask : ClipMask) (t t' : Topology δ)
    (h : clipTopology m t mask = .ok t') :
    (allDirectedEdges t').length ≤ 2 * (allDirectedEdges t).length ∧
    t'.edges.length ≤ t.edges.length + (allDirectedEdges t).length ∧
    2 * pointCount t' ≤ 3 * pointCount t + 4 * (allDirectedEdges t).length := by
  obtain ⟨cs, hcs, hf⟩ := clipTopology_ok h
  obtain ⟨_, h2, _⟩ := finishTopology_backPointers hf
  have hk := newKeys_length cs t
  have hlen := hcs.length_eq
  refine ⟨?_, ?_, ?_⟩
  · obtain ⟨l, hl, hr⟩ := C80_clip_rings m mask t t' h
    have e1 : edgeUses l ≤ (allDirectedEdges t).length := edgeUses_sublist hl
    have e2 : edgeUses t'.regions ≤ 2 * edgeUses l := by
      generalize t'.regions = regions at hr
      clear hl e1
      induction hr with
      | nil => simp [edgeUses]
      | cons h1 _ ih =>
        have := atMostTwice_sum h1.2.1
        have := atMostTwice_sum h1.2.2
        rw [edgeUses_cons, edgeUses_cons]
        omega
    have e3 : (allDirectedEdges t').length = edgeUses t'.regions := rfl
    omega
  · have e : t'.edges.length = (clippedPoints cs t).length := by rw [← h2, List.length_map]
    rw [e, clippedPoints, List.length_append, List.length_map]
    have := List.length_filter_le (fun c : List Point => decide (c ≠ [])) cs
    omega
  · have e : pointCount t' = ((clippedPoints cs t).map List.length).sum := by rw [← h2, List.map_map]; rfl
    have e1 : ((cs.filter (· ≠ [])).map List.length).sum ≤ (cs.map List.length).sum :=
      sum_sublist (List.filter_sublist.map _)
    have e2 : 2 * (cs.map List.length).sum ≤ 3 * pointCount t := clippedBy_length hcs
    have e3 : (((newKeys cs t).map fun k => [k.1, k.2]).map List.length).sum = 2 * (newKeys cs t).length := by
      generalize newKeys cs t = l
      induction l with
      | nil => rfl
      | cons a l ih => simp only [List.map_cons, List.sum_cons, List.length_cons, List.length_nil] at ih ⊢; omega
    rw [e, clippedPoints, List.map_append, List.sum_append, e3]
    omega

/-! ## Normalizing -/

theorem normRings_paths (g : Nat → Nat) (out : List NormRing) :
    pathsSize g ((keptRings (out.map normRingToRing)).map ringPaths).flatten ≤ ringsSize g out := by
  rw [pathsSize_flatten, List.map_map]
  unfold keptRings ringsSize
  refine (sum_sublist (List.filter_sublist.map _)).trans ?_
  rw [List.map_map]
  refine sum_map_le fun r _ => ?_
  show pathsSize g ((r.map (·.points)).filter fun e => ¬ ZeroLength e) ≤ edgeSize g r
  refine (sum_sublist (List.filter_sublist.map _)).trans ?_
  rw [List.map_map]
  exact Nat.le_refl _

theorem normalizeRegion_size {δ : Type} {g : Nat → Nat} (hg : Subadditive g) {m : Build} {t : Topology δ}
    {r : TopoRegion δ} {r' : Region δ} (h : normalizeRegion m t r = .ok r') :
    pathsSize g (((keptRings r'.outerRings).map ringPaths).flatten ++ ((keptRings r'.innerRings).map ringPaths).flatten) ≤
      ((r.outerRings ++ r.innerRings).map (ringSize g t)).sum := by
  simp only [normalizeRegion, bind_ok] at h
  obtain ⟨o, h1, i, h2, h⟩ := h
  obtain rfl := Except.ok.inj h
  obtain ⟨no, h3, rfl⟩ := normalizeRegionRings_ok h1
  obtain ⟨ni, h4, rfl⟩ := normalizeRegionRings_ok h2
  have e1 := normalizeRegionNormRings_size hg h3
  have e2 := normalizeRegionNormRings_size hg h4
  have e3 := normRings_paths g no
  have e4 := normRings_paths g ni
  rw [pathsSize_append, List.map_append, List.sum_append]
  dsimp only
  omega

theorem normalize_size {δ : Type} {g : Nat → Nat} (hg : Subadditive g) {m : Build} {t t' : Topology δ}
    (h : normalize m t = .ok t') : topoSize g t' ≤ topoSize g t := by
  obtain ⟨rs, h1, h2⟩ := normalize_ok.mp h
  rw [built_size h2]
  unfold topoSize allRings
  generalize t.regions = regions at h1
  clear h2
  induction h1 with
  | nil => simp [allPaths, keptRegions, pathsSize]
  | @cons r r' rest rest' hr _ ih =>
    have e1 := normalizeRegion_size hg hr
    have e2 : pathsSize g (allPaths (r' :: rest')) ≤ pathsSize g (((keptRings r'.outerRings).map ringPaths).flatten ++
        ((keptRings r'.innerRings).map ringPaths).flatten) + pathsSize g (allPaths rest') := by
      unfold allPaths
      rw [keptRegions_cons]
      by_cases hk : keptRings r'.outerRings = []
      · rw [if_neg (not_not.mpr hk)]; simp
      · rw [if_pos hk, List.flatMap_append, pathsSize_append]
        simp
    rw [List.flatMap_cons, List.map_append, List.sum_append]
    omega

/-- C80: normalizing makes no more directed edges and no more segments, and at
most one edge for each directed edge. -/
theorem C80_normalize {δ : Type} (m : Build) (t t' : Topology δ) (h : normalize m t = .ok t') :
    (allDirectedEdges t').length ≤ (allDirectedEdges t).length ∧ walkedSegments t' ≤ walkedSegments t ∧
      t'.edges.length ≤ (allDirectedEdges t).length := by
  have e1 := normalize_size (g := fun _ => 1) ⟨fun _ _ _ => Nat.le_refl _, fun _ _ => by omega⟩ h
  have e2 := normalize_size (g := fun n => n - 1) ⟨fun _ _ _ => by omega, fun _ _ => by omega⟩ h
  rw [topoSize_one, topoSize_one] at e1
  rw [topoSize_segs, topoSize_segs] at e2
  obtain ⟨rs, _, h2⟩ := normalize_ok.mp h
  obtain ⟨b1, b2, _⟩ := C80_build m rs t' h2
  exact ⟨e1, e2, by omega⟩

/-! ## Simplifying -/

/-- C80: simplifying keeps the number of edges, and no edge gets more points. -/
theorem C80_simplify {δ : Type} (m : Build) (t t' : Topology δ) (s : Nat) (hs : s ≤ u64Max) (h : simplify m t s = .ok t') :
    allDirectedEdges t' = allDirectedEdges t ∧
    List.Forall₂ (fun e e' : TopoEdge => e'.points.length ≤ e.points.length) t.edges t'.edges ∧
    pointCount t' ≤ pointCount t := by
  obtain ⟨h1, h2⟩ := C45_frame m t t' s h
  have h3 : List.Forall₂ (fun e e' : TopoEdge => e'.points.length ≤ e.points.length) t.edges t'.edges :=
    h2.imp fun e e' he => (C38_subsequence m _ _ s hs he.1).1.length_le
  refine ⟨by unfold allDirectedEdges allRings; rw [h1], h3, ?_⟩
  unfold pointCount
  exact sum_forall₂ h3.flip

/-! ## What does not hold -/

/-- A comb and a bar of one region that touch each other along three edges. -/
def exCombRegions : List (Region String) :=
  [⟨"A", [.points [⟨0, 0⟩, ⟨2, 0⟩, ⟨2, 1⟩, ⟨1, 1⟩, ⟨1, 2⟩, ⟨2, 2⟩, ⟨2, 3⟩, ⟨1, 3⟩, ⟨1, 4⟩, ⟨2, 4⟩, ⟨2, 5⟩, ⟨0, 5⟩, ⟨0, 0⟩],
    .points [⟨2, 0⟩, ⟨3, 0⟩, ⟨3, 5⟩, ⟨2, 5⟩, ⟨2, 4⟩, ⟨2, 3⟩, ⟨2, 2⟩, ⟨2, 1⟩, ⟨2, 0⟩]], []⟩]

/-- Their topology. -/
def exComb : Topology String := ((buildTopology .debug exCombRegions).toOption.getD ⟨[], []⟩)

theorem exComb_built : buildTopology .debug exCombRegions = .ok exComb := by decide +kernel

/-- Its normalized topology. -/
def exCombNormal : Topology String := ((normalize .debug exComb).toOption.getD ⟨[], []⟩)

theorem exComb_normalize : normalize .debug exComb = .ok exCombNormal := by decide +kernel

/-- C80, refuted for the capacity in `join_adjacent_rings`, which is said to be an
upper bound: two rings can become three. -/
theorem C80_rings_refuted : ∃ t t' : Topology String, (∃ rs, buildTopology .debug rs = .ok t) ∧ WellFormed t ∧
    normalize .debug t = .ok t' ∧ t.regions.map (fun r => r.outerRings.length) = [2] ∧
    t'.regions.map (fun r => r.outerRings.length) = [3] :=
  ⟨exComb, exCombNormal, ⟨_, exComb_built⟩, (wellFormed_of_built exComb_built (by decide +kernel)).1,
    exComb_normalize, by decide +kernel, by decide +kernel⟩

/-- A rectangle, and two triangles of one region that touch each other at a
point of the rectangle's right side. -/
def exTwistRegions : List (Region String) :=
  [⟨"A", [.edges [[⟨1, 0⟩, ⟨1, 1⟩], [⟨1, 1⟩, ⟨1, 2⟩], [⟨1, 2⟩, ⟨0, 2⟩, ⟨0, 0⟩, ⟨1, 0⟩]]], []⟩,
   ⟨"B", [.edges [[⟨1, 0⟩, ⟨2, 0⟩, ⟨1, 1⟩], [⟨1, 1⟩, ⟨1, 0⟩]], .edges [[⟨1, 1⟩, ⟨2, 2⟩, ⟨1, 2⟩], [⟨1, 2⟩, ⟨1, 1⟩]]], []⟩]

/-- Their topology. -/
def exTwist : Topology String := ((buildTopology .debug exTwistRegions).toOption.getD ⟨[], []⟩)

theorem exTwist_built : buildTopology .debug exTwistRegions = .ok exTwist := by decide +kernel

/-- Its normalized topology. -/
def exTwistNormal : Topology String := ((normalize .debug exTwist).toOption.getD ⟨[], []⟩)

theorem exTwist_normalize : normalize .debug exTwist = .ok exTwistNormal := by decide +kernel

/-- C80, refuted for edges: the normalized topology can have more edges and more
points than the one it was made from. -/
theorem C80_edges_refuted : ∃ t t' : Topology String, (∃ rs, buildTopology .debug rs = .ok t) ∧ WellFormed t ∧
    normalize .debug t = .ok t' ∧ t.edges.length = 5 ∧ t'.edges.length = 6 ∧ pointCount t < pointCount t' :=
  ⟨exTwist, exTwistNormal, ⟨_, exTwist_built⟩, (wellFormed_of_built exTwist_built (by decide +kernel)).1,
    exTwist_normalize, by decide +kernel, by decide +kernel, by decide +kernel⟩

-- non-vacuity
example : (∃ rs, buildTopology .debug rs = .ok exNorm ∧ (allPaths rs).length = 13 ∧ exNorm.edges.length = 10) ∧
    normalize .debug exNorm = .ok exNormal ∧ (allDirectedEdges exNormal).length = 4 ∧
    walkedSegments exNorm = 13 ∧ walkedSegments exNormal = 11 :=
  ⟨⟨_, exNorm_built, by decide +kernel, by decide +kernel⟩, exNorm_normalize, by decide +kernel, by decide +kernel,
    by decide +kernel⟩
-- an island of one edge gets a second one
example : ((buildTopology .debug [⟨1, [.edges [[⟨0, 0⟩, ⟨10, 0⟩, ⟨10, 10⟩, ⟨0, 10⟩, ⟨0, 0⟩]]], []⟩]).bind fun t =>
    (clipTopology .debug t (.minX 5)).bind fun t' => .ok ((allDirectedEdges t).length, (allDirectedEdges t').length,
      t.edges.length, t'.edges.length, pointCount t, pointCount t')) = .ok (1, 2, 1, 2, 5, 6) := by decide +kernel
example : simplify .debug exNormal 1000 = .ok exSimplified ∧ pointCount exSimplified < pointCount exNormal := by
  decide +kernel

end TopoGeo
