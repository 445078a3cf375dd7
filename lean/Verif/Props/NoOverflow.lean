import Verif.Proofs.NoOverflowClip
import Verif.Proofs.ClipTwins
import Verif.Props.Checked
import Verif.Props.Pipeline
import Verif.Props.SimplifyTopology
/-!
# C122: maps that are too small for an overflow

Checked builds panic where release builds wrap. If all coordinates have few bits and
the map has few segments, neither happens.
-/

namespace TopoGeo
open Spec

/-! ## One operation -/

/-- C122: building. -/
theorem C122_build {δ : Type} (k : Nat) (rs : List (Region δ))
    (h : ∀ r ∈ rs, ∀ ring ∈ r.outerRings ++ r.innerRings, SmallSegs k (ringSegs ring)) :
    buildTopology .debug rs = buildTopology .release rs ∧ ∀ m, buildTopology m rs ≠ .error .overflow :=
  ⟨(buildTopology_small .debug h).same (.bind (addRegions_checked _ _) fun _ => .refl _),
    fun m => buildTopology_small m h⟩

/-- C122: normalizing. -/
theorem C122_normalize {δ : Type} (k : Nat) (t : Topology δ) (hb : BackPointersExact t) (hc : RingsClosed t)
    (h : ∀ r ∈ t.regions, SmallSegs k (topoRegionSegs t r)) :
    normalize .debug t = normalize .release t ∧ ∀ m, normalize m t ≠ .error .overflow :=
  ⟨(normalize_small .debug hb hc h).same (normalize_checked t), fun m => normalize_small m hb hc h⟩

/-- C122: clipping. A ring needs room for three times as many segments as it has. -/
theorem C122_clip {δ : Type} (k : Nat) (hk : k ≤ 31) (mask : ClipMask) (t : Topology δ) (hb : BackPointersExact t) (hg : GridMap k t)
    (h : ∀ ring ∈ allRings t, 3 * ((pathsOf t ring).flatMap segs).length * 2 ^ (2 * k) < 2 ^ 63) :
    clipTopology .debug t mask = clipTopology .release t mask ∧ ∀ m, clipTopology m t mask ≠ .error .overflow := by
  have hk' : 2 ^ (2 * k) < 2 ^ 63 := Nat.pow_lt_pow_right (by decide) (by omega)
  exact ⟨(clip_small .debug hk' hb.2.2 hg h).same (clipTopology_checked t mask), fun m => clip_small m hk' hb.2.2 hg h⟩

theorem simplify_small {δ : Type} (m : Build) {k : Nat} (hk : k ≤ 21) {s : Nat} (hs : s ≤ u64Max) {t : Topology δ} (hg : GridMap k t) :
    Stays (simplify m t s) := by
  refine .bind ?_ fun _ _ => .ok _
  intro he
  obtain ⟨e, hm, he⟩ := simplifyEdges_error he
  rcases C40_panics m e.points s .overflow hs he with ⟨_, h⟩ | ⟨hp, rfl, _⟩
  · cases h
  · have h2 : 2 ^ k ≤ 2 ^ 21 := Nat.pow_le_pow_right (by decide) hk
    obtain ⟨out, ho⟩ := C40_debug e.points s hs hp fun p hp => by
      have := hg e hm p hp
      exact ⟨lt_of_lt_of_le this.1 h2, lt_of_lt_of_le this.2 h2⟩
    rw [ho] at he
    cases he

/-- C122: simplifying, where coordinates must have at most 21 bits. -/
theorem C122_simplify {δ : Type} (k : Nat) (hk : k ≤ 21) (s : Nat) (hs : s ≤ u64Max) (t : Topology δ) (hg : GridMap k t) :
    simplify .debug t s = simplify .release t s ∧ ∀ m, simplify m t s ≠ .error .overflow :=
  ⟨(simplify_small .debug hk hs hg).same (simplify_checked t s), fun m => simplify_small m hk hs hg⟩

/-! ## The map stays on the grid and stays small -/

theorem ringPaths_size (r : Ring) : pathsSize (fun n => n - 1) (ringPaths r) ≤ (ringSegs r).length := by
  have hsub : ∀ l : List (List Point), pathsSize (fun n => n - 1) (l.filter fun e => ¬ ZeroLength e) ≤ (l.flatMap segs).length := by
    intro l
    refine (sum_sublist (List.filter_sublist.map _)).trans (Nat.le_of_eq ?_)
    simp [List.length_flatMap, length_segs]
  cases r with
  | edges es => exact hsub es
  | points ps =>
    refine (hsub (pairs ps)).trans (Nat.le_of_eq ?_)
    simp only [ringSegs]
    induction ps with
    | nil => rfl
    | cons a l ih =>
      cases l with
      | nil => rfl
      | cons b l => simp only [pairs, segs, List.flatMap_cons, List.length_append, List.length_cons] at ih ⊢; simp only [segs, List.length_nil]; omega

theorem ringsPaths_size (l : List Ring) :
    pathsSize (fun n => n - 1) ((keptRings l).map ringPaths).flatten ≤ (l.flatMap ringSegs).length := by
  rw [pathsSize_flatten, List.map_map, List.length_flatMap]
  refine (sum_sublist (List.filter_sublist.map _)).trans ?_
  exact sum_map_le fun r _ => ringPaths_size r

/-- C122: a topology has at most as many segments as the rings that it is made of. -/
theorem C122_build_size {δ : Type} (m : Build) (rs : List (Region δ)) (t : Topology δ) (h : buildTopology m rs = .ok t) :
    walkedSegments t ≤ (givenSegs rs).length := by
  rw [← topoSize_segs, built_size h]
  unfold allPaths givenSegs keptRegions
  rw [List.length_flatMap, List.flatMap_map]
  have : ∀ l : List (Region δ), pathsSize (fun n => n - 1) (l.flatMap fun r =>
      ((keptRings r.outerRings).map ringPaths).flatten ++ ((keptRings r.innerRings).map ringPaths).flatten) ≤
      (l.map fun r => ((r.outerRings ++ r.innerRings).flatMap ringSegs).length).sum := by
    intro l
    induction l with
    | nil => simp [pathsSize]
    | cons r l ih =>
      have h1 := ringsPaths_size r.outerRings
      have h2 := ringsPaths_size r.innerRings
      rw [List.flatMap_cons, pathsSize_append, pathsSize_append, List.map_cons, List.sum_cons, List.flatMap_append, List.length_append]
      omega
  exact (this _).trans (sum_sublist (List.filter_sublist.map _))

theorem onGrid_of_segs {k : Nat} {l : List Point} (h2 : 2 ≤ l.length) (h : SegsOn k (segs l)) : ∀ p ∈ l, OnGrid k p := by
  induction l with
  | nil => simp
  | cons a l ih =>
    cases l with
    | nil => simp at h2
    | cons b l =>
      have hab := h (a, b) (by simp [segs])
      intro p hp
      rcases List.mem_cons.mp hp with rfl | hp
      · exact hab.1
      · cases l with
        | nil => simp at hp; subst hp; exact hab.2
        | cons c l => exact ih (by simp) (fun s hs => h s (by simp [segs] at hs ⊢; tauto)) p hp

theorem ringPaths_grid {k : Nat} {r : Ring} (h : SegsOn k (ringSegs r)) : ∀ e ∈ ringPaths r, ∀ p ∈ e, OnGrid k p := by
  intro e he
  obtain ⟨hm, hz⟩ := List.mem_filter.mp he
  have hz : ¬ ZeroLength e := by simpa using hz
  have hlen : 2 ≤ e.length := by
    by_contra hl
    exact hz (Or.inl (by omega))
  refine onGrid_of_segs hlen ?_
  rw [← getEdges_segs] at h
  refine fun s hs => h s (List.mem_flatMap.mpr ⟨e, ?_, hs⟩)
  cases r with
  | edges es => exact hm
  | points ps =>
    simp only at hm
    simp only [Ring.getEdges, tupleWindows_segs]
    obtain ⟨a, b, rfl⟩ : ∃ a b, e = [a, b] := by
      clear hz hlen he h
      induction ps with
      | nil => cases hm
      | cons x l ih =>
        cases l with
        | nil => cases hm
        | cons y l =>
          rcases List.mem_cons.mp hm with rfl | hm
          · exact ⟨x, y, rfl⟩
          · exact ih hm
    exact List.mem_map.mpr ⟨(a, b), (mem_segs_iff_pairs ps).mpr hm, rfl⟩

/-- C122: a topology made of rings on the grid is on the grid. -/
theorem C122_build_grid {δ : Type} (k : Nat) (m : Build) (rs : List (Region δ)) (t : Topology δ) (h : buildTopology m rs = .ok t)
    (hg : ∀ s ∈ givenSegs rs, OnGrid k s.1 ∧ OnGrid k s.2) : GridMap k t := by
  obtain ⟨_, h2, _⟩ := buildTopology_facts h
  intro e he
  have hk : e.points ∈ keysOf rs := by rw [← h2]; exact List.mem_map_of_mem he
  have hk := (firstOccurrences_sublist _).subset hk
  obtain ⟨path, hp, hpe⟩ := List.mem_map.mp hk
  have hgrid : ∀ p ∈ path, OnGrid k p := by
    obtain ⟨kr, hkr, hp⟩ := List.mem_flatMap.mp hp
    obtain ⟨r, hr, rfl⟩ := List.mem_map.mp hkr
    have hr := (List.mem_filter.mp hr).1
    have : ∃ ring ∈ r.outerRings ++ r.innerRings, path ∈ ringPaths ring := by
      rcases List.mem_append.mp hp with hp | hp <;> obtain ⟨l, hl, hp⟩ := List.mem_flatten.mp hp <;>
        obtain ⟨ring, hring, rfl⟩ := List.mem_map.mp hl <;> have hring := (List.mem_filter.mp hring).1
      · exact ⟨ring, List.mem_append_left _ hring, hp⟩
      · exact ⟨ring, List.mem_append_right _ hring, hp⟩
    obtain ⟨ring, hring, hp⟩ := this
    exact ringPaths_grid (fun s hs => hg s (List.mem_flatMap.mpr ⟨r, hr, List.mem_flatMap.mpr ⟨ring, hring, hs⟩⟩)) path hp
  rw [← hpe]
  unfold stored
  split
  · exact hgrid
  · intro p hp; exact hgrid p (List.mem_reverse.mp hp)

theorem region_small {δ : Type} {k : Nat} {t : Topology δ} (hg : GridMap k t) (h : walkedSegments t * 2 ^ (2 * k) < 2 ^ 63) :
    ∀ r ∈ t.regions, SmallSegs k (topoRegionSegs t r) := by
  intro r hr
  constructor
  · intro s hs
    obtain ⟨ring, _, hs⟩ := List.mem_flatMap.mp hs
    obtain ⟨path, hp, hs⟩ := List.mem_flatMap.mp hs
    have hpath : ∀ p ∈ path, OnGrid k p := by
      obtain ⟨de, _, rfl⟩ := List.mem_map.mp hp
      unfold pathOf walk
      cases he : t.edges[de.edge]? with
      | none => simp
      | some e =>
        have := hg e (List.mem_of_getElem? he)
        cases de.direction <;> simpa using this
    exact ⟨hpath _ (ends_mem_segs hs).1, hpath _ (ends_mem_segs hs).2⟩
  · refine lt_of_le_of_lt (Nat.mul_le_mul_right _ ?_) h
    have hw : walkedSegments t = (t.regions.map fun r => (topoRegionSegs t r).length).sum := by
      unfold walkedSegments allRings topoRegionSegs
      rw [List.flatMap_assoc, List.length_flatMap]
    rw [hw]
    exact List.single_le_sum (by simp) _ (List.mem_map_of_mem hr)

/-- C122: normalizing keeps a map on the grid. -/
theorem C122_normalize_grid {δ : Type} (k : Nat) (m : Build) (t t' : Topology δ) (hb : BackPointersExact t) (hc : RingsClosed t)
    (hs : ∀ r ∈ t.regions, SmallSegs k (topoRegionSegs t r)) (h : normalize m t = .ok t') : GridMap k t' := by
  obtain ⟨rs, h1, h2⟩ := normalize_ok.mp h
  refine C122_build_grid k m rs t' h2 ?_
  intro s hm
  obtain ⟨r', hr', hm⟩ := List.mem_flatMap.mp hm
  obtain ⟨ring, hring, hm'⟩ := List.mem_flatMap.mp hm
  obtain ⟨r, hr, he⟩ := forall₂_exists_left h1 hr'
  have hs := hs r hr
  unfold topoRegionSegs at hs
  rw [List.flatMap_append] at hs
  have ho := normalizeRegionRings_small m hb hc (order := .clockwise) (mem_allRings_outer hr) hs.onLeft
  have hi := normalizeRegionRings_small m hb hc (order := .counterClockwise) (mem_allRings_inner hr) hs.onRight
  obtain ⟨outer, ho', he⟩ := bind_ok.mp he
  obtain ⟨inner, hi', he⟩ := bind_ok.mp he
  obtain rfl := Except.ok.inj he
  rcases List.mem_append.mp hring with hring | hring
  · exact (ho.2 _ ho' ring hring).1 s hm'
  · exact (hi.2 _ hi' ring hring).1 s hm'

/-- C122: clipping keeps a map on the grid, wherever the mask is. -/
theorem C122_clip_grid {δ : Type} (k : Nat) (hk : k ≤ 31) (m : Build) (mask : ClipMask) (t t' : Topology δ) (hg : GridMap k t)
    (h : clipTopology m t mask = .ok t') : GridMap k t' := by
  have hk' : 2 ^ (2 * k) < 2 ^ 63 := Nat.pow_lt_pow_right (by decide) (by omega)
  obtain ⟨cs, hcs, hf⟩ := clipTopology_ok h
  obtain ⟨_, h2, _⟩ := finishTopology_backPointers hf
  have hc := clippedBy_grid hk' hg hcs
  intro e he p hp
  have hmem : e.points ∈ clippedPoints cs t := by rw [← h2]; exact List.mem_map_of_mem he
  rcases List.mem_append.mp hmem with hmem | hmem
  · exact hc _ (List.mem_filter.mp hmem).1 p hp
  · obtain ⟨⟨a, b⟩, hk, hab⟩ := List.mem_map.mp hmem
    obtain ⟨r, _, ring, _, pc, hpc, hpe⟩ := plug_mem_newKeys hk
    obtain ⟨⟨c1, h3, h4⟩, c2, h5, h6⟩ := plug_ends hpc hpe
    rw [← hab] at hp
    simp only [List.mem_cons, List.not_mem_nil, or_false] at hp
    rcases hp with rfl | rfl
    · exact hc _ h3 _ h4
    · exact hc _ h5 _ h6

theorem gap_size (cs : List (List Point)) (a b : Option Point) :
    pathsSize (fun n => n - 1) ((gap a b).map (Piece.path cs)) ≤ if a = none then 0 else 1 := by
  match a, b with
  | none, _ => simp [gap, pathsSize]
  | some p, none => simp [gap, pathsSize]
  | some p, some q =>
    simp only [gap, reduceCtorEq, if_false]
    split
    · simp [pathsSize]
    · have : ((plugPiece p q).path cs).length = 2 := by
        unfold plugPiece
        split <;> simp [Piece.path, PieceEdge.points, facing]
      simp [pathsSize, this]

theorem bridge_size (cs : List (List Point)) (des : List DirectedEdge) (prev : Option Point) :
    pathsSize (fun n => n - 1) ((bridge cs prev (des.filterMap (visiblePiece cs))).map (Piece.path cs)) +
      (if prev.or (endOf cs (des.filterMap (visiblePiece cs))) = none then 0 else 1) ≤
      leftOver cs des + if prev = none then 0 else 1 := by
  induction des generalizing prev with
  | nil => simp [bridge, pathsSize, endOf, leftOver]
  | cons de des ih =>
    rw [leftOver_cons]
    by_cases hc : cs[de.edge]?.getD [] = []
    · have : visiblePiece cs de = none := by simp [visiblePiece, hc]
      rw [List.filterMap_cons_none this, hc]
      simpa using ih prev
    · have : visiblePiece cs de = some ⟨.kept de.edge, de.direction⟩ := by simp [visiblePiece, hc]
      rw [List.filterMap_cons_some this]
      simp only [bridge, List.map_append, List.map_cons, pathsSize_append]
      have hg := gap_size cs prev (Piece.path cs ⟨.kept de.edge, de.direction⟩).head?
      have ih := ih (Piece.path cs ⟨.kept de.edge, de.direction⟩).getLast?
      have hlen : (Piece.path cs ⟨.kept de.edge, de.direction⟩).length = (cs[de.edge]?.getD []).length := by
        simp only [Piece.path, PieceEdge.points]
        cases de.direction <;> simp [facing]
      have hpos := List.length_pos_iff.mpr hc
      have hne : (Piece.path cs ⟨.kept de.edge, de.direction⟩).getLast? ≠ none := by
        rw [Ne, List.getLast?_eq_none_iff, ← List.length_eq_zero_iff]
        omega
      obtain ⟨x, hx⟩ := Option.ne_none_iff_exists'.mp hne
      rw [hx] at ih ⊢
      simp only [Option.some_or, reduceCtorEq, if_false] at ih
      have hcons : ∀ l : List (List Point), pathsSize (fun n => n - 1) (Piece.path cs ⟨.kept de.edge, de.direction⟩ :: l) =
          ((cs[de.edge]?.getD []).length - 1) + pathsSize (fun n => n - 1) l := by
        intro l; simp [pathsSize, hlen]
      rw [hcons]
      have : (if prev.or (endOf cs (⟨.kept de.edge, de.direction⟩ :: des.filterMap (visiblePiece cs))) = none then 0 else 1) ≤ 1 := by
        split <;> omega
      omega

theorem clippedPieces_size (cs : List (List Point)) (ring : TopoRing) :
    pathsSize (fun n => n - 1) ((clippedPieces cs ring).map (Piece.path cs)) ≤ leftOver cs ring.directedEdges := by
  unfold clippedPieces closeUp
  rw [List.map_append, pathsSize_append]
  have h1 := bridge_size cs ring.directedEdges none
  have h2 := gap_size cs (endOf cs (ring.directedEdges.filterMap (visiblePiece cs))) (startOf cs (ring.directedEdges.filterMap (visiblePiece cs)))
  rw [Option.none_or, if_pos rfl] at h1
  by_cases he : endOf cs (ring.directedEdges.filterMap (visiblePiece cs)) = none
  · rw [if_pos he] at h1 h2; omega
  · rw [if_neg he] at h1 h2; omega

/-- C122: clipping makes at most three segments of one. -/
theorem C122_clip_size {δ : Type} (m : Build) (mask : ClipMask) (t t' : Topology δ) (h : clipTopology m t mask = .ok t') :
    walkedSegments t' ≤ 3 * walkedSegments t := by
  obtain ⟨cs, hcs, hf⟩ := C31_regions m mask t t' h
  rw [← topoSize_segs, ← topoSize_segs]
  unfold topoSize allRings
  have hrings : ∀ rings : List TopoRing, ((keptClipped cs rings).map fun ps => pathsSize (fun n => n - 1) (ps.map (Piece.path cs))).sum ≤
      3 * (rings.map (ringSize (fun n => n - 1) t)).sum := by
    intro rings
    unfold keptClipped
    refine (sum_sublist (List.filter_sublist.map _)).trans ?_
    rw [List.map_map]
    induction rings with
    | nil => simp
    | cons r rings ih =>
      have h1 := clippedPieces_size cs r
      have h2 := leftOver_le hcs r
      rw [← ringSize_segs] at h2
      simp only [List.map_cons, List.sum_cons, Function.comp_apply] at ih ⊢
      omega
  have hread : ∀ {pss : List (List Spec.Piece)} {rings : List TopoRing},
      List.Forall₂ (fun ps ring => ReadsAs t'.edges (ps.map (Piece.path cs)) ring) pss rings →
      (rings.map (ringSize (fun n => n - 1) t')).sum = (pss.map fun ps => pathsSize (fun n => n - 1) (ps.map (Piece.path cs))).sum := by
    intro pss rings hr
    induction hr with
    | nil => rfl
    | cons h1 _ ih =>
      rw [List.map_cons, List.sum_cons, List.map_cons, List.sum_cons, ih]
      congr 1
      unfold ringSize pathsSize
      rw [pathsOf_reads h1]
  have hsum : ∀ {ks : List (ClippedRegion δ)} {regions : List (TopoRegion δ)},
      List.Forall₂ (fun (k : ClippedRegion δ) (r : TopoRegion δ) =>
        r.data = k.data ∧
        List.Forall₂ (fun ps ring => ReadsAs t'.edges (ps.map (Piece.path cs)) ring) k.outer r.outerRings ∧
        List.Forall₂ (fun ps ring => ReadsAs t'.edges (ps.map (Piece.path cs)) ring) k.inner r.innerRings) ks regions →
      ((regions.flatMap fun r => r.outerRings ++ r.innerRings).map (ringSize (fun n => n - 1) t')).sum =
        (ks.map fun k => ((k.outer ++ k.inner).map fun ps => pathsSize (fun n => n - 1) (ps.map (Piece.path cs))).sum).sum := by
    intro ks regions hr
    induction hr with
    | nil => rfl
    | cons h1 _ ih =>
      rw [List.flatMap_cons, List.map_append, List.sum_append, ih, List.map_cons, List.sum_cons, List.map_append, List.sum_append,
        hread h1.2.1, hread h1.2.2, List.map_append, List.sum_append]
  rw [hsum hf]
  unfold clippedRegions
  rw [List.map_map]
  refine (sum_sublist (List.filter_sublist.map _)).trans ?_
  generalize t.regions = regions
  induction regions with
  | nil => simp
  | cons r rs ih =>
    have h1 := hrings r.outerRings
    have h2 := hrings r.innerRings
    simp only [List.map_cons, List.sum_cons, Function.comp_apply, List.flatMap_cons, List.map_append, List.sum_append] at ih ⊢
    omega

/-- C122: simplifying keeps a map on the grid and adds no segment. -/
theorem C122_simplify_size {δ : Type} (k : Nat) (m : Build) (s : Nat) (hs : s ≤ u64Max) (t t' : Topology δ) (hg : GridMap k t)
    (h : simplify m t s = .ok t') : GridMap k t' ∧ walkedSegments t' ≤ walkedSegments t := by
  obtain ⟨h1, h2⟩ := C45_frame m t t' s h
  have hsub : ∀ {e e' : TopoEdge}, SimplifiedTo m s e e' → e'.points.Sublist e.points := fun he => (C38_subsequence m _ _ s hs he.1).1
  constructor
  · intro e' he' p hp
    obtain ⟨e, he, hh⟩ := forall₂_exists_left h2 he'
    exact hg e he p ((hsub hh).subset hp)
  · rw [← topoSize_segs, ← topoSize_segs]
    unfold topoSize allRings
    rw [h1]
    refine sum_map_le fun ring _ => ?_
    unfold ringSize pathsOf
    rw [List.map_map, List.map_map]
    refine sum_map_le fun de _ => ?_
    simp only [Function.comp_apply]
    have : (pathOf t' de).length ≤ (pathOf t de).length := by
      unfold pathOf walk
      cases he' : t'.edges[de.edge]? with
      | none => simp
      | some e' =>
        obtain ⟨hlt, hget⟩ := List.getElem?_eq_some_iff.mp he'
        have hlt' : de.edge < t.edges.length := by rw [h2.length_eq]; exact hlt
        have := (hsub (h2.get hlt' hlt)).length_le
        simp only [List.get_eq_getElem] at this
        rw [hget] at this
        rw [List.getElem?_eq_getElem hlt']
        cases de.direction <;> simpa using this
    omega

/-! ## All of them -/

/-- A well-formed map on the grid that may get `c` times as many segments without
an overflow. -/
structure SmallMap {δ : Type} (k c : Nat) (t : Topology δ) : Prop where
  wellFormed : WellFormed t
  grid : GridMap k t
  small : walkedSegments t * c * 2 ^ (2 * k) < 2 ^ 63

theorem SmallMap.less {δ : Type} {k c c' : Nat} {t t' : Topology δ} (h : SmallMap k c t) (hw : WellFormed t') (hg : GridMap k t')
    (hl : walkedSegments t' * c' ≤ walkedSegments t * c) : SmallMap k c' t' :=
  ⟨hw, hg, Nat.lt_of_le_of_lt (Nat.mul_le_mul_right _ hl) h.small⟩

theorem SmallMap.normalize {δ : Type} {k c : Nat} {t : Topology δ} (h : SmallMap k c t) (hc : 0 < c) :
    (TopoGeo.normalize .debug t = TopoGeo.normalize .release t ∧ ∀ m, TopoGeo.normalize m t ≠ .error .overflow) ∧
      ∀ m t', TopoGeo.normalize m t = .ok t' → SmallMap k c t' := by
  have hr := region_small h.grid (Nat.lt_of_le_of_lt (Nat.mul_le_mul_right _ (Nat.le_mul_of_pos_right _ hc)) h.small)
  refine ⟨C122_normalize k t h.wellFormed.pointers h.wellFormed.closed hr, fun m t' ht => ?_⟩
  exact h.less (wellFormed_normalize h.wellFormed ht) (C122_normalize_grid k m t t' h.wellFormed.pointers h.wellFormed.closed hr ht)
    (Nat.mul_le_mul_right _ (C80_normalize m t t' ht).2.1)

theorem SmallMap.clip {δ : Type} {k c : Nat} (hk : k ≤ 31) {t : Topology δ} (h : SmallMap k (c * 3) t) (hc : 0 < c) (mask : ClipMask) :
    (clipTopology .debug t mask = clipTopology .release t mask ∧ ∀ m, clipTopology m t mask ≠ .error .overflow) ∧
      ∀ m t', clipTopology m t mask = .ok t' → SmallMap k c t' := by
  have e : walkedSegments t * (c * 3) = 3 * walkedSegments t * c := by
    rw [← Nat.mul_assoc, Nat.mul_comm _ 3, Nat.mul_assoc]
  refine ⟨C122_clip k hk mask t h.wellFormed.pointers h.grid fun ring hm => ?_, fun m t' ht => ?_⟩
  · refine Nat.lt_of_le_of_lt (Nat.mul_le_mul_right _ ?_) h.small
    rw [e]
    refine Nat.le_trans (Nat.mul_le_mul_left _ ?_) (Nat.le_mul_of_pos_right _ hc)
    unfold walkedSegments
    exact ((List.sublist_flatten_of_mem (List.mem_map_of_mem (f := fun ring => (pathsOf t ring).flatMap segs) hm)).length_le).trans
      (Nat.le_of_eq (by rw [List.flatMap_def]))
  · refine h.less (C82_clip m mask t t' h.wellFormed.extended ht) (C122_clip_grid k hk m mask t t' h.grid ht) ?_
    rw [e]
    exact Nat.mul_le_mul_right _ (C122_clip_size m mask t t' ht)

theorem SmallMap.simplify {δ : Type} {k c : Nat} (hk : k ≤ 21) {s : Nat} (hs : s ≤ u64Max) {t : Topology δ} (h : SmallMap k c t) :
    (TopoGeo.simplify .debug t s = TopoGeo.simplify .release t s ∧ ∀ m, TopoGeo.simplify m t s ≠ .error .overflow) ∧
      ∀ m t', TopoGeo.simplify m t s = .ok t' → SmallMap k c t' := by
  refine ⟨C122_simplify k hk s hs t h.grid, fun m t' ht => ?_⟩
  obtain ⟨h1, h2⟩ := C122_simplify_size k m s hs t t' h.grid ht
  exact h.less (C81_well_formed m t t' s hs h.wellFormed ht) h1 (Nat.mul_le_mul_right _ h2)

theorem SmallMap.all {δ : Type} {k : Nat} (hk : k ≤ 31) {t : Topology δ} (ops : List Operation) (h : SmallMap k (3 ^ clips ops) t)
    (hs : ∀ s, .simplify s ∈ ops → k ≤ 21 ∧ s ≤ u64Max) :
    applyAll .debug t ops = applyAll .release t ops ∧ ∀ m, applyAll m t ops ≠ .error .overflow := by
  induction ops generalizing t with
  | nil => exact ⟨rfl, fun _ h => nomatch h⟩
  | cons op ops ih =>
    have hpow : 0 < 3 ^ clips ops := Nat.pow_pos (by decide)
    have key : (op.apply .debug t = op.apply .release t ∧ ∀ m, op.apply m t ≠ .error .overflow) ∧
        ∀ m t', op.apply m t = .ok t' → SmallMap k (3 ^ clips ops) t' := by
      cases op with
      | normalize => exact SmallMap.normalize h hpow
      | clip mask => exact SmallMap.clip hk h hpow mask
      | simplify s => exact SmallMap.simplify (hs s List.mem_cons_self).1 (hs s List.mem_cons_self).2 h
    obtain ⟨⟨k1, k2⟩, k3⟩ := key
    have ih : ∀ {t'}, SmallMap k (3 ^ clips ops) t' → _ := fun h' => ih h' fun s hm => hs s (List.mem_cons_of_mem _ hm)
    constructor
    · simp only [applyAll, k1]
      cases hr : op.apply .release t with
      | error e => exact Eq.trans (b := .error e) rfl rfl
      | ok t' => exact (ih (k3 .release t' hr)).1
    · intro m he
      rcases bind_error.mp he with he | ⟨t', ht, he⟩
      · exact k2 m he
      · exact (ih (k3 m t' ht)).2 m he

/-- C122: whatever is done to a small map in whatever order, checked builds and release
builds do the same. -/
theorem C122_operations {δ : Type} (k : Nat) (hk : k ≤ 31) (t : Topology δ) (ops : List Operation) (hw : WellFormed t) (hg : GridMap k t)
    (h : walkedSegments t * 3 ^ clips ops * 2 ^ (2 * k) < 2 ^ 63)
    (hs : ∀ s, .simplify s ∈ ops → k ≤ 21 ∧ s ≤ u64Max) :
    applyAll .debug t ops = applyAll .release t ops ∧ ∀ m, applyAll m t ops ≠ .error .overflow :=
  SmallMap.all hk ops ⟨hw, hg, h⟩ hs

/-- C122: from closed rings to the result. If the coordinates have at most `k` bits, and
three to the number of clippings times the number of segments times 2^2k is below 2^63,
then checked builds never panic for an overflow, release builds never wrap, and both
give the same. -/
theorem C122_all {δ : Type} (k : Nat) (hk : k ≤ 31) (rs : List (Region δ)) (ops : List Operation)
    (closed : ∀ r ∈ rs, ∀ ring ∈ r.outerRings ++ r.innerRings, ringArea ring ≠ 0 → ClosedRing (ringPaths ring))
    (hg : ∀ s ∈ givenSegs rs, OnGrid k s.1 ∧ OnGrid k s.2)
    (h : (givenSegs rs).length * 3 ^ clips ops * 2 ^ (2 * k) < 2 ^ 63)
    (hs : ∀ s, .simplify s ∈ ops → k ≤ 21 ∧ s ≤ u64Max) :
    (buildTopology .debug rs >>= fun t => applyAll .debug t ops) = (buildTopology .release rs >>= fun t => applyAll .release t ops) ∧
    ∀ m, (buildTopology m rs >>= fun t => applyAll m t ops) ≠ .error .overflow := by
  have hpow : 0 < 3 ^ clips ops := Nat.pow_pos (by decide)
  have hsmall : ∀ r ∈ rs, ∀ ring ∈ r.outerRings ++ r.innerRings, SmallSegs k (ringSegs ring) := by
    intro r hr ring hring
    have hsub : (ringSegs ring).Sublist (givenSegs rs) := by
      have h1 := List.sublist_flatten_of_mem (List.mem_map_of_mem (f := ringSegs) hring)
      have h2 := List.sublist_flatten_of_mem (List.mem_map_of_mem (f := fun r : Region δ => (r.outerRings ++ r.innerRings).flatMap ringSegs) hr)
      rw [← List.flatMap_def] at h1 h2
      exact h1.trans h2
    exact ⟨fun s hm => hg s (hsub.subset hm), Nat.lt_of_le_of_lt (Nat.mul_le_mul_right _
      (Nat.le_trans hsub.length_le (Nat.le_mul_of_pos_right _ hpow))) h⟩
  have hb := C122_build k rs hsmall
  have hops : ∀ m t, buildTopology m rs = .ok t →
      applyAll .debug t ops = applyAll .release t ops ∧ ∀ m, applyAll m t ops ≠ .error .overflow := fun m t ht =>
    SmallMap.all hk ops ⟨(wellFormed_of_built ht closed).1, C122_build_grid k m rs t ht hg,
      Nat.lt_of_le_of_lt (Nat.mul_le_mul_right _ (Nat.mul_le_mul_right _ (C122_build_size m rs t ht))) h⟩ hs
  constructor
  · rw [hb.1]
    cases hr : buildTopology .release rs with
    | error e => exact Eq.trans (b := .error e) rfl rfl
    | ok t => exact (hops .release t hr).1
  · intro m he
    rcases bind_error.mp he with he | ⟨t, ht, he⟩
    · exact hb.2 m he
    · exact (hops m t ht).2 m he

/-- Two regions that share an edge, with coordinates of 7 bits. -/
def exSmall : List (Region Nat) :=
  [⟨1, [.points [⟨10, 10⟩, ⟨60, 10⟩, ⟨60, 50⟩, ⟨10, 50⟩, ⟨10, 10⟩]], []⟩,
   ⟨2, [.points [⟨60, 10⟩, ⟨100, 10⟩, ⟨110, 30⟩, ⟨100, 50⟩, ⟨60, 50⟩, ⟨60, 10⟩]], []⟩]

-- non-vacuity: normalizing, clipping twice and simplifying; every panic-free step does something
example : (∀ r ∈ exSmall, ∀ ring ∈ r.outerRings ++ r.innerRings, ringArea ring ≠ 0 → ClosedRing (ringPaths ring)) ∧
    (∀ s ∈ givenSegs exSmall, OnGrid 7 s.1 ∧ OnGrid 7 s.2) ∧
    (givenSegs exSmall).length * 3 ^ clips [.normalize, .clip (.maxX 105), .normalize, .clip (.minX 20), .simplify 150000] * 2 ^ (2 * 7) < 2 ^ 63 ∧
    ((buildTopology .debug exSmall >>= fun t =>
      applyAll .debug t [.normalize, .clip (.maxX 105), .normalize, .clip (.minX 20), .simplify 150000]).toOption.map fun t =>
        (t.edges.map (·.points), walkedSegments t)) =
      some ([[⟨60, 10⟩, ⟨60, 50⟩], [⟨60, 10⟩, ⟨60, 50⟩], [⟨60, 10⟩, ⟨105, 20⟩, ⟨105, 40⟩, ⟨60, 50⟩]], 6) := by decide +kernel

/-- Twice around the square of 31 bits. -/
def exTwiceAround : List Point :=
  [⟨0, 0⟩, ⟨2147483647, 0⟩, ⟨2147483647, 2147483647⟩, ⟨0, 2147483647⟩, ⟨0, 0⟩, ⟨2147483647, 0⟩,
   ⟨2147483647, 2147483647⟩, ⟨0, 2147483647⟩, ⟨0, 0⟩]

/-- C122: the number of segments matters: eight of them with 31 bits are too many. -/
theorem C122_segments_matter : (∀ s ∈ givenSegs [(⟨(), [.points exTwiceAround], []⟩ : Region Unit)], OnGrid 31 s.1 ∧ OnGrid 31 s.2) ∧
    buildTopology .debug [(⟨(), [.points exTwiceAround], []⟩ : Region Unit)] = .error .overflow := by
  decide +kernel

/-- C122: so do the coordinates: three segments with 32 bits are too many. -/
theorem C122_bits_matter :
    buildTopology .debug [(⟨(), [.points [⟨0, 0⟩, ⟨4294967295, 0⟩, ⟨4294967295, 4294967295⟩, ⟨0, 0⟩]], []⟩ : Region Unit)] =
      .error .overflow := by
  decide +kernel

/-- C122: simplifying cannot do with 22 bits, however short the edge is. -/
theorem C122_simplify_bits_matter :
    simplify .debug (⟨[], [⟨[⟨2097152, 0⟩, ⟨2097152, 1⟩, ⟨1, 2097152⟩], none, none⟩]⟩ : Topology Unit) 1 = .error .overflow := by
  decide +kernel

end TopoGeo
