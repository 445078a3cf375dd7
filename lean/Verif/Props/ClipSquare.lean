import Verif.Proofs.ClipSquare
import Verif.Props.Whole
import Mathlib.Data.List.Permutation
/-!
# C127: clipping to a rectangle
-/

namespace TopoGeo
open Spec

theorem square_step {δ : Type} (masks done : List ClipMask) (t : Topology δ) (hw : WellFormed t)
    (hs : ∀ mask ∈ masks, CutsSquare mask t) (hone : OneCorner done masks)
    (hp : ∀ mask ∈ masks, ∀ c : ℚ, (∀ a ∈ done, Across a mask → c ≠ bound a) → passedIn mask t c ≤ 2) :
    ∃ t', masks.foldlM (fun t mask => clipTopology .release t mask) t = .ok t' ∧
      (masks.foldlM (fun t mask => clipTopology .debug t mask) t = .ok t' ∨
        masks.foldlM (fun t mask => clipTopology .debug t mask) t = .error .overflow) := by
  induction masks generalizing done t with
  | nil => exact ⟨t, rfl, .inl rfl⟩
  | cons mask masks ih =>
    obtain ⟨h1, h2⟩ := hone
    obtain ⟨k, hk⟩ : ∃ k : ℚ, ∀ c ≠ k, ∀ a ∈ done, Across a mask → c ≠ bound a := by
      by_cases h : ∃ a ∈ done, Across a mask
      · obtain ⟨a, ha, hx⟩ := h
        refine ⟨bound a, fun c hc b hb hbx => ?_⟩
        rw [← h1 a ha b hb hx hbx]
        exact hc
      · exact ⟨0, fun c _ a ha hx => absurd ⟨a, ha, hx⟩ h⟩
    have hsm := hs mask (by simp)
    obtain ⟨t1, ht1, hdbg⟩ := clips_of_plugs hw fun cs hcs p q hpq hl =>
      square_plugs hsm k (fun c hc => hp mask (by simp) c (hk c hc)) hcs hpq hl
    have hin : ∀ mask' ∈ masks, CutsSquare mask' t := fun mask' h => hs mask' (List.mem_cons_of_mem _ h)
    obtain ⟨t', ht', hd'⟩ := ih (mask :: done) t1 (C82_clip .release mask t t1 hw.extended ht1)
      (fun mask' h => square_clipped hw ht1 hsm (hin mask' h)) h2 (by
        intro mask' hm c hc
        refine (passedIn_clipped hw ht1 hsm (hin mask' hm) (hc mask (by simp))).trans ?_
        exact hp mask' (List.mem_cons_of_mem _ hm) c fun a ha => hc a (List.mem_cons_of_mem _ ha))
    refine ⟨t', by rw [List.foldlM_cons, ht1]; exact ht', ?_⟩
    rw [List.foldlM_cons]
    rcases hdbg with h | h
    · rw [h]; exact hd'
    · rw [h]; exact .inr rfl

/-- C127: clip a map with several masks, one after the other, whose lines cut the
borders of its regions at right angles only. If the line of each mask is met by the
lines of those before it in at most one point, no step panics in a release build, and
debug builds do the same or stop at an overflow. -/
theorem C127_clips {δ : Type} (masks : List ClipMask) (t : Topology δ) (hw : WellFormed t) (hd : DrawnTopology t)
    (hs : ∀ mask ∈ masks, CutsSquare mask t) (hone : OneCorner [] masks) :
    ∃ t', masks.foldlM (fun t mask => clipTopology .release t mask) t = .ok t' ∧
      (masks.foldlM (fun t mask => clipTopology .debug t mask) t = .ok t' ∨
        masks.foldlM (fun t mask => clipTopology .debug t mask) t = .error .overflow) :=
  square_step masks [] t hw hs hone fun mask h c _ => square_two hw hd (hs mask h) c

/-- C127: two masks can be used one after the other, in either order, and a third one
whose line does not meet that of the second. -/
theorem C127_three {δ : Type} (a b c : ClipMask) (hbc : ¬ Across b c) (t : Topology δ) (hw : WellFormed t) (hd : DrawnTopology t)
    (hs : ∀ mask ∈ [a, b, c], CutsSquare mask t) :
    ∃ t1 t2 t3, clipTopology .release t a = .ok t1 ∧ clipTopology .release t1 b = .ok t2 ∧ clipTopology .release t2 c = .ok t3 := by
  obtain ⟨t', h, _⟩ := C127_clips [a, b, c] t hw hd hs (by
    refine ⟨by simp, ?_, ?_, trivial⟩
    · intro x hx y hy _ _
      simp only [List.mem_singleton] at hx hy
      rw [hx, hy]
    · intro x hx y hy h1 h2
      simp only [List.mem_cons, List.not_mem_nil, or_false] at hx hy
      rcases hx with rfl | rfl
      · exact absurd h1 hbc
      · rcases hy with rfl | rfl
        · exact absurd h2 hbc
        · rfl)
  rw [List.foldlM_cons, bind_ok] at h
  obtain ⟨t1, h1, h⟩ := h
  rw [List.foldlM_cons, bind_ok] at h
  obtain ⟨t2, h2, h⟩ := h
  rw [List.foldlM_cons, bind_ok] at h
  obtain ⟨t3, h3, _⟩ := h
  exact ⟨t1, t2, t3, h1, h2, h3⟩

/-! ## Maps of horizontal and vertical lines -/

theorem axis_square {mask : ClipMask} {s : Point × Point} (h : AxisParallel s) (hp : PassesLine mask s) :
    other mask s.1 = other mask s.2 := by
  unfold PassesLine at hp
  rcases h with h | h <;> cases mask <;> simp only [depth, other, h] at hp ⊢ <;> exact absurd trivial hp

/-- If every edge is used, its segments are those of rings. -/
theorem stored_used {δ : Type} {t : Topology δ} (hused : ∀ i < t.edges.length, ∃ de ∈ allDirectedEdges t, de.edge = i)
    {s : Point × Point} (h : s ∈ storedSegs t) : ∃ r ∈ t.regions, s ∈ topoRegionSegs t r ∨ s.swap ∈ topoRegionSegs t r := by
  obtain ⟨e, he, hs⟩ := List.mem_flatMap.mp h
  obtain ⟨i, hi, hei⟩ := List.mem_iff_getElem.mp he
  obtain ⟨de, hde, hdi⟩ := hused i hi
  obtain ⟨ring, hring, hde⟩ := List.mem_flatMap.mp hde
  obtain ⟨r, hr, hring⟩ := List.mem_flatMap.mp hring
  refine ⟨r, hr, ?_⟩
  have hmem : ∀ x, x ∈ segs (pathOf t de) → x ∈ topoRegionSegs t r := fun x hx =>
    List.mem_flatMap.mpr ⟨ring, hring, List.mem_flatMap.mpr ⟨_, List.mem_map_of_mem hde, hx⟩⟩
  have hpath : pathOf t de = facing de.direction e.points := by
    rw [pathOf_facing, hdi, List.getElem?_eq_getElem hi, hei]
    rfl
  rw [hpath] at hmem
  cases hd : de.direction with
  | forward => rw [hd] at hmem; exact .inl (hmem s hs)
  | backward =>
    rw [hd, facing, segs_reverse] at hmem
    exact .inr (hmem _ (List.mem_reverse.mpr (List.mem_map.mpr ⟨s, hs, rfl⟩)))

theorem Spec.AxisParallel.swap {s : Point × Point} (h : AxisParallel s) : AxisParallel s.swap := h.imp Eq.symm Eq.symm

theorem square_of_axis {δ : Type} {t : Topology δ} (hused : ∀ i < t.edges.length, ∃ de ∈ allDirectedEdges t, de.edge = i)
    (h : ∀ r ∈ t.regions, ∀ s ∈ topoRegionSegs t r, AxisParallel s) (mask : ClipMask) : CutsSquare mask t := by
  intro s hs hp
  obtain ⟨r, hr, hmem⟩ := stored_used hused hs
  refine axis_square ?_ hp
  rcases hmem with hmem | hmem
  · exact h r hr s hmem
  · have := (h r hr _ hmem).swap
    rwa [Prod.swap_swap] at this

/-- C127: from the regions on, if their borders run horizontally and vertically only.
The map is built, and can be clipped like that before or after it is normalized. -/
theorem C127_map {δ : Type} (masks : List ClipMask) (hone : OneCorner [] masks) (rs : List (Region δ)) (hd : DrawnMap rs)
    (closed : ∀ r ∈ rs, ∀ ring ∈ r.outerRings ++ r.innerRings, ringArea ring ≠ 0 → ClosedRing (ringPaths ring))
    (hax : ∀ k ∈ keptRegions rs, ∀ s ∈ partSegs k.rings, AxisParallel s) :
    ∃ t t1, buildTopology .release rs = .ok t ∧ normalize .release t = .ok t1 ∧
      (∃ t', masks.foldlM (fun t mask => clipTopology .release t mask) t = .ok t') ∧
      ∃ t', masks.foldlM (fun t mask => clipTopology .release t mask) t1 = .ok t' := by
  obtain ⟨t, t1, ht, h1, hs, _, _, _⟩ := C123_normalize rs hd closed
  obtain ⟨hw, ho, _⟩ := wellFormed_of_built ht closed
  have hdt := drawnTopology_of_map hd ht
  have hd1 := drawn_normalized hw hs ho hdt h1
  have hw1 := wellFormed_normalize hw h1
  have hax0 : ∀ r ∈ t.regions, ∀ s ∈ topoRegionSegs t r, AxisParallel s := by
    intro r hr s hmem
    obtain ⟨k, hk, hkr⟩ := forall₂_exists_left (topoRegionSegs_built ht) hr
    rw [hkr] at hmem
    exact hax k hk s hmem
  have hax1 : ∀ r ∈ t1.regions, ∀ s ∈ topoRegionSegs t1 r, AxisParallel s := by
    intro r1 hr1 s hmem
    obtain ⟨r, hr, l, hl, hf⟩ := segsTurned_normalized hw hs ho h1 r1 hr1
    obtain ⟨s', hs', h⟩ := forall₂_exists_right hf (hl.mem_iff.mp hmem)
    rcases h with rfl | rfl
    · exact hax0 r hr _ hs'
    · exact (hax0 r hr _ hs').swap
  obtain ⟨rs', hb, _⟩ := normalize_rebuilt hw.pointers hw.closed h1
  obtain ⟨u, hu, _⟩ := C127_clips masks t hw hdt (fun mask _ => square_of_axis (used_built ht) hax0 mask) hone
  obtain ⟨v, hv, _⟩ := C127_clips masks t1 hw1 hd1 (fun mask _ => square_of_axis (used_built hb) hax1 mask) hone
  exact ⟨t, t1, ht, h1, ⟨u, hu⟩, v, hv⟩

/-! ## Checking a map of horizontal and vertical lines on a grid -/

/-- The coordinate rounded down, and brought into the range of the map. -/
def gridCell (n : Int) (x : ℚ) : Int := max (-1) (min n ⌊x⌋)

/-- Whether the ray from a cell crosses a segment. -/
def cellCrosses (i j : Int) (s : Point × Point) : Bool :=
  ((decide (s.1.yi ≤ j) && decide (j < s.2.yi)) || (decide (s.2.yi ≤ j) && decide (j < s.1.yi))) && decide (i < s.1.xi)

theorem lt_gridCell {n a : Int} (h0 : 0 ≤ a) (h1 : a ≤ n) (x : ℚ) : x < a ↔ gridCell n x < a := by
  rw [← Int.floor_lt]
  unfold gridCell
  omega

theorem gridCell_le {n a : Int} (h0 : 0 ≤ a) (h1 : a ≤ n) (x : ℚ) : (a : ℚ) ≤ x ↔ a ≤ gridCell n x := by
  rw [← Int.le_floor]
  unfold gridCell
  omega

theorem crosses_cell {n : Int} {s : Point × Point} (h : AxisParallel s) (h1 : s.1.xi ≤ n ∧ s.1.yi ≤ n) (h2 : s.2.xi ≤ n ∧ s.2.yi ≤ n)
    (x y : ℚ) : RayCrosses x y s ↔ cellCrosses (gridCell n x) (gridCell n y) s = true := by
  have p1 : 0 ≤ s.1.xi := by simp only [Point.xi]; omega
  have p2 : 0 ≤ s.1.yi := by simp only [Point.yi]; omega
  have p4 : 0 ≤ s.2.yi := by simp only [Point.yi]; omega
  unfold RayCrosses cellCrosses
  simp only [Bool.and_eq_true, Bool.or_eq_true, decide_eq_true_eq]
  rw [gridCell_le p2 h1.2, gridCell_le p4 h2.2, lt_gridCell p2 h1.2, lt_gridCell p4 h2.2]
  rcases h with h | h
  · have hx : s.2.xi = s.1.xi := by simp only [Point.xi, h]
    rw [hx, sub_self, mul_zero, zero_div, add_zero, lt_gridCell p1 h1.1]
  · have hy : s.2.yi = s.1.yi := by simp only [Point.yi, h]
    rw [hy]
    constructor <;> (rintro ⟨h, _⟩; omega)

/-- Whether the cell is enclosed. -/
def cellIn (i j : Int) (l : List (Point × Point)) : Bool := decide (l.countP (cellCrosses i j) % 2 = 1)

theorem encloses_cell {n : Int} {l : List (Point × Point)}
    (h : ∀ s ∈ l, AxisParallel s ∧ (s.1.xi ≤ n ∧ s.1.yi ≤ n) ∧ s.2.xi ≤ n ∧ s.2.yi ≤ n) (x y : ℚ) :
    Encloses l x y ↔ cellIn (gridCell n x) (gridCell n y) l = true := by
  unfold Encloses cellIn
  rw [decide_eq_true_eq, Nat.odd_iff]
  have : (l.countP fun s => RayCrosses x y s) = l.countP (cellCrosses (gridCell n x) (gridCell n y)) :=
    List.countP_congr fun s hs => by
      rw [decide_eq_true_eq]
      exact crosses_cell (h s hs).1 (h s hs).2.1 (h s hs).2.2 x y
  rw [this]

/-- It is enough to look at the cells of the grid. -/
theorem covered_cells {n : Nat} {parts : List (List (List (List Point)))}
    (h : ∀ part ∈ parts, ∀ s ∈ partSegs part, AxisParallel s ∧ (s.1.xi ≤ n ∧ s.1.yi ≤ n) ∧ s.2.xi ≤ n ∧ s.2.yi ≤ n)
    (hc : ∀ i ∈ List.range (n + 2), ∀ j ∈ List.range (n + 2),
      (parts.map partSegs).countP (cellIn ((i : Int) - 1) ((j : Int) - 1)) ≤ 1) (x y : ℚ) : timesCovered parts x y ≤ 1 := by
  have hg : ∀ x : ℚ, ∃ i ∈ List.range (n + 2), gridCell n x = (i : Int) - 1 := by
    intro x
    refine ⟨(gridCell n x + 1).toNat, List.mem_range.mpr ?_, ?_⟩ <;> unfold gridCell <;> omega
  obtain ⟨i, hi, hx⟩ := hg x
  obtain ⟨j, hj, hy⟩ := hg y
  refine Nat.le_trans (Nat.le_of_eq ?_) (hc i hi j hj)
  rw [timesCovered_map]
  refine List.countP_congr fun l hl => ?_
  obtain ⟨part, hp, rfl⟩ := List.mem_map.mp hl
  rw [decide_eq_true_eq, encloses_cell (h part hp), hx, hy]

/-! ## The order of the masks matters -/

/-- A spiral, and two regions between its windings. -/
def exSpiral : List (Region Nat) :=
  [⟨7, [.points [⟨8, 9⟩, ⟨8, 6⟩, ⟨9, 6⟩, ⟨9, 12⟩, ⟨5, 12⟩, ⟨5, 4⟩, ⟨11, 4⟩, ⟨11, 14⟩, ⟨3, 14⟩, ⟨3, 10⟩, ⟨3, 8⟩, ⟨3, 2⟩, ⟨13, 2⟩, ⟨13, 16⟩, ⟨1, 16⟩,
       ⟨1, 10⟩, ⟨1, 8⟩, ⟨1, 0⟩, ⟨0, 0⟩, ⟨0, 17⟩, ⟨14, 17⟩, ⟨14, 1⟩, ⟨2, 1⟩, ⟨2, 8⟩, ⟨2, 10⟩, ⟨2, 15⟩, ⟨12, 15⟩, ⟨12, 3⟩, ⟨4, 3⟩, ⟨4, 8⟩,
       ⟨4, 10⟩, ⟨4, 13⟩, ⟨10, 13⟩, ⟨10, 5⟩, ⟨6, 5⟩, ⟨6, 9⟩, ⟨8, 9⟩]], []⟩,
   ⟨8, [.points [⟨1, 8⟩, ⟨1, 10⟩, ⟨2, 10⟩, ⟨2, 8⟩, ⟨1, 8⟩]], []⟩,
   ⟨9, [.points [⟨3, 8⟩, ⟨3, 10⟩, ⟨4, 10⟩, ⟨4, 8⟩, ⟨3, 8⟩]], []⟩]

/-- The spiral in the position for a last mask: the left, lower, right or upper side. -/
def spiralMap (k : Fin 4) : List (Region Nat) :=
  let f : Point → Point := match k with
    | 0 => id
    | 1 => fun p => ⟨p.y, p.x⟩
    | 2 => fun p => ⟨20 - p.x, p.y⟩
    | 3 => fun p => ⟨p.y, 20 - p.x⟩
  exSpiral.map fun r => ⟨r.data, r.outerRings.map fun ring => match ring with
    | .points ps => .points (ps.map f)
    | .edges es => .edges (es.map (List.map f)), []⟩

theorem spiralMap_axis (i : Fin 4) : ∀ k ∈ keptRegions (spiralMap i), ∀ s ∈ partSegs k.rings,
    AxisParallel s ∧ (s.1.xi ≤ (20 : Nat) ∧ s.1.yi ≤ (20 : Nat)) ∧ s.2.xi ≤ (20 : Nat) ∧ s.2.yi ≤ (20 : Nat) := by
  revert i; decide +kernel

theorem spiralMap_drawn (i : Fin 4) : DrawnMap (spiralMap i) := by
  refine ⟨by revert i; decide +kernel, covered_cells (n := 20) ?_ (by revert i; decide +kernel), by revert i; decide +kernel,
    by revert i; decide +kernel⟩
  intro part hp
  obtain ⟨k, hk, rfl⟩ := List.mem_map.mp hp
  exact spiralMap_axis i k hk

theorem spiralMap_closed (i : Fin 4) :
    ∀ r ∈ spiralMap i, ∀ ring ∈ r.outerRings ++ r.innerRings, ringArea ring ≠ 0 → ClosedRing (ringPaths ring) := by
  revert i; decide +kernel

-- non-vacuity: the left side first, then the others
example : OneCorner [] [.minX 7, .minY 7, .maxY 11] ∧ DrawnMap exSpiral ∧
    (∀ r ∈ exSpiral, ∀ ring ∈ r.outerRings ++ r.innerRings, ringArea ring ≠ 0 → ClosedRing (ringPaths ring)) ∧
    ∀ k ∈ keptRegions exSpiral, ∀ s ∈ partSegs k.rings, AxisParallel s :=
  ⟨by simp [OneCorner, Across], spiralMap_drawn 0, spiralMap_closed 0, fun k hk s hs => (spiralMap_axis 0 k hk s hs).1⟩

/-- The panic of clipping a map, if there is one. -/
def clipPanic (m : Build) (rs : List (Region Nat)) (masks : List ClipMask) : Option Panic :=
  match buildTopology m rs >>= fun t => masks.foldlM (fun t mask => clipTopology m t mask) t with
  | .ok _ => none
  | .error e => some e

theorem clipPanic_error {m : Build} {rs : List (Region Nat)} {masks : List ClipMask} {e : Panic} {t : Topology Nat}
    (h : clipPanic m rs masks = some e) (ht : buildTopology m rs = .ok t) :
    masks.foldlM (fun t mask => clipTopology m t mask) t = .error e := by
  unfold clipPanic at h
  rw [ht, ok_bind] at h
  revert h
  cases masks.foldlM (fun t mask => clipTopology m t mask) t with
  | ok _ => intro h; cases h
  | error e => intro h; cases h; rfl

/-- The same with normalizing before each mask. -/
def clipPanicNormalized (m : Build) (rs : List (Region Nat)) (masks : List ClipMask) : Option Panic :=
  match buildTopology m rs >>= fun t => masks.foldlM (fun t mask => normalize m t >>= fun t => clipTopology m t mask) t with
  | .ok _ => none
  | .error e => some e

/-- C127: the order of the masks matters, with or without overflow checks, and
normalizing the map before every step does not help. -/
theorem C127_order_matters : ∀ m,
    clipPanic m exSpiral [.minX 7, .minY 7, .maxY 11] = none ∧ clipPanic m exSpiral [.minY 7, .maxY 11, .minX 7] = some .assert ∧
      clipPanicNormalized m exSpiral [.minX 7, .minY 7, .maxY 11] = none ∧
      clipPanicNormalized m exSpiral [.minY 7, .maxY 11, .minX 7] = some .assert := by
  intro m; cases m <;> decide +kernel

/-- The sides of a rectangle. -/
def sideMask (x0 y0 x1 y1 : UInt32) : Fin 4 → ClipMask
  | 0 => .minX x0
  | 1 => .minY y0
  | 2 => .maxX x1
  | 3 => .maxY y1

theorem last_left : ∀ l ∈ ([.minY 7, .maxX 20, .maxY 11] : List ClipMask).permutations',
    clipPanic .release (spiralMap 0) (l ++ [.minX 7]) = some .assert := by decide +kernel

theorem last_low : ∀ l ∈ ([.minX 7, .maxX 11, .maxY 20] : List ClipMask).permutations',
    clipPanic .release (spiralMap 1) (l ++ [.minY 7]) = some .assert := by decide +kernel

theorem last_right : ∀ l ∈ ([.minX 0, .minY 7, .maxY 11] : List ClipMask).permutations',
    clipPanic .release (spiralMap 2) (l ++ [.maxX 13]) = some .assert := by decide +kernel

theorem last_high : ∀ l ∈ ([.minX 7, .minY 0, .maxX 11] : List ClipMask).permutations',
    clipPanic .release (spiralMap 3) (l ++ [.maxY 13]) = some .assert := by decide +kernel

/-- C127: there is no order of the four sides of a rectangle in which every map, even
of horizontal and vertical lines, can be clipped. -/
theorem C127_rectangle_refuted (order : List (Fin 4)) (h : order.Perm [0, 1, 2, 3]) :
    ∃ (x0 y0 x1 y1 : UInt32) (rs : List (Region Nat)) (t : Topology Nat), x0 < x1 ∧ y0 < y1 ∧ DrawnMap rs ∧
      (∀ r ∈ rs, ∀ ring ∈ r.outerRings ++ r.innerRings, ringArea ring ≠ 0 → ClosedRing (ringPaths ring)) ∧
      (∀ k ∈ keptRegions rs, ∀ s ∈ partSegs k.rings, AxisParallel s) ∧ buildTopology .release rs = .ok t ∧
      (order.map (sideMask x0 y0 x1 y1)).foldlM (fun t mask => clipTopology .release t mask) t = .error .assert := by
  have key : ∀ (i : Fin 4) (x0 y0 x1 y1 : UInt32), x0 < x1 → y0 < y1 →
      clipPanic .release (spiralMap i) (order.map (sideMask x0 y0 x1 y1)) = some .assert →
      ∃ (x0 y0 x1 y1 : UInt32) (rs : List (Region Nat)) (t : Topology Nat), x0 < x1 ∧ y0 < y1 ∧ DrawnMap rs ∧
        (∀ r ∈ rs, ∀ ring ∈ r.outerRings ++ r.innerRings, ringArea ring ≠ 0 → ClosedRing (ringPaths ring)) ∧
        (∀ k ∈ keptRegions rs, ∀ s ∈ partSegs k.rings, AxisParallel s) ∧ buildTopology .release rs = .ok t ∧
        (order.map (sideMask x0 y0 x1 y1)).foldlM (fun t mask => clipTopology .release t mask) t = .error .assert := by
    intro i x0 y0 x1 y1 hx hy hp
    obtain ⟨t, _, ht, _⟩ := C123_normalize (spiralMap i) (spiralMap_drawn i) (spiralMap_closed i)
    refine ⟨x0, y0, x1, y1, spiralMap i, t, hx, hy, spiralMap_drawn i, spiralMap_closed i,
      fun k hk s hs => (spiralMap_axis i k hk s hs).1, ht, ?_⟩
    exact clipPanic_error hp ht
  rcases List.eq_nil_or_concat order with rfl | ⟨l, k, rfl⟩
  · exact absurd h.length_eq (by decide)
  · have hl : ∀ l', ([0, 1, 2, 3] : List (Fin 4)).Perm (l' ++ [k]) → ∀ f : Fin 4 → ClipMask,
        l.map f ∈ (l'.map f).permutations' := by
      intro l' h' f
      rw [List.concat_eq_append] at h
      exact List.mem_permutations'.mpr (((List.perm_append_right_iff _).mp (h.trans h')).map f)
    rw [List.concat_eq_append] at key ⊢
    have hk : k = 0 ∨ k = 1 ∨ k = 2 ∨ k = 3 := by omega
    rcases hk with rfl | rfl | rfl | rfl
    · exact key 0 7 7 20 11 (by decide) (by decide) (by rw [List.map_append]; exact last_left _ (hl [1, 2, 3] (by decide) _))
    · exact key 1 7 7 11 20 (by decide) (by decide) (by rw [List.map_append]; exact last_low _ (hl [0, 2, 3] (by decide) _))
    · exact key 2 0 7 13 11 (by decide) (by decide) (by rw [List.map_append]; exact last_right _ (hl [0, 1, 3] (by decide) _))
    · exact key 3 7 0 11 13 (by decide) (by decide) (by rw [List.map_append]; exact last_high _ (hl [0, 1, 2] (by decide) _))

end TopoGeo
