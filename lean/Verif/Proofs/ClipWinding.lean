import Verif.Proofs.ClipArea
import Verif.Proofs.ClipCover
import Verif.Proofs.AreaRings
/-!
# Winding numbers of a clipped ring

As in `ClipCover`, the count is taken along a ray that never meets the mask line, but
segments that cross it one way are counted separately from those that cross it the
other way.
-/

namespace TopoGeo

open Spec

/-- Whether the segment crosses the ray away from the mask line, from smaller to larger
`y`. -/
def forthCrosses (mask : ClipMask) (x y : ℚ) (p q : Point) : Nat :=
  if (p.yi : ℚ) ≤ y then awayCrosses mask x y p q else 0

/-- The same from larger to smaller `y`. -/
def backCrosses (mask : ClipMask) (x y : ℚ) (p q : Point) : Nat := forthCrosses mask x y q p

theorem away_straddles {mask : ClipMask} {x y : ℚ} {p q : Point} (h : awayCrosses mask x y p q ≠ 0) : Straddles y p q := by
  unfold awayCrosses at h
  cases mask <;> simp only [ne_eq, ite_eq_right_iff, Classical.not_imp] at h
  · exact h.1.1
  · exact h.1.1
  · exact h.1.1
  · exact h.1.1

theorem straddles_ends {y : ℚ} {p q : Point} (h : Straddles y p q) : (p.yi : ℚ) ≤ y ↔ ¬ (q.yi : ℚ) ≤ y := by
  rcases h with ⟨h1, h2⟩ | ⟨h1, h2⟩
  · exact ⟨fun _ => not_le.mpr h2, fun _ => h1⟩
  · exact ⟨fun h => absurd h2 (not_lt.mpr h), fun h => absurd h1 h⟩

/-- Segments that share an end and count the same count the same in each direction. -/
theorem forth_of_away {mask : ClipMask} {x y : ℚ} {p q r : Point} (h : awayCrosses mask x y p q = awayCrosses mask x y p r) :
    forthCrosses mask x y p q = forthCrosses mask x y p r ∧ forthCrosses mask x y q p = forthCrosses mask x y r p := by
  refine ⟨by unfold forthCrosses; rw [h], ?_⟩
  unfold forthCrosses
  rw [awayCrosses_comm mask x y q p, awayCrosses_comm mask x y r p, ← h]
  by_cases h0 : awayCrosses mask x y p q = 0
  · simp [h0]
  · have h1 := straddles_ends (away_straddles h0)
    have h2 := straddles_ends (away_straddles (h ▸ h0))
    refine if_congr ?_ rfl rfl
    rw [← not_iff_not, ← h1, h2]

theorem forth_far {mask : ClipMask} {x y : ℚ} (hw : Within mask x y) {p q : Point} (hp : depth mask p ≤ 0)
    (hq : depth mask q ≤ 0) : forthCrosses mask x y p q = 0 := by
  unfold forthCrosses
  rw [awayCrosses_far hw hp hq]
  split <;> rfl

/-- What is left of a segment that crosses the mask line counts as all of it. -/
theorem visible_forth {m : Build} {mask : ClipMask} {x y : ℚ} (hw : Within mask x y) {p q : Point}
    (hX : Crosses mask p q → InI64 ((bound mask - tested mask p) * (other mask q - other mask p)))
    (hn : CutAskew mask (p, q) → ¬ NearSegment mask p q x y) :
    sumAlong (forthCrosses mask x y) (visiblePart mask (crossing m mask) p q) = forthCrosses mask x y p q ∧
    sumAlong (backCrosses mask x y) (visiblePart mask (crossing m mask) p q) = backCrosses mask x y p q := by
  have h := seenSum_away (m := m) hw (edge := [p, q])
    (by
      intro a b hab hc
      obtain ⟨rfl, rfl⟩ : a = p ∧ b = q := by simpa [pairs] using hab
      exact hX hc)
    (by
      intro s hs hc
      obtain rfl : s = (p, q) := by simpa [segs] using hs
      exact hn hc)
  simp only [seenSum, sumAlong, add_zero] at h
  unfold visiblePart at h ⊢
  unfold backCrosses
  by_cases h1 : 0 < depth mask p ∨ 0 < depth mask q
  · rw [if_pos h1] at h ⊢
    by_cases h2 : depth mask p < 0
    · rw [if_pos h2] at h ⊢
      simp only [sumAlong, add_zero] at h ⊢
      rw [awayCrosses_comm mask x y _ q, awayCrosses_comm mask x y p q] at h
      have := forth_of_away h
      exact ⟨this.2, this.1⟩
    · rw [if_neg h2] at h ⊢
      by_cases h3 : depth mask q < 0
      · rw [if_pos h3] at h ⊢
        simp only [sumAlong, add_zero] at h ⊢
        exact forth_of_away h
      · rw [if_neg h3]
        simp [sumAlong]
  · rw [if_neg h1]
    simp only [sumAlong]
    exact ⟨(forth_far hw (by omega) (by omega)).symm, (forth_far hw (by omega) (by omega)).symm⟩

theorem seenSum_forth {m : Build} {mask : ClipMask} {x y : ℚ} (hw : Within mask x y) {edge : List Point}
    (hX : ∀ p q, [p, q] ∈ pairs edge → Crosses mask p q →
      InI64 ((bound mask - tested mask p) * (other mask q - other mask p)))
    (hn : ∀ s ∈ segs edge, CutAskew mask s → ¬ NearSegment mask s.1 s.2 x y) :
    seenSum (forthCrosses mask x y) mask (crossing m mask) edge = sumAlong (forthCrosses mask x y) edge ∧
    seenSum (backCrosses mask x y) mask (crossing m mask) edge = sumAlong (backCrosses mask x y) edge := by
  induction edge with
  | nil => exact ⟨rfl, rfl⟩
  | cons p l ih =>
    cases l with
    | nil => exact ⟨rfl, rfl⟩
    | cons q l =>
      have h1 := ih (fun a b hab => hX a b (by rw [pairs]; exact List.mem_cons_of_mem _ hab))
        (fun s hs => hn s (by rw [segs]; exact List.mem_cons_of_mem _ hs))
      have h2 := visible_forth (m := m) hw (hX p q (by simp [pairs])) (hn (p, q) (by simp [segs]))
      simp only [seenSum, sumAlong]
      rw [h1.1, h1.2, h2.1, h2.2]
      exact ⟨rfl, rfl⟩

/-- Crossings one way less those the other way. -/
def netAlong (mask : ClipMask) (x y : ℚ) (l : List Point) : ℤ :=
  sumAlong (forthCrosses mask x y) l - sumAlong (backCrosses mask x y) l

theorem sumAlong_swapped (F : Point → Point → Nat) (l : List Point) : sumAlong F l.reverse = sumAlong (fun p q => F q p) l := by
  induction l with
  | nil => rfl
  | cons a l ih =>
    cases l with
    | nil => rfl
    | cons b l =>
      rw [List.reverse_cons, List.reverse_cons, List.append_assoc, List.singleton_append, sumAlong_append,
        ← List.reverse_cons, ih]
      simp only [sumAlong]
      omega

theorem netAlong_facing (mask : ClipMask) (x y : ℚ) (d : Direction) (l : List Point) :
    netAlong mask x y (facing d l) = (match d with | .forward => 1 | .backward => -1) * netAlong mask x y l := by
  cases d with
  | forward => simp [facing]
  | backward =>
    simp only [facing, netAlong, sumAlong_swapped]
    have : (fun p q => backCrosses mask x y q p) = forthCrosses mask x y := rfl
    rw [this]
    have : (fun p q => forthCrosses mask x y q p) = backCrosses mask x y := rfl
    rw [this]
    ring

/-- A clipped edge counts as the edge. -/
theorem netAlong_clipped {m : Build} {mask : ClipMask} {x y : ℚ} (hw : Within mask x y) {edge out : List Point}
    (h : clipEdge m mask edge = .ok out)
    (hX : ∀ p q, [p, q] ∈ pairs edge → Crosses mask p q →
      InI64 ((bound mask - tested mask p) * (other mask q - other mask p)))
    (hn : ∀ s ∈ segs edge, CutAskew mask s → ¬ NearSegment mask s.1 s.2 x y) : netAlong mask x y out = netAlong mask x y edge := by
  unfold netAlong
  rw [clipEdge_sumAlong (F := forthCrosses mask x y) (fun p q hp hq => forth_far hw hp.le hq.le) h,
    clipEdge_sumAlong (F := backCrosses mask x y) (fun p q hp hq => forth_far hw hq.le hp.le) h,
    (seenSum_forth hw hX hn).1, (seenSum_forth hw hX hn).2]

/-- `-1` if the ray goes to the left. -/
def rayWay : ClipMask → ℤ
  | .maxX _ => -1
  | _ => 1

/-- The winding number of a closed line, counted along the ray away from the mask line. -/
theorem winding_net {mask : ClipMask} {x y : ℚ} {paths : List (List Point)} (hc : Circular (paths.flatMap segs)) :
    winding (paths.flatMap segs) x y = rayWay mask * (paths.map (netAlong mask x y)).sum := by
  classical
  have hb : ∀ p : Point, above y p = if (p.yi : ℚ) ≤ y then 1 else 0 := fun p => by
    unfold above; exact if_congr (by exact_mod_cast Iff.rfl) rfl rfl
  have hx : ∀ p q : Point, ((x : ℝ) < crossX y (p, q)) ↔ x < p.xi + (y - p.yi) * (q.xi - p.xi) / (q.yi - p.yi) := by
    intro p q
    unfold crossX
    exact_mod_cast Iff.rfl
  have hseg : ∀ p q : Point, rayWay mask * ((forthCrosses mask x y p q : ℤ) - backCrosses mask x y p q) =
      turn x y (p, q) - (if rayWay mask = -1 then above y p - above y q else 0) := by
    intro p q
    rw [turn_eq]
    simp only [hb, hx]
    unfold backCrosses forthCrosses
    rw [awayCrosses_comm mask x y q p]
    cases mask <;> simp only [awayCrosses, rayWay, RayCrosses, Straddles] <;>
      by_cases h1 : (p.yi : ℚ) ≤ y <;> by_cases h2 : (q.yi : ℚ) ≤ y <;>
      by_cases h3 : x < p.xi + (y - p.yi) * (q.xi - p.xi) / (q.yi - p.yi) <;>
      simp [h1, h2, h3, not_lt.mpr, not_le.mp]
  have hpath : ∀ l : List Point, rayWay mask * netAlong mask x y l =
      winding (segs l) x y - (if rayWay mask = -1 then ((segs l).map fun s => above y s.1 - above y s.2).sum else 0) := by
    intro l
    induction l with
    | nil => simp [netAlong, sumAlong, segs, winding]
    | cons a l ih =>
      cases l with
      | nil => simp [netAlong, sumAlong, segs, winding]
      | cons b l =>
        have := hseg a b
        simp only [netAlong, winding] at ih ⊢
        simp only [sumAlong, segs, List.map_cons, List.sum_cons, Nat.cast_add] at ih ⊢
        split_ifs at this ih ⊢ <;> linarith
  have hall : ∀ ps : List (List Point), rayWay mask * (ps.map (netAlong mask x y)).sum =
      winding (ps.flatMap segs) x y -
        (if rayWay mask = -1 then ((ps.flatMap segs).map fun s => above y s.1 - above y s.2).sum else 0) := by
    intro ps
    induction ps with
    | nil => simp [winding]
    | cons l ps ih =>
      have := hpath l
      simp only [winding] at ih this ⊢
      simp only [List.map_cons, List.sum_cons, List.flatMap_cons, List.map_append, List.sum_append] at ih ⊢
      split_ifs at this ih ⊢ <;> linarith
  rw [hall paths, hc.sum (above y)]
  split_ifs <;> ring

/-- The pieces of a clipped ring count as what is left of its edges. -/
theorem pieces_netAlong {m : Build} {mask : ClipMask} {edges : List TopoEdge} {cs : List (List Point)} {x y : ℚ}
    (hwi : Within mask x y) (hcs : ClippedBy m mask edges cs) (hlen : ∀ e ∈ edges, 2 ≤ e.points.length) {ring : TopoRing}
    {paths : List (List Point)} (hw : ReadsAs edges paths ring) (hc : ClosedRing paths) :
    (((clippedPieces cs ring).map (Piece.path cs)).map (netAlong mask x y)).sum =
      (ring.directedEdges.map fun de => netAlong mask x y (facing de.direction (cs[de.edge]?.getD []))).sum := by
  have hplug := clippedPieces_onLine hcs hlen hw hc
  have key : ∀ l : List Piece, (∀ pc ∈ l, PlugOnLine mask pc) →
      ((l.map (Piece.path cs)).map (netAlong mask x y)).sum =
        (((l.filter Piece.isKept).map (Piece.path cs)).map (netAlong mask x y)).sum := by
    intro l hl
    induction l with
    | nil => rfl
    | cons pc l ih =>
      have ih := ih fun a ha => hl a (List.mem_cons_of_mem _ ha)
      have hp := hl pc (by simp)
      cases he : pc.edge with
      | kept i =>
        rw [List.filter_cons_of_pos (by simp [Piece.isKept, he])]
        simp only [List.map_cons, List.sum_cons, ih]
      | plug p q =>
        rw [List.filter_cons_of_neg (by simp [Piece.isKept, he])]
        unfold PlugOnLine at hp
        rw [he] at hp
        have : netAlong mask x y (pc.path cs) = 0 := by
          rw [Piece.path, netAlong_facing, he, PieceEdge.points]
          simp only [netAlong, sumAlong, backCrosses, forth_far hwi hp.1.le hp.2.le, forth_far hwi hp.2.le hp.1.le]
          simp
        simp only [List.map_cons, List.sum_cons, ih, this, zero_add]
  rw [key _ hplug, C31_visible_edges]
  generalize ring.directedEdges = des
  induction des with
  | nil => rfl
  | cons de des ih =>
    rw [List.map_cons, List.sum_cons, ← ih, List.filterMap_cons]
    unfold visiblePiece
    by_cases hn : cs[de.edge]?.getD [] = []
    · rw [if_pos hn, hn, netAlong_facing]
      simp [netAlong, sumAlong]
    · rw [if_neg hn]
      simp only [List.map_cons, List.sum_cons, Piece.path, PieceEdge.points]

/-- What is left of a ring goes around each point within the mask as often as the ring,
except next to the cuts. -/
theorem ring_winding {δ : Type} {m : Build} {mask : ClipMask} {t : Topology δ} {cs : List (List Point)}
    (hcs : ClippedBy m mask t.edges cs) (hlen : ∀ e ∈ t.edges, 2 ≤ e.points.length) (hprod : ProductsFit mask t)
    {ring : TopoRing} {paths : List (List Point)} (hr : ReadsAs t.edges paths ring) (hc : ClosedRing paths) {x y : ℚ}
    (hw : Within mask x y) (hn : ¬ NearCut mask (topoRingSegs t ring) x y) :
    winding (((clippedPieces cs ring).map (Piece.path cs)).flatMap segs) x y = winding (topoRingSegs t ring) x y := by
  have hpaths := pathsOf_reads hr
  have h1 : winding (((clippedPieces cs ring).map (Piece.path cs)).flatMap segs) x y =
      rayWay mask * (((clippedPieces cs ring).map (Piece.path cs)).map (netAlong mask x y)).sum := by
    by_cases h0 : clippedPieces cs ring = []
    · rw [h0]
      simp [winding]
    · exact winding_net (circular_closed (clippedPieces_closed h0))
  have h2 : winding (topoRingSegs t ring) x y = rayWay mask * (paths.map (netAlong mask x y)).sum := by
    unfold topoRingSegs
    rw [hpaths]
    exact winding_net (circular_closed hc)
  rw [h1, h2, pieces_netAlong hw hcs hlen hr hc, ← hpaths, pathsOf, List.map_map]
  have : (ring.directedEdges.map fun de => netAlong mask x y (facing de.direction (cs[de.edge]?.getD []))) =
      ring.directedEdges.map (netAlong mask x y ∘ pathOf t) := by
    apply List.map_congr_left
    intro de hde
    have hwd : ∃ path, walk t.edges de = some path := by
      have : walk t.edges de ∈ paths.map some := by
        rw [← show ring.directedEdges.map (walk t.edges) = paths.map some from hr]
        exact List.mem_map_of_mem hde
      obtain ⟨path, _, h⟩ := List.mem_map.mp this
      exact ⟨path, h.symm⟩
    obtain ⟨path, hpath⟩ := hwd
    have hpo : pathOf t de = path := by unfold pathOf; rw [hpath]; rfl
    have hmem : ∀ s ∈ segs path, s ∈ topoRingSegs t ring := fun s hs =>
      List.mem_flatMap.mpr ⟨path, by rw [pathsOf, ← hpo]; exact List.mem_map_of_mem hde, hs⟩
    unfold walk at hpath
    obtain ⟨e, he, hep⟩ := Option.map_eq_some_iff.mp hpath
    obtain ⟨c, hc1, hc2⟩ := forall₂_getElem?_exists hcs he
    have hside : ∀ s ∈ segs e.points, CutAskew mask s → ¬ NearSegment mask s.1 s.2 x y := by
      intro s hs hcr hnear
      apply hn
      cases hdir : de.direction with
      | forward =>
        rw [hdir] at hep
        exact ⟨s, hmem s (by rw [← hep]; exact hs), hcr, hnear⟩
      | backward =>
        rw [hdir] at hep
        refine ⟨s.swap, hmem _ ?_, ⟨crosses_comm.mpr hcr.1, Ne.symm hcr.2⟩, nearSegment_comm hnear⟩
        rw [← hep, segs_reverse, List.mem_reverse]
        exact List.mem_map_of_mem hs
    rw [Function.comp_apply, hpo, hc1, Option.getD_some, netAlong_facing,
      netAlong_clipped hw hc2 (hprod e (List.mem_of_getElem? he)) hside, ← netAlong_facing, ← hep]
    cases de.direction <;> rfl
  rw [this]

end TopoGeo
