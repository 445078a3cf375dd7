import Verif.Spec.ClipSquare
import Verif.Proofs.ClipNormalize
import Verif.Proofs.DrawnNormalized
/-!
# Clipping where borders are at right angles to the mask line
-/

namespace TopoGeo
open Spec

theorem square_meetsAt {mask : ClipMask} {s : Point × Point} (h : other mask s.1 = other mask s.2) :
    meetsAt mask s = other mask s.1 := by
  unfold meetsAt
  rw [h]
  simp

theorem square_intersect (m : Build) {mask : ClipMask} {p q : Point} (hc : Crosses mask p q) (h : other mask p = other mask q) :
    ∃ r, mask.intersect m p q = .ok r ∧ depth mask r = 0 ∧ other mask r = other mask p := by
  obtain ⟨r, h1, h2, h3, h4, _⟩ := C25_intersect m hc (by
    unfold crossProduct
    rw [h, sub_self, mul_zero]
    decide)
  refine ⟨r, h1, intersect_onLine h1, ?_⟩
  rw [h, min_self] at h3
  rw [h, max_self] at h4
  rw [h]
  omega

theorem square_clippedAt {m : Build} {mask : ClipMask} {s : Point × Point} {p : Point} (hp : PassesLine mask s)
    (h : other mask s.1 = other mask s.2) (hs : clippedAt m mask s = some p) : other mask p = other mask s.1 := by
  unfold clippedAt at hs
  split at hs
  · cases hs; rfl
  · split at hs
    · cases hs; exact h.symm
    · rename_i h1 h2
      obtain ⟨r, hr, _, ho⟩ := square_intersect m (mask := mask) (p := s.1) (q := s.2) (by
        unfold PassesLine at hp; unfold Crosses; omega) h
      rw [hr] at hs
      cases hs
      exact ho

/-- Where cuts are square, they are apart. -/
theorem square_apart {δ : Type} {m : Build} {mask : ClipMask} {t : Topology δ} (h : CutsSquare mask t) : CutsApart m mask t := by
  intro s hs s' hs' hp hp' p hc hc'
  have h1 := h s hs hp
  have h2 := h s' hs' hp'
  rw [square_meetsAt h1, square_meetsAt h2, ← square_clippedAt hp h1 hc, ← square_clippedAt hp' h2 hc']

theorem across_cases {a b : ClipMask} (h : ¬ Across a b) (p : Point) : tested a p = tested b p ∧ other a p = other b p := by
  cases a <;> cases b <;> simp_all [Across, tested, other]

theorem across_other {a b : ClipMask} (h : Across a b) (p : Point) : tested a p = other b p ∧ other a p = tested b p := by
  cases a <;> cases b <;> simp_all [Across, tested, other]

/-- Whether a segment passes the line in `c`. -/
def meetsIn (mask : ClipMask) (c : ℚ) (u v : Point) : Nat := if PassesLine mask (u, v) ∧ meetsAt mask (u, v) = c then 1 else 0

theorem meetsIn_comm (mask : ClipMask) (c : ℚ) (u v : Point) : meetsIn mask c u v = meetsIn mask c v u := by
  unfold meetsIn
  congr 1
  rw [eq_iff_iff]
  have := passesLine_swap mask (u, v)
  simp only [Prod.swap_prod_mk] at this
  rw [← this]
  constructor
  · rintro ⟨h1, h2⟩; exact ⟨h1, by rw [← h2]; exact (meetsAt_swap (s := (u, v)) (this.mp h1))⟩
  · rintro ⟨h1, h2⟩; exact ⟨h1, by rw [← h2]; exact (meetsAt_swap (s := (u, v)) (this.mp h1)).symm⟩

theorem sumAlong_meetsIn (mask : ClipMask) (c : ℚ) (l : List Point) :
    sumAlong (meetsIn mask c) l = (segs l).countP fun s => PassesLine mask s ∧ meetsAt mask s = c := by
  induction l with
  | nil => rfl
  | cons a l ih =>
    cases l with
    | nil => rfl
    | cons b l =>
      rw [sumAlong, segs, List.countP_cons, ih]
      unfold meetsIn
      simp only [decide_eq_true_eq]
      omega

/-- Points on the first line are in the corner if they are on the second one. -/
theorem meetsIn_line {first mask : ClipMask} {c : ℚ} (hc : Across first mask → c ≠ bound first) {u v : Point}
    (hu : depth first u = 0) (hv : depth first v = 0) : meetsIn mask c u v = 0 := by
  unfold meetsIn
  rw [if_neg]
  rintro ⟨h1, h2⟩
  rw [depth_zero_iff] at hu hv
  by_cases ha : Across first mask
  · refine hc ha ?_
    rw [← h2, square_meetsAt (s := (u, v)), ← (across_other ha u).1, hu]
    simp only
    rw [← (across_other ha u).1, ← (across_other ha v).1, hu, hv]
  · have h3 : tested mask u = tested mask v := by
      rw [← (across_cases ha u).1, ← (across_cases ha v).1, hu, hv]
    apply h1
    cases mask <;> simp only [depth, tested] at h3 ⊢ <;> omega

/-- What a cut at a right angle leaves passes no other line than before. -/
theorem meetsIn_cut {first mask : ClipMask} (c : ℚ) {u v x : Point} (hs : other first u = other first v)
    (hsm : PassesLine mask (u, v) → other mask u = other mask v)
    (hx : depth first x = 0) (ho : other first x = other first u) (hc : Crosses first u v) :
    meetsIn mask c x v ≤ meetsIn mask c u v := by
  unfold meetsIn
  split
  · rename_i h
    obtain ⟨h1, h2⟩ := h
    by_cases ha : Across first mask
    · exfalso
      apply h1
      have : tested mask x = tested mask v := by
        rw [← (across_other ha x).2, ← (across_other ha v).2, ho, hs]
      cases mask <;> simp only [depth, tested] at this ⊢ <;> omega
    · have hoth : ∀ p, other mask p = other first p := fun p => (across_cases ha p).2.symm
      have hpass : PassesLine mask (u, v) := by
        have htst : ∀ p, tested mask p = tested first p := fun p => (across_cases ha p).1.symm
        have hd : ∀ p, (depth mask p = tested first p - bound mask) ∨ (depth mask p = bound mask - tested first p) := by
          intro p
          rw [← htst]
          cases mask <;> simp [depth, tested, bound]
        unfold PassesLine at h1 ⊢
        unfold Crosses at hc
        simp only at h1 ⊢
        cases first <;> cases mask <;> simp [Across] at ha <;> simp only [depth] at h1 hc hx ⊢ <;> omega
      have hm : meetsAt mask (u, v) = c := by
        rw [← h2, square_meetsAt (s := (u, v)) (hsm hpass), square_meetsAt (s := (x, v))]
        · simp only [hoth, ho]
        · simp only [hoth, ho, hs]
      rw [if_pos ⟨hpass, hm⟩]
  · exact Nat.zero_le _

/-- Clipping does not make an edge pass the line of another mask more often. -/
theorem meetsIn_seen {first mask : ClipMask} {m : Build} {c : ℚ} {edge : List Point}
    (hs : ∀ s ∈ segs edge, PassesLine first s → other first s.1 = other first s.2)
    (hsm : ∀ s ∈ segs edge, PassesLine mask s → other mask s.1 = other mask s.2) :
    seenSum (meetsIn mask c) first (crossing m first) edge ≤ sumAlong (meetsIn mask c) edge := by
  induction edge with
  | nil => exact le_rfl
  | cons u l ih =>
    cases l with
    | nil => exact le_rfl
    | cons v l =>
      rw [seenSum, sumAlong]
      refine Nat.add_le_add ?_ (ih (fun s h => hs s (by rw [segs]; exact List.mem_cons_of_mem _ h))
        fun s h => hsm s (by rw [segs]; exact List.mem_cons_of_mem _ h))
      have h1 := hs (u, v) (by simp [segs])
      have h2 := hsm (u, v) (by simp [segs])
      have key : Crosses first u v → ∃ r, crossing m first u v = r ∧ depth first r = 0 ∧ other first r = other first u ∧
          other first u = other first v := by
        intro hc
        have ho := h1 (by unfold PassesLine; unfold Crosses at hc; simp only; omega)
        obtain ⟨r, e1, e2, e3⟩ := square_intersect m hc ho
        exact ⟨r, by unfold crossing; rw [e1], e2, e3, ho⟩
      unfold visiblePart
      split
      · split
        · have hc : Crosses first u v := .inl ⟨by omega, by omega⟩
          obtain ⟨r, e1, e2, e3, e4⟩ := key hc
          rw [e1]
          exact meetsIn_cut c e4 h2 e2 e3 hc
        · split
          · have hc : Crosses first u v := .inr ⟨by omega, by omega⟩
            obtain ⟨r, e1, e2, e3, e4⟩ := key hc
            rw [e1]
            simp only [sumAlong, Nat.add_zero]
            rw [meetsIn_comm mask c u r, meetsIn_comm mask c u v]
            refine meetsIn_cut c e4.symm (fun h => (h2 ((passesLine_swap mask (v, u)).mpr h)).symm) e2 (e3.trans e4) ?_
            unfold Crosses at hc ⊢
            tauto
          · exact le_rfl
      · exact Nat.zero_le _

/-- How often the borders of all regions pass the line in `c`. -/
def passedIn {δ : Type} (mask : ClipMask) (t : Topology δ) (c : ℚ) : Nat := (t.regions.map fun r => timesPassed mask t r c).sum

theorem storedPoints_mem {δ : Type} {t : Topology δ} {de : DirectedEdge} {s : Point × Point}
    (h : s ∈ segs (storedPoints t.edges de)) : s ∈ storedSegs t := by
  unfold storedPoints at h
  cases he : t.edges[de.edge]? with
  | none => rw [he] at h; simp [segs] at h
  | some e =>
    rw [he] at h
    exact List.mem_flatMap.mpr ⟨e, List.mem_of_getElem? he, h⟩

/-- The clipped rings of a region pass the line no more often than the region. -/
theorem meetsIn_rings {δ : Type} {t : Topology δ} {m : Build} {first mask : ClipMask} {cs : List (List Point)} (hw : WellFormed t)
    (hcs : ClippedBy m first t.edges cs) (hs : CutsSquare first t) (hsm : CutsSquare mask t) {c : ℚ}
    (hc : Across first mask → c ≠ bound first) {rings : List TopoRing} (hr : ∀ ring ∈ rings, ring ∈ allRings t) :
    ringsSum (meetsIn mask c) cs rings ≤
      (rings.flatMap fun ring => (pathsOf t ring).flatMap segs).countP fun s => PassesLine mask s ∧ meetsAt mask s = c := by
  unfold ringsSum
  induction rings with
  | nil => simp
  | cons ring rings ih =>
    rw [List.map_cons, List.sum_cons, List.flatMap_cons, List.countP_append]
    refine Nat.add_le_add ?_ (ih fun x hx => hr x (List.mem_cons_of_mem _ hx))
    obtain ⟨paths, h1, h2⟩ := hw.closed ring (hr ring (by simp))
    unfold piecesSum
    rw [pieces_sumAlong (meetsIn_comm mask c) (fun u v hu hv => meetsIn_line hc hu hv) hcs
      (fun e he => two_le_of_extended (hw.extended e he)) h1 h2]
    unfold pathsOf
    generalize ring.directedEdges = des
    induction des with
    | nil => simp
    | cons de des ih2 =>
      rw [List.map_cons, List.sum_cons, List.map_cons, List.flatMap_cons, List.countP_append]
      refine Nat.add_le_add ?_ ih2
      rw [clipEdge_sumAlong (fun u v hu hv => meetsIn_line hc hu hv) (clipped_stored hcs de), pathOf_facing, meets_facing,
        ← sumAlong_meetsIn]
      exact meetsIn_seen (fun s h => hs s (storedPoints_mem h)) fun s h => hsm s (storedPoints_mem h)

theorem reads_meets {δ : Type} {t : Topology δ} {cs : List (List Point)} (mask : ClipMask) (c : ℚ)
    {pss : List (List Spec.Piece)} {rings : List TopoRing}
    (h : List.Forall₂ (fun ps ring => ReadsAs t.edges (ps.map (Spec.Piece.path cs)) ring) pss rings) :
    ((rings.flatMap fun ring => (pathsOf t ring).flatMap segs).countP fun s => PassesLine mask s ∧ meetsAt mask s = c) =
      (pss.map (piecesSum (meetsIn mask c) cs)).sum := by
  induction h with
  | nil => rfl
  | cons h1 _ ih =>
    rw [List.flatMap_cons, List.countP_append, ih, List.map_cons, List.sum_cons, pathsOf_reads h1]
    congr 1
    unfold piecesSum
    rw [List.countP_flatMap]
    congr 1
    exact List.map_congr_left fun l _ => (sumAlong_meetsIn mask c l).symm

/-- A clipped map passes the line of another mask no more often than the map, except
where the two lines meet. -/
theorem passedIn_clipped {δ : Type} {t t1 : Topology δ} {m : Build} {first mask : ClipMask} (hw : WellFormed t)
    (h : clipTopology m t first = .ok t1) (hs : CutsSquare first t) (hsm : CutsSquare mask t) {c : ℚ}
    (hc : Across first mask → c ≠ bound first) : passedIn mask t1 c ≤ passedIn mask t c := by
  obtain ⟨cs, hcs, hf⟩ := C31_regions m first t t1 h
  have hcount : List.Forall₂ (fun r r1 => timesPassed mask t1 r1 c ≤ ringsSum (meetsIn mask c) cs (r.outerRings ++ r.innerRings))
      (t.regions.filter fun r => keptClipped cs r.outerRings ≠ []) t1.regions := by
    unfold clippedRegions at hf
    rw [List.forall₂_map_left_iff] at hf
    refine hf.imp ?_
    rintro r r1 ⟨_, h1, h2⟩
    unfold timesPassed topoRegionSegs
    rw [List.flatMap_append, List.countP_append]
    refine le_trans (Nat.add_le_add ((reads_meets mask c h1).le.trans (kept_le _ _ _)) ((reads_meets mask c h2).le.trans (kept_le _ _ _)))
      (le_of_eq ?_)
    unfold ringsSum
    rw [List.map_append, List.sum_append]
  have h2 : ((t.regions.filter fun r => keptClipped cs r.outerRings ≠ []).map fun r =>
      ringsSum (meetsIn mask c) cs (r.outerRings ++ r.innerRings)).sum ≤ passedIn mask t c := by
    refine le_trans (List.Sublist.sum_le_sum (List.Sublist.map _ List.filter_sublist) (by simp)) ?_
    unfold passedIn
    refine List.sum_le_sum fun r hr => ?_
    exact meetsIn_rings hw hcs hs hsm hc fun ring hring => List.mem_flatMap.mpr ⟨r, hr, hring⟩
  refine le_trans ?_ h2
  unfold passedIn
  generalize t1.regions = l1 at hcount
  generalize (t.regions.filter fun r => keptClipped cs r.outerRings ≠ []) = l0 at hcount
  clear h2
  induction hcount with
  | nil => simp
  | cons h1 _ ih =>
    rw [List.map_cons, List.sum_cons, List.map_cons, List.sum_cons]
    exact Nat.add_le_add h1 ih

theorem mem_pairs_of_segs {l : List Point} {s : Point × Point} (h : s ∈ segs l) : [s.1, s.2] ∈ pairs l := by
  induction l with
  | nil => simp [segs] at h
  | cons a l ih =>
    cases l with
    | nil => simp [segs] at h
    | cons b l =>
      rw [segs, List.mem_cons] at h
      rw [pairs, List.mem_cons]
      rcases h with rfl | h
      · exact .inl rfl
      · exact .inr (ih h)

theorem mem_segs_of_pairs {l : List Point} {p q : Point} (h : [p, q] ∈ pairs l) : (p, q) ∈ segs l := by
  induction l with
  | nil => simp [pairs] at h
  | cons a l ih =>
    cases l with
    | nil => simp [pairs] at h
    | cons b l =>
      rw [pairs, List.mem_cons] at h
      rw [segs, List.mem_cons]
      rcases h with h | h
      · cases h; exact .inl rfl
      · exact .inr (ih h)

/-- Both ends are on the first line. -/
theorem square_line {first mask : ClipMask} {u v : Point} (hu : depth first u = 0) (hv : depth first v = 0)
    (h : PassesLine mask (u, v)) : other mask u = other mask v := by
  rw [depth_zero_iff] at hu hv
  by_cases ha : Across first mask
  · rw [← (across_other ha u).1, ← (across_other ha v).1, hu, hv]
  · exfalso
    have h3 : tested mask u = tested mask v := by
      rw [← (across_cases ha u).1, ← (across_cases ha v).1, hu, hv]
    apply h
    cases mask <;> simp only [depth, tested] at h3 ⊢ <;> omega

/-- Lines that cut a map squarely cut the clipped map squarely. -/
theorem square_clipped {δ : Type} {t t1 : Topology δ} {m : Build} {first mask : ClipMask} (hw : WellFormed t)
    (h : clipTopology m t first = .ok t1) (hs : CutsSquare first t) (hsm : CutsSquare mask t) : CutsSquare mask t1 := by
  obtain ⟨cs, hcs, origin, _, g2, g3⟩ := C72_edges m first t t1 h
  rintro ⟨u, v⟩ hmem hpass
  obtain ⟨e, he, hseg⟩ := List.mem_flatMap.mp hmem
  obtain ⟨i, hi, hei⟩ := List.mem_iff_getElem.mp he
  have hpts := (g3 i e (by rw [List.getElem?_eq_getElem hi, hei])).1
  have hm := (g2 (origin i)).mp ⟨i, hi, rfl⟩
  rw [hpts] at hseg
  cases ho : origin i with
  | plug a b =>
    rw [ho] at hm hseg
    obtain ⟨r, hr, ring, hring, pc, hpc, hedge⟩ := hm
    have hring' : ring ∈ allRings t := by
      refine List.mem_flatMap.mpr ⟨r, hr, ?_⟩
      rcases hring with h | h
      · exact List.mem_append_left _ h
      · exact List.mem_append_right _ h.1
    obtain ⟨paths, h1, h2⟩ := hw.closed ring hring'
    have honline := clippedPieces_onLine hcs (fun e he => two_le_of_extended (hw.extended e he)) h1 h2 pc hpc
    unfold PlugOnLine at honline
    rw [hedge] at honline
    simp only [Spec.PieceEdge.points, segs, List.mem_singleton, Prod.mk.injEq] at hseg
    obtain ⟨rfl, rfl⟩ := hseg
    exact square_line honline.1 honline.2 hpass
  | kept j =>
    rw [ho] at hm hseg
    obtain ⟨out, h4, h5⟩ := hm
    have hj : j < t.edges.length := by
      rw [hcs.length_eq]; exact (List.getElem?_eq_some_iff.mp h4).1
    have hclip := clipped_stored hcs ⟨j, .forward⟩
    simp only [Spec.PieceEdge.points] at hseg
    obtain ⟨X, hX, hsteps⟩ := C28_steps hclip
    have hcross := C28_crossings hclip
    rcases hsteps u v (mem_pairs_of_segs hseg) with ⟨hu, hv⟩ | ⟨p, q, hpq, hvis⟩
    · exact square_line hu hv hpass
    · have hst := storedPoints_mem (mem_segs_of_pairs hpq)
      have h1 := hs _ hst
      have h2 := hsm _ hst
      have key : Crosses first p q → depth first (X p q) = 0 ∧ other first (X p q) = other first p ∧ other first p = other first q := by
        intro hc
        have ho := h1 (by unfold PassesLine; unfold Crosses at hc; simp only; omega)
        obtain ⟨r, e1, e2, e3⟩ := square_intersect m hc ho
        rw [hX p q r e1]
        exact ⟨e2, e3, ho⟩
      have cut : ∀ x w, other first x = other first w → PassesLine mask (x, w) → other mask x = other mask w := by
        intro x w hxw hp
        by_cases ha : Across first mask
        · exfalso
          have : tested mask x = tested mask w := by
            rw [← (across_other ha x).2, ← (across_other ha w).2, hxw]
          apply hp
          cases mask <;> simp only [depth, tested] at this ⊢ <;> omega
        · rw [← (across_cases ha x).2, ← (across_cases ha w).2, hxw]
      unfold visiblePart at hvis
      split at hvis
      · split at hvis
        · obtain ⟨_, e3, e4⟩ := key (.inl ⟨by omega, by omega⟩)
          simp only [List.cons.injEq, and_true] at hvis
          obtain ⟨rfl, rfl⟩ := hvis
          exact cut _ _ (e3.trans e4) hpass
        · split at hvis
          · obtain ⟨_, e3, e4⟩ := key (.inr ⟨by omega, by omega⟩)
            simp only [List.cons.injEq, and_true] at hvis
            obtain ⟨rfl, rfl⟩ := hvis
            exact cut _ _ e3.symm hpass
          · simp only [List.cons.injEq, and_true] at hvis
            obtain ⟨rfl, rfl⟩ := hvis
            exact h2 hpass
      · cases hvis

/-- A border that does not run along itself passes a line once in a point, if squarely. -/
theorem square_once {δ : Type} {t : Topology δ} {mask : ClipMask} (hd : DrawnTopology t) (hs : CutsSquare mask t)
    {r : TopoRegion δ} (hr : r ∈ t.regions) (c : ℚ) : timesPassed mask t r c ≤ 1 := by
  have hsq : ∀ s ∈ topoRegionSegs t r, PassesLine mask s → other mask s.1 = other mask s.2 := by
    intro s hmem hp
    obtain ⟨ring, _, hmem⟩ := List.mem_flatMap.mp hmem
    rcases mem_topoRingSegs hmem with h | h
    · exact hs s h hp
    · exact (hs _ h ((passesLine_swap mask s).mpr hp)).symm
  have hp := hd.once r hr
  unfold timesPassed
  generalize topoRegionSegs t r = l at hsq hp
  induction l with
  | nil => simp
  | cons a l ih =>
    rw [List.pairwise_cons] at hp
    rw [List.countP_cons]
    have h0 := ih (fun s hs => hsq s (List.mem_cons_of_mem _ hs)) hp.2
    by_cases ha : PassesLine mask a ∧ meetsAt mask a = c
    · rw [if_pos (by simpa using ha), List.countP_eq_zero.mpr]
      intro s hs he
      have he : PassesLine mask s ∧ meetsAt mask s = c := by simpa using he
      refine hp.1 s hs ?_
      have ea := hsq a (by simp) ha.1
      have es := hsq s (List.mem_cons_of_mem _ hs) he.1
      have hsame : other mask a.1 = other mask s.1 := by
        have := ha.2.trans he.2.symm
        rw [square_meetsAt ea, square_meetsAt es] at this
        exact_mod_cast this
      obtain ⟨h1, -⟩ := ha
      obtain ⟨h2, -⟩ := he
      unfold PassesLine at h1 h2
      unfold RunsAlong InLine RangesMeet Point.xi Point.yi
      cases mask <;> simp only [depth, other] at h1 h2 ea es hsame
      · refine ⟨?_, ?_, .inl (by omega)⟩
        · rw [show (a.2.y.toNat : Int) = a.1.y.toNat by omega, show (s.1.y.toNat : Int) = a.1.y.toNat by omega]; simp
        · rw [show (a.2.y.toNat : Int) = a.1.y.toNat by omega, show (s.2.y.toNat : Int) = a.1.y.toNat by omega]; simp
      · refine ⟨?_, ?_, .inl (by omega)⟩
        · rw [show (a.2.y.toNat : Int) = a.1.y.toNat by omega, show (s.1.y.toNat : Int) = a.1.y.toNat by omega]; simp
        · rw [show (a.2.y.toNat : Int) = a.1.y.toNat by omega, show (s.2.y.toNat : Int) = a.1.y.toNat by omega]; simp
      · refine ⟨?_, ?_, .inr (by omega)⟩
        · rw [show (a.2.x.toNat : Int) = a.1.x.toNat by omega, show (s.1.x.toNat : Int) = a.1.x.toNat by omega]; simp
        · rw [show (a.2.x.toNat : Int) = a.1.x.toNat by omega, show (s.2.x.toNat : Int) = a.1.x.toNat by omega]; simp
      · refine ⟨?_, ?_, .inr (by omega)⟩
        · rw [show (a.2.x.toNat : Int) = a.1.x.toNat by omega, show (s.1.x.toNat : Int) = a.1.x.toNat by omega]; simp
        · rw [show (a.2.x.toNat : Int) = a.1.x.toNat by omega, show (s.2.x.toNat : Int) = a.1.x.toNat by omega]; simp
    · rw [if_neg (by simpa using ha)]
      omega

theorem square_two {δ : Type} {t : Topology δ} {mask : ClipMask} (hw : WellFormed t) (hd : DrawnTopology t)
    (hs : CutsSquare mask t) (c : ℚ) : passedIn mask t c ≤ 2 := by
  have := meets_le_two_at hw.closed (mask := mask) (fun x y _ => hd.apart x y) c (fun _ => 0)
    fun r hr => by simpa using square_once hd hs hr c
  simpa [passedIn] using this

/-- Where no point but one is passed more than twice, no plug is used three times. -/
theorem square_plugs {δ : Type} {t : Topology δ} {mask : ClipMask} (hs : CutsSquare mask t)
    (k : ℚ) (hk : ∀ c ≠ k, passedIn mask t c ≤ 2) {cs : List (List Point)} (hcs : ClippedBy .release mask t.edges cs)
    {p q : Point} (hpq : p ≠ q) (hl : depth mask p = 0 ∧ depth mask q = 0) :
    (allPieces (clippedRegions cs t.regions)).countP (fun pc => pc.edge = .plug p q) ≤ 2 := by
  have hne : (other mask p : ℚ) ≠ other mask q := by
    intro h
    have h : other mask p = other mask q := by exact_mod_cast h
    have h1 := (depth_zero_iff mask p).mp hl.1
    have h2 := (depth_zero_iff mask q).mp hl.2
    refine hpq (point_ext_int ?_ ?_) <;> simp only [Point.xi, Point.yi] <;> cases mask <;>
      simp only [tested, other, bound] at h h1 h2 <;> omega
  obtain ⟨z, hz, hzk, hzl⟩ : ∃ z, (z = p ∨ z = q) ∧ (other mask z : ℚ) ≠ k ∧ depth mask z = 0 := by
    by_cases h : (other mask p : ℚ) = k
    · exact ⟨q, .inr rfl, fun h' => hne (h.trans h'.symm), hl.2⟩
    · exact ⟨p, .inl rfl, h, hl.1⟩
  obtain ⟨P, hPz, huse⟩ := line_uses_at (square_apart hs) hcs hzl (c := other mask z) (by
    intro s hmem hp hc
    rw [square_meetsAt (hs s hmem hp), square_clippedAt hp (hs s hmem hp) hc])
  refine le_trans (countP_pieces_le _ _ _) (le_trans ?_ (hk _ hzk))
  unfold passedIn
  refine List.sum_le_sum fun r _ => ?_
  refine le_trans ?_ ((Nat.le_add_right _ _).trans (huse r))
  refine List.sum_le_sum fun ring _ => ?_
  exact plugs_le_lineUses cs (by rcases hz with rfl | rfl; exacts [.inl hPz, .inr hPz]) hl _

end TopoGeo
