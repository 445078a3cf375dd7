import Verif.Spec.ClipNormalize
import Verif.Proofs.BuildSafe
import Verif.Props.BuildSafe
import Verif.Props.ClipSafe
/-!
# How often a clipped map passes a segment
-/

namespace TopoGeo
open Spec

/-- Whether it is the segment, in one of its two directions. -/
def isSeg (p q u v : Point) : Nat := if either p q (u, v) then 1 else 0

theorem isSeg_comm (p q u v : Point) : isSeg p q u v = isSeg p q v u := by
  unfold isSeg either
  congr 1
  simp only [eq_iff_iff, decide_eq_true_eq, Prod.mk.injEq]
  tauto

theorem sumAlong_isSeg (p q : Point) (l : List Point) : sumAlong (isSeg p q) l = (segs l).countP (either p q) := by
  induction l with
  | nil => rfl
  | cons a l ih =>
    cases l with
    | nil => rfl
    | cons b l =>
      rw [sumAlong, segs, List.countP_cons, ih]
      unfold isSeg
      omega

/-- What a segment must be to become this one. -/
theorem seen_cases {mask : ClipMask} {p q : Point} (hp : 0 < depth mask p) {s : Point × Point}
    (h : sumAlong (isSeg p q) (visiblePart mask (crossing .release mask) s.1 s.2) ≠ 0) :
    (0 < depth mask q ∧ (s = (p, q) ∨ s = (q, p))) ∨
    (depth mask q = 0 ∧ PassesLine mask s ∧ clippedAt .release mask s = some q ∧ (s.1 = p ∨ s.2 = p)) := by
  obtain ⟨u, v⟩ := s
  have two : ∀ a b, sumAlong (isSeg p q) [a, b] ≠ 0 → (a = p ∧ b = q) ∨ (a = q ∧ b = p) := by
    intro a b h
    by_contra hn
    refine h ?_
    simp only [sumAlong, isSeg, either, decide_eq_true_eq, Prod.mk.injEq, Nat.add_zero]
    exact if_neg hn
  have ok : Crosses mask u v → ∃ x, mask.intersect .release u v = .ok x ∧ crossing .release mask u v = x ∧
      depth mask x = 0 ∧ clippedAt .release mask (u, v) = some x := by
    intro hc
    cases hx : mask.intersect .release u v with
    | error e => cases (intersect_error hc hx).1
    | ok x => exact ⟨x, rfl, by unfold crossing; rw [hx], intersect_onLine hx, clippedAt_cross hx hc⟩
  unfold visiblePart at h
  simp only at h
  split at h
  · rename_i hin
    split at h
    · rename_i hu
      obtain ⟨x, _, h2, h3, h4⟩ := ok (.inl ⟨hu, by omega⟩)
      rw [h2] at h
      have hpass : PassesLine mask (u, v) := by simp only [PassesLine]; omega
      rcases two _ _ h with ⟨rfl, rfl⟩ | ⟨rfl, rfl⟩
      · omega
      · exact .inr ⟨h3, hpass, h4, .inr rfl⟩
    · split at h
      · rename_i hv
        obtain ⟨x, _, h2, h3, h4⟩ := ok (.inr ⟨by omega, hv⟩)
        rw [h2] at h
        have hpass : PassesLine mask (u, v) := by simp only [PassesLine]; omega
        rcases two _ _ h with ⟨rfl, rfl⟩ | ⟨rfl, rfl⟩
        · exact .inr ⟨h3, hpass, h4, .inl rfl⟩
        · omega
      · rename_i hu hv
        have hat : ∀ {a b : Point}, depth mask a ≠ 0 → depth mask b = 0 →
            clippedAt .release mask (a, b) = some b ∧ clippedAt .release mask (b, a) = some b := by
          intro a b ha hb
          constructor
          · unfold clippedAt; rw [if_neg ha, if_pos hb]
          · unfold clippedAt; rw [if_pos hb]
        rcases two _ _ h with ⟨rfl, rfl⟩ | ⟨rfl, rfl⟩
        · by_cases h0 : depth mask v = 0
          · exact .inr ⟨h0, by simp only [PassesLine]; omega, (hat (by omega) h0).1, .inl rfl⟩
          · exact .inl ⟨by omega, .inl rfl⟩
        · by_cases h0 : depth mask u = 0
          · exact .inr ⟨h0, by simp only [PassesLine]; omega, (hat (by omega) h0).2, .inr rfl⟩
          · exact .inl ⟨by omega, .inr rfl⟩
  · simp [sumAlong] at h

theorem seen_le_one (p q : Point) (mask : ClipMask) (X : Point → Point → Point) (u v : Point) :
    sumAlong (isSeg p q) (visiblePart mask X u v) ≤ 1 := by
  have two : ∀ a b, sumAlong (isSeg p q) [a, b] ≤ 1 := by
    intro a b
    simp only [sumAlong, isSeg]
    split <;> omega
  unfold visiblePart
  split
  · split
    · exact two _ _
    · split <;> exact two _ _
  · simp [sumAlong]

/-- There is a place that all segments have that clipping makes this one. -/
theorem exists_seen_place {δ : Type} {t : Topology δ} {mask : ClipMask} (hd : DrawnTopology t) (hapart : CutsApart .release mask t)
    {p q : Point} (hp : 0 < depth mask p) (hpq : p ≠ q) :
    ∃ (mask' : ClipMask) (T c : ℚ), (∀ r ∈ t.regions, timesAt mask' T c (topoRegionSegs t r) ≤ 1) ∧
      ∀ s ∈ storedSegs t, sumAlong (isSeg p q) (visiblePart mask (crossing .release mask) s.1 s.2) ≠ 0 →
        Spans mask' T s ∧ spanAt mask' T s = c := by
  by_cases hex : ∃ s0 ∈ storedSegs t, sumAlong (isSeg p q) (visiblePart mask (crossing .release mask) s0.1 s0.2) ≠ 0
  · obtain ⟨s0, hs0, h0⟩ := hex
    rcases seen_cases hp h0 with ⟨hq, _⟩ | ⟨hq, hpass0, hat0, hend0⟩
    · -- both ends are inside
      obtain ⟨mask', hm⟩ : ∃ mask' : ClipMask, (tested mask' p : ℚ) ≠ tested mask' q := by
        by_cases hx : p.x = q.x
        · refine ⟨.minY 0, fun h => hpq ?_⟩
          simp only [tested] at h
          have : p.y = q.y := UInt32.toNat_inj.mp (by exact_mod_cast h)
          cases p; cases q; simp_all
        · refine ⟨.minX 0, fun h => hx ?_⟩
          simp only [tested] at h
          exact UInt32.toNat_inj.mp (by exact_mod_cast h)
      obtain ⟨T, hT, hclear⟩ := exists_clear mask' (p, q) hm (t.regions.flatMap (topoRegionSegs t))
      refine ⟨mask', T, spanAt mask' T (p, q), fun r hr => timesAt_le_one (hd.once r hr) fun s hs =>
        hclear s (List.mem_flatMap.mpr ⟨r, hr, hs⟩), fun s hs h => ?_⟩
      rcases seen_cases hp h with ⟨_, rfl | rfl⟩ | ⟨hq', _⟩
      · exact ⟨hT, rfl⟩
      · exact ⟨Or.symm hT, spanAt_swap (s := (p, q)) hm⟩
      · omega
    · -- one end is on the mask line
      have hne : ∀ s, PassesLine mask s → (tested mask s.1 : ℚ) ≠ tested mask s.2 := by
        intro s hs h0
        have : tested mask s.1 = tested mask s.2 := by exact_mod_cast h0
        apply hs
        cases mask <;> simp only [depth, tested] at this ⊢ <;> omega
      have hline : ∀ s ∈ storedSegs t, PassesLine mask s → clippedAt .release mask s = some q → (s.1 = p ∨ s.2 = p) →
          OneLine mask s s0 := by
        intro s hs hpass hat hend
        have hmeet := hapart s hs s0 hs0 hpass hpass0 q hat hat0
        have hb : (bound mask : ℚ) ≠ tested mask p := by
          intro h
          have : bound mask = tested mask p := by exact_mod_cast h
          cases mask <;> simp only [depth, tested, bound] at this hp <;> omega
        have at_p : ∀ s, PassesLine mask s → (s.1 = p ∨ s.2 = p) → spanAt mask (tested mask p) s = other mask p := by
          rintro s hs (rfl | rfl)
          · exact spanAt_first mask s
          · exact spanAt_second mask (hne s hs)
        exact spanAt_two hb hmeet ((at_p s hpass hend).trans (at_p s0 hpass0 hend0).symm)
      have hspan : ∀ (T : ℚ), (min (bound mask : ℚ) (tested mask p) < T ∧ T < max (bound mask : ℚ) (tested mask p)) →
          ∀ s, PassesLine mask s → (s.1 = p ∨ s.2 = p) → Spans mask T s := by
        rintro T ⟨h1, h2⟩ s hpass hend
        have side : ∀ o, ¬ 0 < depth mask o → ((tested mask o : ℚ) ≤ bound mask ∧ (bound mask : ℚ) < tested mask p) ∨
            ((bound mask : ℚ) ≤ tested mask o ∧ (tested mask p : ℚ) < bound mask) := by
          intro o ho
          have : (tested mask o ≤ bound mask ∧ bound mask < tested mask p) ∨
              (bound mask ≤ tested mask o ∧ tested mask p < bound mask) := by
            cases mask <;> simp only [depth, tested, bound] at ho hp ⊢ <;> omega
          exact_mod_cast this
        have key : ∀ o, ¬ 0 < depth mask o → ((tested mask o : ℚ) ≤ T ∧ T < tested mask p) ∨
            ((tested mask p : ℚ) ≤ T ∧ T < tested mask o) := by
          intro o ho
          rcases side o ho with ⟨h3, h4⟩ | ⟨h3, h4⟩
          · rw [min_eq_left h4.le] at h1
            rw [max_eq_right h4.le] at h2
            exact .inl ⟨by linarith, h2⟩
          · rw [min_eq_right h4.le] at h1
            rw [max_eq_left h4.le] at h2
            exact .inr ⟨h1.le, by linarith⟩
        obtain ⟨u, v⟩ := s
        rcases hend with rfl | rfl
        · exact Or.symm (key v (by simp only [PassesLine] at hpass hp; omega))
        · exact key u (by simp only [PassesLine] at hpass hp; omega)
      have hlt : min (bound mask : ℚ) (tested mask p) < max (bound mask : ℚ) (tested mask p) := by
        have hb : (bound mask : ℚ) ≠ tested mask p := by
          intro h
          have : bound mask = tested mask p := by exact_mod_cast h
          cases mask <;> simp only [depth, tested, bound] at this hp <;> omega
        rcases lt_or_gt_of_ne hb with h | h
        · rw [min_eq_left h.le, max_eq_right h.le]; exact h
        · rw [min_eq_right h.le, max_eq_left h.le]; exact h
      obtain ⟨T, hT1, hT2, hclear⟩ := exists_clear_in mask s0 hlt (t.regions.flatMap (topoRegionSegs t))
      refine ⟨mask, T, spanAt mask T s0, fun r hr => timesAt_le_one (hd.once r hr) fun s hs =>
        hclear s (List.mem_flatMap.mpr ⟨r, hr, hs⟩), fun s hs h => ?_⟩
      rcases seen_cases hp h with ⟨hq', _⟩ | ⟨_, hpass, hat, hend⟩
      · omega
      · exact ⟨hspan T ⟨hT1, hT2⟩ s hpass hend, hline s hs hpass hat hend T⟩
  · refine ⟨.minX 0, -1, 0, fun r _ => ?_, fun s hs h => absurd ⟨s, hs, h⟩ hex⟩
    have : timesAt (.minX 0) (-1) 0 (topoRegionSegs t r) = 0 := by
      refine List.countP_eq_zero.mpr fun s _ h => ?_
      have h := (of_decide_eq_true h).1
      simp only [Spans, tested] at h
      have h1 : (0 : ℚ) ≤ ((s.1.x.toNat : Int) : ℚ) := by exact_mod_cast Int.natCast_nonneg _
      have h2 : (0 : ℚ) ≤ ((s.2.x.toNat : Int) : ℚ) := by exact_mod_cast Int.natCast_nonneg _
      rcases h with h | h <;> linarith [h.1]
    omega

/-! ## Segments inside of the mask -/

theorem timesAt_facing (mask : ClipMask) (T c : ℚ) (d : Direction) (l : List Point) :
    timesAt mask T c (segs (facing d l)) = timesAt mask T c (segs l) := by
  cases d with
  | forward => rfl
  | backward =>
    unfold timesAt
    rw [facing, segs_reverse, List.countP_reverse, List.countP_map]
    refine List.countP_congr fun s _ => ?_
    simp only [Function.comp, decide_eq_true_eq]
    have hswap : Spans mask T s.swap ↔ Spans mask T s := or_comm
    rw [hswap]
    constructor
    · rintro ⟨h1, h2⟩; exact ⟨h1, by rw [← spanAt_swap h1.ne]; exact h2⟩
    · rintro ⟨h1, h2⟩; exact ⟨h1, by rw [spanAt_swap h1.ne]; exact h2⟩

/-- The sum over the segments of pieces. -/
def piecesSum (F : Point → Point → Nat) (cs : List (List Point)) (ps : List Spec.Piece) : Nat :=
  ((ps.map (Spec.Piece.path cs)).map (sumAlong F)).sum

/-- The sum over the clipped rings of a region, be they kept or not. -/
def ringsSum (F : Point → Point → Nat) (cs : List (List Point)) (rings : List TopoRing) : Nat :=
  (rings.map fun ring => piecesSum F cs (clippedPieces cs ring)).sum

theorem seenSum_le {mask : ClipMask} {p q : Point} {place : Point × Point → Bool} {edge : List Point}
    (h : ∀ s ∈ segs edge, sumAlong (isSeg p q) (visiblePart mask (crossing .release mask) s.1 s.2) ≠ 0 → place s) :
    seenSum (isSeg p q) mask (crossing .release mask) edge ≤ (segs edge).countP place := by
  induction edge with
  | nil => simp [seenSum]
  | cons a l ih =>
    cases l with
    | nil => simp [seenSum]
    | cons b l =>
      rw [seenSum, segs, List.countP_cons]
      have h1 := ih fun s hs => h s (by rw [segs]; exact List.mem_cons_of_mem _ hs)
      have h2 := seen_le_one p q mask (crossing .release mask) a b
      have h3 := h (a, b) (by simp [segs])
      by_cases h0 : sumAlong (isSeg p q) (visiblePart mask (crossing .release mask) a b) = 0
      · omega
      · rw [if_pos (h3 h0)]; omega

/-- A clipped region passes a segment inside of the mask no more often than the region
passed one that becomes it. -/
theorem inside_count {δ : Type} {t : Topology δ} {mask : ClipMask} {cs : List (List Point)} (hw : WellFormed t)
    (hcs : ClippedBy .release mask t.edges cs) {p q : Point} (hp : 0 < depth mask p) {place : Point × Point → Bool}
    (hplace : ∀ s ∈ storedSegs t, sumAlong (isSeg p q) (visiblePart mask (crossing .release mask) s.1 s.2) ≠ 0 → place s)
    {rings : List TopoRing} (hr : ∀ ring ∈ rings, ring ∈ allRings t) :
    ringsSum (isSeg p q) cs rings ≤ ((rings.flatMap (·.directedEdges)).map fun de =>
      (segs (storedPoints t.edges de)).countP place).sum := by
  have hF : ∀ u v, depth mask u = 0 → depth mask v = 0 → isSeg p q u v = 0 := by
    intro u v hu hv
    unfold isSeg either
    rw [if_neg]
    simp only [decide_eq_true_eq, Prod.mk.injEq]
    rintro (⟨rfl, rfl⟩ | ⟨rfl, rfl⟩) <;> omega
  unfold ringsSum
  induction rings with
  | nil => simp
  | cons ring rings ih =>
    rw [List.map_cons, List.sum_cons, List.flatMap_cons, List.map_append, List.sum_append]
    refine Nat.add_le_add ?_ (ih fun x hx => hr x (List.mem_cons_of_mem _ hx))
    obtain ⟨paths, h1, h2⟩ := hw.closed ring (hr ring (by simp))
    unfold piecesSum
    rw [pieces_sumAlong (isSeg_comm p q) hF hcs (fun e he => two_le_of_extended (hw.extended e he)) h1 h2]
    generalize ring.directedEdges = des
    induction des with
    | nil => simp
    | cons de des ih2 =>
      rw [List.map_cons, List.sum_cons, List.map_cons, List.sum_cons]
      refine Nat.add_le_add ?_ ih2
      rw [clipEdge_sumAlong hF (clipped_stored hcs de)]
      refine seenSum_le fun s hs => hplace s ?_
      unfold storedPoints at hs
      cases he : t.edges[de.edge]? with
      | none => rw [he] at hs; simp [segs] at hs
      | some e =>
        rw [he] at hs
        exact List.mem_flatMap.mpr ⟨e, List.mem_of_getElem? he, hs⟩

theorem timesAt_append (mask : ClipMask) (T c : ℚ) (l l' : List (Point × Point)) :
    timesAt mask T c (l ++ l') = timesAt mask T c l + timesAt mask T c l' := List.countP_append

theorem timesAt_rings {δ : Type} (t : Topology δ) (mask : ClipMask) (T c : ℚ) (rings : List TopoRing) :
    ((rings.flatMap (·.directedEdges)).map fun de => timesAt mask T c (segs (storedPoints t.edges de))).sum =
      timesAt mask T c (rings.flatMap fun ring => (pathsOf t ring).flatMap segs) := by
  induction rings with
  | nil => rfl
  | cons ring rings ih =>
    rw [List.flatMap_cons, List.map_append, List.sum_append, ih, List.flatMap_cons, timesAt_append]
    congr 1
    unfold pathsOf
    generalize ring.directedEdges = des
    induction des with
    | nil => rfl
    | cons de des ih2 =>
      rw [List.map_cons, List.sum_cons, ih2, List.map_cons, List.flatMap_cons, timesAt_append, pathOf_facing, timesAt_facing]
      rfl

/-- How often a region of a clipped map, with all its rings, passes a segment. -/
theorem inside_le_two {δ : Type} {t : Topology δ} {mask : ClipMask} {cs : List (List Point)} (hw : WellFormed t)
    (hd : DrawnTopology t) (hapart : CutsApart .release mask t) (hcs : ClippedBy .release mask t.edges cs) {p q : Point}
    (hp : 0 < depth mask p) :
    (∀ r ∈ t.regions, ringsSum (isSeg p q) cs (r.outerRings ++ r.innerRings) ≤ 1) ∧
      (t.regions.map fun r => ringsSum (isSeg p q) cs (r.outerRings ++ r.innerRings)).sum ≤ 2 := by
  have hall : ∀ r ∈ t.regions, ∀ ring ∈ r.outerRings ++ r.innerRings, ring ∈ allRings t :=
    fun r hr ring hring => List.mem_flatMap.mpr ⟨r, hr, hring⟩
  by_cases hpq : p = q
  · subst hpq
    have hz : ∀ r ∈ t.regions, ringsSum (isSeg p p) cs (r.outerRings ++ r.innerRings) = 0 := by
      intro r hr
      refine Nat.le_zero.mp ((inside_count hw hcs hp (place := fun s => s = (p, p)) (fun s _ h => ?_) (hall r hr)).trans
        (le_of_eq ?_))
      · rcases seen_cases hp h with ⟨_, h | h⟩ | ⟨h, _⟩
        · simpa using h
        · simpa using h
        · omega
      · rw [List.sum_eq_zero_iff]
        intro n hn
        obtain ⟨de, hde, rfl⟩ := List.mem_map.mp hn
        rw [List.countP_eq_zero]
        intro s hs h
        obtain rfl : s = (p, p) := by simpa using h
        obtain ⟨ring, hring, hde⟩ := List.mem_flatMap.mp hde
        refine hd.moves r hr (p, p) ?_ rfl
        refine List.mem_flatMap.mpr ⟨ring, hring, List.mem_flatMap.mpr ⟨pathOf t de, List.mem_map_of_mem hde, ?_⟩⟩
        rw [pathOf_facing]
        have hs : (p, p) ∈ segs ((t.edges[de.edge]?.map TopoEdge.points).getD []) := hs
        cases de.direction with
        | forward => exact hs
        | backward =>
          rw [facing, segs_reverse, List.mem_reverse]
          exact List.mem_map.mpr ⟨(p, p), hs, rfl⟩
    refine ⟨fun r hr => by rw [hz r hr]; omega, ?_⟩
    rw [List.sum_eq_zero_iff.mpr (by
      intro n hn
      obtain ⟨r, hr, rfl⟩ := List.mem_map.mp hn
      exact hz r hr)]
    omega
  · obtain ⟨mask', T, c, h1, h2⟩ := exists_seen_place hd hapart hp hpq
    have hle : ∀ r ∈ t.regions, ringsSum (isSeg p q) cs (r.outerRings ++ r.innerRings) ≤
        timesAt mask' T c (topoRegionSegs t r) := by
      intro r hr
      refine (inside_count hw hcs hp (place := fun s => Spans mask' T s ∧ spanAt mask' T s = c)
        (fun s hs h => by simpa using h2 s hs h) (hall r hr)).trans (le_of_eq ?_)
      exact timesAt_rings t mask' T c _
    refine ⟨fun r hr => (hle r hr).trans (h1 r hr), ?_⟩
    have hsegs : ∀ r : TopoRegion δ, partSegs ((r.outerRings ++ r.innerRings).map (pathsOf t)) = topoRegionSegs t r := by
      intro r
      unfold partSegs topoRegionSegs
      rw [List.flatMap_map]
    have h3 := place_le_two (regs := t.regions.map fun r => (r.outerRings ++ r.innerRings).map (pathsOf t)) (mask := mask')
      (T := T) (c := c) (by
        intro rings hrs paths hp
        obtain ⟨r, hr, rfl⟩ := List.mem_map.mp hrs
        obtain ⟨ring, hring, rfl⟩ := List.mem_map.mp hp
        exact pathsOf_closed hw.closed (hall r hr ring hring)) (by
        intro x y
        rw [List.countP_map]
        refine le_trans (le_of_eq ?_) (hd.apart x y)
        unfold cover
        congr 1
        funext r
        simp only [Function.comp, hsegs]) (by
        intro rings hrs
        obtain ⟨r, hr, rfl⟩ := List.mem_map.mp hrs
        rw [hsegs]
        exact h1 r hr)
    rw [List.map_map] at h3
    refine le_trans (List.sum_le_sum fun r hr => ?_) h3
    simp only [Function.comp, hsegs]
    exact hle r hr

theorem isSeg_swap (p q : Point) : isSeg p q = isSeg q p := by
  funext u v
  unfold isSeg either
  congr 1
  simp only [eq_iff_iff, decide_eq_true_eq]
  tauto

theorem sumAlong_mono {F G : Point → Point → Nat} (h : ∀ u v, F u v ≤ G u v) (l : List Point) :
    sumAlong F l ≤ sumAlong G l := by
  induction l with
  | nil => exact le_rfl
  | cons a l ih =>
    cases l with
    | nil => exact le_rfl
    | cons b l => exact Nat.add_le_add (h a b) ih

theorem sumAlong_none {F : Point → Point → Nat} {l : List Point} (h : ∀ u ∈ l, ∀ v ∈ l, F u v = 0) : sumAlong F l = 0 := by
  induction l with
  | nil => rfl
  | cons a l ih =>
    cases l with
    | nil => rfl
    | cons b l =>
      rw [sumAlong, h a (by simp) b (by simp), ih fun u hu v hv => h u (List.mem_cons_of_mem _ hu) v (List.mem_cons_of_mem _ hv)]

/-- Nothing is left outside of the mask. -/
theorem outside_zero {δ : Type} {t : Topology δ} {mask : ClipMask} {cs : List (List Point)} (hw : WellFormed t)
    (hcs : ClippedBy .release mask t.edges cs) {p q : Point} (hp : depth mask p < 0) {rings : List TopoRing}
    (hr : ∀ ring ∈ rings, ring ∈ allRings t) : ringsSum (isSeg p q) cs rings = 0 := by
  have hz : ∀ u v, 0 ≤ depth mask u → 0 ≤ depth mask v → isSeg p q u v = 0 := by
    intro u v hu hv
    unfold isSeg either
    rw [if_neg]
    simp only [decide_eq_true_eq, Prod.mk.injEq]
    rintro (⟨rfl, rfl⟩ | ⟨rfl, rfl⟩) <;> omega
  unfold ringsSum
  rw [List.sum_eq_zero_iff]
  intro n hn
  obtain ⟨ring, hring, rfl⟩ := List.mem_map.mp hn
  obtain ⟨paths, h1, h2⟩ := hw.closed ring (hr ring hring)
  unfold piecesSum
  rw [pieces_sumAlong (isSeg_comm p q) (fun u v hu hv => hz u v (by omega) (by omega)) hcs
    (fun e he => two_le_of_extended (hw.extended e he)) h1 h2, List.sum_eq_zero_iff]
  intro n hn
  obtain ⟨de, _, rfl⟩ := List.mem_map.mp hn
  have hin := C26_stays_inside (clipped_stored hcs de)
  exact sumAlong_none fun u hu v hv => hz u v (hin u hu) (hin v hv)

/-- On the mask line. -/
theorem line_le_two {δ : Type} {t : Topology δ} {mask : ClipMask} {cs : List (List Point)} (hw : WellFormed t)
    (hno : NoOverlap mask t) (honce : PassesOnce mask t) (hapart : CutsApart .release mask t)
    (hcs : ClippedBy .release mask t.edges cs) {p q : Point} (hp : depth mask p = 0) (hq : depth mask q = 0) :
    (∀ r ∈ t.regions, ringsSum (isSeg p q) cs (r.outerRings ++ r.innerRings) ≤ 1) ∧
      (t.regions.map fun r => ringsSum (isSeg p q) cs (r.outerRings ++ r.innerRings)).sum ≤ 2 := by
  obtain ⟨P, c, hPp, huse⟩ := line_uses hapart hcs hp
  have hF : ∀ u v, isSeg p q u v ≤ lineEnds mask P u v := by
    intro u v
    unfold isSeg either
    split
    · rename_i h
      simp only [decide_eq_true_eq, Prod.mk.injEq] at h
      unfold lineEnds
      rcases h with ⟨rfl, rfl⟩ | ⟨rfl, rfl⟩
      · rw [if_pos ⟨hp, hq⟩]
        simp [isAt, hPp]
      · rw [if_pos ⟨hq, hp⟩]
        simp [isAt, hPp]
    · omega
  have hle : ∀ r : TopoRegion δ, ringsSum (isSeg p q) cs (r.outerRings ++ r.innerRings) + 2 * timesTouched mask t r c ≤
      timesPassed mask t r c := by
    intro r
    refine le_trans (Nat.add_le_add_right ?_ _) (huse r)
    unfold ringsSum piecesSum lineUses
    refine List.sum_le_sum fun ring _ => ?_
    rw [List.map_map]
    exact List.sum_le_sum fun pc _ => sumAlong_mono hF _
  constructor
  · intro r hr
    have h1 := hle r
    have h2 := honce r hr c
    omega
  · refine le_trans (List.sum_le_sum fun r _ => ?_) (meets_le_two hw.closed hno honce c)
    exact Nat.le_sub_of_add_le (hle r)

/-- The clipped rings of a region pass a segment once, those of all regions twice. -/
theorem clipped_le_two {δ : Type} {t : Topology δ} {mask : ClipMask} {cs : List (List Point)} (hw : WellFormed t)
    (hd : DrawnTopology t) (honce : PassesOnce mask t) (hapart : CutsApart .release mask t)
    (hcs : ClippedBy .release mask t.edges cs) (p q : Point) :
    (∀ r ∈ t.regions, ringsSum (isSeg p q) cs (r.outerRings ++ r.innerRings) ≤ 1) ∧
      (t.regions.map fun r => ringsSum (isSeg p q) cs (r.outerRings ++ r.innerRings)).sum ≤ 2 := by
  have hzero : (∀ r ∈ t.regions, ringsSum (isSeg p q) cs (r.outerRings ++ r.innerRings) = 0) →
      (∀ r ∈ t.regions, ringsSum (isSeg p q) cs (r.outerRings ++ r.innerRings) ≤ 1) ∧
      (t.regions.map fun r => ringsSum (isSeg p q) cs (r.outerRings ++ r.innerRings)).sum ≤ 2 := by
    intro h
    refine ⟨fun r hr => by rw [h r hr]; omega, ?_⟩
    rw [List.sum_eq_zero_iff.mpr (by
      intro n hn
      obtain ⟨r, hr, rfl⟩ := List.mem_map.mp hn
      exact h r hr)]
    omega
  have hall : ∀ r ∈ t.regions, ∀ ring ∈ r.outerRings ++ r.innerRings, ring ∈ allRings t :=
    fun r hr ring hring => List.mem_flatMap.mpr ⟨r, hr, hring⟩
  rcases lt_trichotomy (depth mask p) 0 with hp | hp | hp
  · exact hzero fun r hr => outside_zero hw hcs hp (hall r hr)
  · rcases lt_trichotomy (depth mask q) 0 with hq | hq | hq
    · exact hzero fun r hr => by rw [isSeg_swap]; exact outside_zero hw hcs hq (hall r hr)
    · exact line_le_two hw (fun x y _ => hd.apart x y) honce hapart hcs hp hq
    · rw [isSeg_swap]
      exact inside_le_two hw hd hapart hcs hq
  · exact inside_le_two hw hd hapart hcs hp

theorem kept_le (F : Point → Point → Nat) (cs : List (List Point)) (rings : List TopoRing) :
    ((keptClipped cs rings).map (piecesSum F cs)).sum ≤ ringsSum F cs rings := by
  unfold keptClipped ringsSum
  induction rings with
  | nil => simp
  | cons ring rings ih =>
    rw [List.map_cons, List.map_cons, List.sum_cons]
    by_cases h : piecesArea cs (clippedPieces cs ring) ≠ 0
    · rw [List.filter_cons_of_pos (by simpa using h), List.map_cons, List.sum_cons]
      omega
    · rw [List.filter_cons_of_neg (by simpa using h)]
      omega

/-- How often a clipped region passes a segment. -/
theorem reads_count {edges : List TopoEdge} {δ : Type} {t : Topology δ} (he : t.edges = edges) {cs : List (List Point)} (p q : Point)
    {pss : List (List Spec.Piece)} {rings : List TopoRing}
    (h : List.Forall₂ (fun ps ring => ReadsAs edges (ps.map (Spec.Piece.path cs)) ring) pss rings) :
    (rings.flatMap fun ring => (pathsOf t ring).flatMap segs).countP (either p q) =
      (pss.map (piecesSum (isSeg p q) cs)).sum := by
  subst he
  induction h with
  | nil => rfl
  | cons h1 _ ih =>
    rw [List.flatMap_cons, List.countP_append, ih, List.map_cons, List.sum_cons, pathsOf_reads h1]
    congr 1
    unfold piecesSum
    rw [List.countP_flatMap]
    congr 1
    exact List.map_congr_left fun l _ => (sumAlong_isSeg p q l).symm

/-- A clipped map. -/
theorem clipped_counts {δ : Type} {t t1 : Topology δ} {mask : ClipMask} (hw : WellFormed t) (hd : DrawnTopology t)
    (honce : PassesOnce mask t) (hapart : CutsApart .release mask t) (h : clipTopology .release t mask = .ok t1) :
    (∀ p q, passes t1 p q ≤ 2) ∧ (∀ r ∈ t1.regions, ∀ p q, (topoRegionSegs t1 r).countP (either p q) ≤ 1) ∧
      ∀ ring ∈ allRings t1, wrap64 (shoelaceEdges (pathsOf t1 ring)) ≠ 0 := by
  obtain ⟨cs, hcs, hf⟩ := C31_regions .release mask t t1 h
  have hle := clipped_le_two hw hd honce hapart hcs
  have hcount : ∀ p q, List.Forall₂ (fun r r1 => (topoRegionSegs t1 r1).countP (either p q) ≤
      ringsSum (isSeg p q) cs (r.outerRings ++ r.innerRings)) (t.regions.filter fun r => keptClipped cs r.outerRings ≠ []) t1.regions := by
    intro p q
    unfold clippedRegions at hf
    rw [List.forall₂_map_left_iff] at hf
    refine hf.imp ?_
    rintro r r1 ⟨_, h1, h2⟩
    unfold topoRegionSegs
    rw [List.flatMap_append, List.countP_append, reads_count rfl p q h1, reads_count rfl p q h2]
    refine le_trans (Nat.add_le_add (kept_le _ _ _) (kept_le _ _ _)) (le_of_eq ?_)
    unfold ringsSum
    rw [List.map_append, List.sum_append]
  refine ⟨fun p q => ?_, fun r1 hr1 p q => ?_, fun ring hring => ?_⟩
  · have h1 : passes t1 p q = (t1.regions.map fun r => (topoRegionSegs t1 r).countP (either p q)).sum := by
      unfold passes allRings
      rw [List.flatMap_assoc, List.countP_flatMap]
      rfl
    have h2 : ((t.regions.filter fun r => keptClipped cs r.outerRings ≠ []).map fun r =>
        ringsSum (isSeg p q) cs (r.outerRings ++ r.innerRings)).sum ≤ 2 :=
      le_trans (List.Sublist.sum_le_sum (List.Sublist.map _ List.filter_sublist) (by simp)) (hle p q).2
    rw [h1]
    refine le_trans ?_ h2
    have hc := hcount p q
    generalize t1.regions = l1 at hc
    generalize (t.regions.filter fun r => keptClipped cs r.outerRings ≠ []) = l0 at hc
    clear h1 h2
    induction hc with
    | nil => simp
    | cons h1 _ ih =>
      rw [List.map_cons, List.sum_cons, List.map_cons, List.sum_cons]
      exact Nat.add_le_add h1 ih
  · obtain ⟨r, hr, h1⟩ := forall₂_exists_left (hcount p q) hr1
    exact h1.trans ((hle p q).1 r (List.mem_of_mem_filter hr))
  · obtain ⟨r1, hr1, hring⟩ := List.mem_flatMap.mp hring
    obtain ⟨k, hk, _, h1, h2⟩ := forall₂_exists_left hf hr1
    obtain ⟨r, _, rfl⟩ := List.mem_map.mp hk
    have key : ∀ {rings : List TopoRing} {rings1 : List TopoRing}, ring ∈ rings1 →
        List.Forall₂ (fun ps ring => ReadsAs t1.edges (ps.map (Spec.Piece.path cs)) ring) (keptClipped cs rings) rings1 →
        wrap64 (shoelaceEdges (pathsOf t1 ring)) ≠ 0 := by
      intro rings rings1 hr hf
      obtain ⟨ps, hps, hread⟩ := forall₂_exists_left hf hr
      rw [pathsOf_reads hread]
      exact of_decide_eq_true (List.mem_filter.mp hps).2
    rcases List.mem_append.mp hring with h | h
    · exact key h h1
    · exact key h h2

end TopoGeo
