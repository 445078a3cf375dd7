import Verif.Proofs.ClipSafe
import Verif.Proofs.ClipSafeCover
import Verif.Props.Checked
import Verif.Props.ClipTwins
/-!
# C121: maps that can be clipped

`clip_topology` panics if three rings use the same piece of the mask line. When
does that not happen?
-/

namespace TopoGeo
open Spec

theorem passesLine_swap (mask : ClipMask) (s : Point × Point) : PassesLine mask s.swap ↔ PassesLine mask s := by
  unfold PassesLine
  simp only [Prod.fst_swap, Prod.snd_swap]
  tauto

theorem meetsAt_swap {mask : ClipMask} {s : Point × Point} (h : PassesLine mask s) : meetsAt mask s.swap = meetsAt mask s := by
  have hne : (tested mask s.2 - tested mask s.1 : ℚ) ≠ 0 := by
    intro h0
    have : tested mask s.1 = tested mask s.2 := by
      have : (tested mask s.2 : ℚ) = tested mask s.1 := by linarith
      exact_mod_cast this.symm
    apply h
    cases mask <;> simp only [depth, tested] at this ⊢ <;> omega
  have hne' : (tested mask s.1 - tested mask s.2 : ℚ) ≠ 0 := by
    intro h0; apply hne; linarith
  unfold meetsAt
  simp only [Prod.fst_swap, Prod.snd_swap]
  field_simp
  ring

theorem meets_facing (mask : ClipMask) (c : ℚ) (d : Direction) (l : List Point) :
    ((segs (facing d l)).countP fun s => PassesLine mask s ∧ meetsAt mask s = c) =
      (segs l).countP fun s => PassesLine mask s ∧ meetsAt mask s = c := by
  cases d with
  | forward => rfl
  | backward =>
    rw [facing, segs_reverse, List.countP_reverse, List.countP_map]
    refine List.countP_congr fun s _ => ?_
    simp only [Function.comp, decide_eq_true_eq, passesLine_swap]
    constructor
    · rintro ⟨h1, h2⟩; exact ⟨h1, by rw [← meetsAt_swap h1]; exact h2⟩
    · rintro ⟨h1, h2⟩; exact ⟨h1, by rw [meetsAt_swap h1]; exact h2⟩

theorem pathOf_facing {δ : Type} (t : Topology δ) (de : DirectedEdge) :
    pathOf t de = facing de.direction ((t.edges[de.edge]?.map TopoEdge.points).getD []) := by
  obtain ⟨i, d⟩ := de
  unfold pathOf walk
  cases t.edges[i]? with
  | none => cases d <;> rfl
  | some e => cases d <;> rfl

theorem countP_pieces_le {δ : Type} (cs : List (List Point)) (rs : List (TopoRegion δ)) (P : Spec.Piece → Bool) :
    (allPieces (clippedRegions cs rs)).countP P ≤
      (rs.map fun r => ((r.outerRings ++ r.innerRings).map fun ring => (clippedPieces cs ring).countP P).sum).sum := by
  have hk : ∀ rings : List TopoRing, (keptClipped cs rings).flatten.countP P ≤
      (rings.map fun ring => (clippedPieces cs ring).countP P).sum := by
    intro rings
    unfold keptClipped
    induction rings with
    | nil => simp
    | cons ring rings ih =>
      rw [List.map_cons, List.map_cons, List.sum_cons]
      by_cases h : piecesArea cs (clippedPieces cs ring) ≠ 0
      · rw [List.filter_cons_of_pos (by simpa using h), List.flatten_cons, List.countP_append]
        omega
      · rw [List.filter_cons_of_neg (by simpa using h)]
        omega
  unfold allPieces clippedRegions
  induction rs with
  | nil => simp
  | cons r rs ih =>
    rw [List.map_cons, List.sum_cons]
    by_cases h : keptClipped cs r.outerRings ≠ []
    · rw [List.filter_cons_of_pos (by simpa using h), List.map_cons, List.flatMap_cons, List.countP_append, List.countP_append,
        List.map_append, List.sum_append]
      have h1 := hk r.outerRings
      have h2 := hk r.innerRings
      simp only
      omega
    · rw [List.filter_cons_of_neg (by simpa using h)]
      omega

theorem kept_uses (cs : List (List Point)) (ring : TopoRing) (i : Nat) :
    (clippedPieces cs ring).countP (fun pc => pc.edge = .kept i) ≤ (ring.directedEdges.map (·.edge)).count i := by
  have h1 : (clippedPieces cs ring).countP (fun pc => pc.edge = .kept i) =
      ((clippedPieces cs ring).filter Spec.Piece.isKept).countP (fun pc => pc.edge = .kept i) := by
    rw [List.countP_filter]
    refine List.countP_congr fun pc _ => ?_
    simp only [decide_eq_true_eq, Bool.and_eq_true, iff_self_and]
    intro h
    simp [Spec.Piece.isKept, h]
  rw [h1, C31_visible_edges]
  generalize ring.directedEdges = des
  induction des with
  | nil => simp
  | cons de des ih =>
    rw [List.filterMap_cons, List.map_cons, List.count_cons]
    split
    · omega
    · rename_i pc hv
      rw [List.countP_cons, (visiblePiece_some hv).1]
      simp only [PieceEdge.kept.injEq, decide_eq_true_eq, beq_iff_eq]
      omega

theorem kept_le_two {δ : Type} {t : Topology δ} (hb : BackPointersExact t) (cs : List (List Point)) (i : Nat)
    (hi : i < t.edges.length) : (allPieces (clippedRegions cs t.regions)).countP (fun pc => pc.edge = .kept i) ≤ 2 := by
  refine le_trans (countP_pieces_le _ _ _) (le_trans ?_ (hb.1 i _ (List.getElem?_eq_getElem hi)).1)
  rw [← count_uses, allDirectedEdges_eq]
  generalize t.regions = rs
  induction rs with
  | nil => simp
  | cons r rs ih =>
    rw [List.map_cons, List.sum_cons, List.flatMap_cons, List.map_append (l₁ := regionEdges r), List.count_append]
    refine Nat.add_le_add ?_ ih
    unfold regionEdges
    generalize r.outerRings ++ r.innerRings = rings
    induction rings with
    | nil => simp
    | cons ring rings ih2 =>
      rw [List.map_cons, List.sum_cons, List.flatMap_cons, List.map_append, List.count_append]
      exact Nat.add_le_add (kept_uses cs ring i) ih2

theorem storedPath_eq {δ : Type} (t : Topology δ) (de : DirectedEdge) : storedPath t.edges de = pathOf t de :=
  (pathOf_facing t de).symm

theorem landings_le {δ : Type} {m : Build} {mask : ClipMask} {t : Topology δ} {P : Point → Bool} {c : ℚ}
    (hc : ∀ s ∈ storedSegs t, PassesLine mask s → (clippedAt m mask s).any P → meetsAt mask s = c) (de : DirectedEdge) :
    landings m mask P (storedPoints t.edges de) ≤
      (segs (pathOf t de)).countP fun s => PassesLine mask s ∧ meetsAt mask s = c := by
  rw [pathOf_facing, meets_facing]
  unfold landings storedPoints
  cases he : t.edges[de.edge]? with
  | none => simp [segs]
  | some e =>
    refine List.countP_mono_left fun s hs h => ?_
    simp only [decide_eq_true_eq] at h ⊢
    exact ⟨h.1, hc s (List.mem_flatMap.mpr ⟨e, List.mem_of_getElem? he, hs⟩) h.1 h.2⟩

/-- A segment of a ring is stored, one way or the other. -/
theorem mem_topoRingSegs {δ : Type} {t : Topology δ} {ring : TopoRing} {s : Point × Point} (h : s ∈ topoRingSegs t ring) :
    s ∈ storedSegs t ∨ s.swap ∈ storedSegs t := by
  obtain ⟨l, hl, hs⟩ := List.mem_flatMap.mp h
  obtain ⟨de, _, rfl⟩ := List.mem_map.mp hl
  rw [pathOf_facing] at hs
  cases he : t.edges[de.edge]? with
  | none => rw [he] at hs; cases hd : de.direction <;> simp [hd, facing, segs] at hs
  | some e =>
    rw [he] at hs
    have hmem : ∀ s ∈ segs e.points, s ∈ storedSegs t := fun s hs => List.mem_flatMap.mpr ⟨e, List.mem_of_getElem? he, hs⟩
    cases hd : de.direction with
    | forward => rw [hd] at hs; exact .inl (hmem s hs)
    | backward =>
      rw [hd, facing, segs_reverse, List.mem_reverse, List.mem_map] at hs
      obtain ⟨s', hs', rfl⟩ := hs
      exact .inr (by rw [Prod.swap_swap]; exact hmem s' hs')

/-- A segment that ends on the mask line meets it there. -/
theorem meetsAt_end {mask : ClipMask} {s : Point × Point} (h : 0 < depth mask s.1) (h' : depth mask s.2 = 0) :
    meetsAt mask s = other mask s.2 := by
  have hb : tested mask s.2 = bound mask := by cases mask <;> simp only [depth, tested, bound] at h' ⊢ <;> omega
  have hne : (tested mask s.2 - tested mask s.1 : ℚ) ≠ 0 := by
    intro h0
    have : (tested mask s.2 : ℚ) = tested mask s.1 := by linarith
    have : tested mask s.2 = tested mask s.1 := by exact_mod_cast this
    cases mask <;> simp only [depth, tested] at this h h' <;> omega
  unfold meetsAt
  rw [← hb, mul_comm, mul_div_assoc, div_self hne]
  ring

theorem turns_first {l : List (Point × Point)} {w : (Point × Point) × (Point × Point)} (h : w ∈ turns l) : w.1 ∈ l :=
  (List.of_mem_zip h).1

/-- A region runs along the mask line from a point at most as often as its border
passes the line in one place, other than to touch it. -/
theorem line_uses_at {δ : Type} {m : Build} {mask : ClipMask} {t : Topology δ} {cs : List (List Point)}
    (hapart : CutsApart m mask t) (hcs : ClippedBy m mask t.edges cs) {p : Point} (hp : depth mask p = 0) {c : ℚ}
    (hc : ∀ s ∈ storedSegs t, PassesLine mask s → clippedAt m mask s = some p → meetsAt mask s = c) :
    ∃ P : Point → Bool, P p ∧ ∀ r : TopoRegion δ,
      ((r.outerRings ++ r.innerRings).map fun ring => lineUses mask P cs (clippedPieces cs ring)).sum +
        2 * timesTouched mask t r c ≤ timesPassed mask t r c := by
  classical
  -- the points of the mask line in which segments are made to end that meet it at `c`
  obtain ⟨P, hPdef⟩ : ∃ P : Point → Bool, ∀ z, P z ↔ depth mask z = 0 ∧
      (z = p ∨ ∃ s ∈ storedSegs t, PassesLine mask s ∧ clippedAt m mask s = some z ∧ meetsAt mask s = c) :=
    ⟨fun z => decide (depth mask z = 0 ∧
      (z = p ∨ ∃ s ∈ storedSegs t, PassesLine mask s ∧ clippedAt m mask s = some z ∧ meetsAt mask s = c)), fun z => by simp⟩
  have hP : ∀ z, P z → depth mask z = 0 := fun z hz => ((hPdef z).mp hz).1
  have hPp : P p := (hPdef p).mpr ⟨hp, .inl rfl⟩
  have hland : ∀ s ∈ storedSegs t, PassesLine mask s → (clippedAt m mask s).any P → meetsAt mask s = c := by
    intro s hs hpass hany
    obtain ⟨z, hz, hzP⟩ : ∃ z, clippedAt m mask s = some z ∧ P z = true := by
      cases hz : clippedAt m mask s with
      | none => rw [hz] at hany; cases hany
      | some z => rw [hz] at hany; exact ⟨z, rfl, hany⟩
    obtain ⟨_, rfl | ⟨s', hs', h1, h2, h3⟩⟩ := (hPdef z).mp hzP
    · exact hc s hs hpass hz
    · rw [← h3]; exact hapart s hs s' hs' hpass h1 z hz h2
  have htouch : ∀ ring w, w ∈ turns (topoRingSegs t ring) → TouchesLine mask w → (other mask w.1.2 : ℚ) = c → P w.1.2 := by
    intro ring w hwt hw ho
    obtain ⟨ha, hz, -, -⟩ := hw
    have hpass : PassesLine mask w.1 := by unfold PassesLine; rw [hz]; simp [ha]
    have hmeet := meetsAt_end ha hz
    refine (hPdef _).mpr ⟨hz, .inr ?_⟩
    rcases mem_topoRingSegs (turns_first hwt) with h | h
    · refine ⟨w.1, h, hpass, ?_, hmeet.trans ho⟩
      unfold clippedAt
      rw [if_neg (by omega), if_pos hz]
    · refine ⟨w.1.swap, h, (passesLine_swap mask _).mpr hpass, ?_, (meetsAt_swap hpass).trans (hmeet.trans ho)⟩
      unfold clippedAt
      rw [Prod.fst_swap, if_pos hz]
  refine ⟨P, hPp, fun r => ?_⟩
  unfold timesPassed timesTouched topoRegionSegs
  generalize r.outerRings ++ r.innerRings = rings
  induction rings with
  | nil => simp
  | cons ring rings ih2 =>
    rw [List.map_cons, List.sum_cons, List.flatMap_cons, List.countP_append, List.flatMap_cons, List.countP_append]
    have h1 := clippedPieces_uses hcs hP ring
    have h2 : (ring.directedEdges.flatMap fun de => segs (storedPath t.edges de)) = topoRingSegs t ring := by
      unfold topoRingSegs pathsOf
      rw [List.flatMap_map]
      simp only [storedPath_eq]
    rw [h2] at h1
    have h3 : (turns (topoRingSegs t ring)).countP (fun w => TouchesLine mask w ∧ (other mask w.1.2 : ℚ) = c) ≤
        (turns (topoRingSegs t ring)).countP (fun w => TouchesLine mask w ∧ P w.1.2) := by
      refine List.countP_mono_left fun w hw h => ?_
      simp only [decide_eq_true_eq] at h ⊢
      exact ⟨h.1, htouch ring w hw h.1 h.2⟩
    have h4 : (ring.directedEdges.map fun de => landings m mask P (storedPoints t.edges de)).sum ≤
        ((pathsOf t ring).flatMap segs).countP fun s => PassesLine mask s ∧ meetsAt mask s = c := by
      unfold pathsOf
      generalize ring.directedEdges = des
      induction des with
      | nil => simp
      | cons de des ih3 =>
        rw [List.map_cons, List.sum_cons, List.map_cons, List.flatMap_cons, List.countP_append]
        exact Nat.add_le_add (landings_le hland de) ih3
    omega

theorem line_uses {δ : Type} {m : Build} {mask : ClipMask} {t : Topology δ} {cs : List (List Point)}
    (hapart : CutsApart m mask t) (hcs : ClippedBy m mask t.edges cs) {p : Point} (hp : depth mask p = 0) :
    ∃ (P : Point → Bool) (c : ℚ), P p ∧ ∀ r : TopoRegion δ,
      ((r.outerRings ++ r.innerRings).map fun ring => lineUses mask P cs (clippedPieces cs ring)).sum +
        2 * timesTouched mask t r c ≤ timesPassed mask t r c := by
  obtain ⟨c, hc⟩ : ∃ c, ∀ s ∈ storedSegs t, PassesLine mask s → clippedAt m mask s = some p → meetsAt mask s = c := by
    by_cases h : ∃ s ∈ storedSegs t, PassesLine mask s ∧ clippedAt m mask s = some p
    · obtain ⟨s, h1, h2, h3⟩ := h
      exact ⟨meetsAt mask s, fun s' h1' h2' h3' => hapart s' h1' s h1 h2' h2 p h3' h3⟩
    · exact ⟨0, fun s h1 h2 h3 => absurd ⟨s, h1, h2, h3⟩ h⟩
  obtain ⟨P, h⟩ := line_uses_at hapart hcs hp hc
  exact ⟨P, c, h⟩

theorem plug_le_two {δ : Type} {m : Build} {mask : ClipMask} {t : Topology δ} {cs : List (List Point)}
    (hw : WellFormed t) (hno : NoOverlap mask t) (honce : PassesOnce mask t) (hapart : CutsApart m mask t)
    (hcs : ClippedBy m mask t.edges cs) {p q : Point} (hp : depth mask p = 0 ∧ depth mask q = 0) :
    (allPieces (clippedRegions cs t.regions)).countP (fun pc => pc.edge = .plug p q) ≤ 2 := by
  obtain ⟨P, c, hPp, huse⟩ := line_uses hapart hcs hp.1
  refine le_trans (countP_pieces_le _ _ _) (le_trans ?_ (meets_le_two hw.closed hno honce c))
  generalize t.regions = rs
  induction rs with
  | nil => simp
  | cons r rs ih =>
    rw [List.map_cons, List.sum_cons, List.map_cons, List.sum_cons]
    refine Nat.add_le_add ?_ ih
    refine Nat.le_sub_of_add_le (le_trans (Nat.add_le_add_right ?_ _) (huse r))
    generalize r.outerRings ++ r.innerRings = rings
    induction rings with
    | nil => simp
    | cons ring rings ih2 =>
      rw [List.map_cons, List.sum_cons, List.map_cons, List.sum_cons]
      exact Nat.add_le_add (plugs_le_lineUses cs (.inl hPp) hp _) ih2

/-- `clip_topology` does not panic if no plug is used three times. -/
theorem clips_of_plugs {δ : Type} {mask : ClipMask} {t : Topology δ} (hw : WellFormed t)
    (hplug : ∀ cs, ClippedBy .release mask t.edges cs → ∀ {p q}, p ≠ q → depth mask p = 0 ∧ depth mask q = 0 →
      (allPieces (clippedRegions cs t.regions)).countP (fun pc => pc.edge = .plug p q) ≤ 2) :
    ∃ t', clipTopology .release t mask = .ok t' ∧
      (clipTopology .debug t mask = .ok t' ∨ clipTopology .debug t mask = .error .overflow) := by
  obtain ⟨cs, hcs, _, hok⟩ := C36_panics mask t hw.pointers.2.2
  obtain ⟨t', ht'⟩ := hok (by
    intro e
    rw [← List.countP_eq_length_filter]
    by_cases hex : ∃ pc ∈ allPieces (clippedRegions cs t.regions), pc.edge = e
    · obtain ⟨pc, hpc, rfl⟩ := hex
      obtain ⟨r, hr, ring, hring, hpc⟩ : ∃ r ∈ t.regions, ∃ ring ∈ r.outerRings ++ r.innerRings, pc ∈ clippedPieces cs ring := by
        obtain ⟨cr, hcr, hpc⟩ := List.mem_flatMap.mp hpc
        obtain ⟨r, hr, rfl⟩ := List.mem_map.mp hcr
        refine ⟨r, (List.mem_filter.mp hr).1, ?_⟩
        rcases List.mem_append.mp hpc with h | h
        · obtain ⟨ps, hps, h⟩ := List.mem_flatten.mp h
          obtain ⟨ring, hring, rfl⟩ := List.mem_map.mp (List.mem_filter.mp hps).1
          exact ⟨ring, List.mem_append_left _ hring, h⟩
        · obtain ⟨ps, hps, h⟩ := List.mem_flatten.mp h
          obtain ⟨ring, hring, rfl⟩ := List.mem_map.mp (List.mem_filter.mp hps).1
          exact ⟨ring, List.mem_append_right _ hring, h⟩
      obtain ⟨paths, h1, h2⟩ := hw.closed ring (List.mem_flatMap.mpr ⟨r, hr, hring⟩)
      have honline := clippedPieces_onLine hcs (fun e he => two_le_of_extended (hw.extended e he)) h1 h2 pc hpc
      rcases mem_clippedPieces hpc with ⟨de, hde, hv⟩ | ⟨p, q, hpq, rfl⟩
      · obtain ⟨rfl, c, hc, _⟩ := visiblePiece_some hv
        exact kept_le_two hw.pointers cs _ (hw.pointers.2.2 de (List.mem_flatMap.mpr ⟨ring, List.mem_flatMap.mpr ⟨r, hr, hring⟩, hde⟩))
      · obtain ⟨p', q', he⟩ : ∃ p' q', (plugPiece p q).edge = .plug p' q' := by unfold plugPiece; split <;> exact ⟨_, _, rfl⟩
        unfold PlugOnLine at honline
        rw [he] at honline ⊢
        refine hplug cs hcs ?_ honline
        unfold plugPiece at he
        split at he
        · cases he; exact hpq
        · cases he; exact Ne.symm hpq
    · rw [List.countP_eq_zero.mpr (by intro a ha h; exact hex ⟨a, ha, by simpa using h⟩)]
      omega)
  refine ⟨t', ht', ?_⟩
  rcases (C106_clip t mask ⟨0, 0⟩ ⟨0, 0⟩ []).1 with h | h
  · exact .inr h
  · exact .inl (by rw [h, ht'])

/-- C121: if no point inside of the mask belongs to two regions, no region passes
the mask line twice in the same point (other than by touching it), and clipping does not move different
crossings to the same point, then `clip_topology` does not panic in a release
build; in a debug build it does the same or stops at an overflow. -/
theorem C121_clips {δ : Type} (mask : ClipMask) (t : Topology δ) (hw : WellFormed t) (hno : NoOverlap mask t)
    (honce : PassesOnce mask t) (hapart : CutsApart .release mask t) :
    ∃ t', clipTopology .release t mask = .ok t' ∧
      (clipTopology .debug t mask = .ok t' ∨ clipTopology .debug t mask = .error .overflow) :=
  clips_of_plugs hw fun _ hcs _ _ _ hp => plug_le_two hw hno honce hapart hcs hp

/-! ## None of the conditions can be dropped -/

/-- Region 1 passes the line `x = 20` in (20, 10) and in (20, 30), twice each. -/
def exPinchedMap : List (Region Nat) :=
  [⟨1, [.points [⟨20, 10⟩, ⟨30, 20⟩, ⟨20, 30⟩, ⟨10, 35⟩, ⟨10, 40⟩, ⟨20, 30⟩, ⟨40, 20⟩, ⟨20, 10⟩, ⟨10, 0⟩, ⟨10, 5⟩, ⟨20, 10⟩]], []⟩,
   ⟨2, [.points [⟨20, 10⟩, ⟨30, 20⟩, ⟨20, 30⟩, ⟨10, 30⟩, ⟨10, 10⟩, ⟨20, 10⟩]], []⟩]

/-- A narrow arch around region 2. -/
def exArchMap : List (Region Nat) :=
  [⟨1, [.points [⟨9, 10⟩, ⟨19, 10⟩, ⟨40, 10⟩, ⟨40, 31⟩, ⟨19, 31⟩, ⟨9, 30⟩, ⟨5, 32⟩, ⟨5, 28⟩, ⟨9, 30⟩, ⟨19, 30⟩, ⟨19, 11⟩,
      ⟨9, 10⟩, ⟨5, 12⟩, ⟨5, 8⟩, ⟨9, 10⟩]], []⟩,
   ⟨2, [.points [⟨9, 10⟩, ⟨19, 11⟩, ⟨19, 30⟩, ⟨9, 30⟩, ⟨9, 10⟩]], []⟩]

def exPinchedMapTopology : Topology Nat := (buildTopology .debug exPinchedMap).toOption.getD ⟨[], []⟩
def exArchMapTopology : Topology Nat := (buildTopology .debug exArchMap).toOption.getD ⟨[], []⟩
def exThriceTopology : Topology Nat := (buildTopology .debug exThrice).toOption.getD ⟨[], []⟩


theorem exThrice_built : buildTopology .debug exThrice = .ok exThriceTopology := by decide +kernel
theorem exPinchedMap_built : buildTopology .debug exPinchedMap = .ok exPinchedMapTopology := by decide +kernel
theorem exArchMap_built : buildTopology .debug exArchMap = .ok exArchMapTopology := by decide +kernel

theorem wellFormed_built {rs : List (Region Nat)} {t : Topology Nat} (hb : buildTopology .debug rs = .ok t)
    (h : (rs.all fun r => (r.outerRings ++ r.innerRings).all fun ring => ClosedRing (ringPaths ring)) = true) : WellFormed t := by
  refine C82_well_formed .debug t (.built rs t hb fun r hr ring hring _ => ?_)
  rw [List.all_eq_true] at h
  have := h r hr
  rw [List.all_eq_true] at this
  simpa using this ring hring

/-- Only some places have to be tried. -/
theorem passesOnce_of {δ : Type} {mask : ClipMask} {t : Topology δ}
    (h : (t.regions.all fun r => ((topoRegionSegs t r).filter fun s => PassesLine mask s).all fun s =>
      decide (timesPassed mask t r (meetsAt mask s) ≤ 1 + 2 * timesTouched mask t r (meetsAt mask s))) = true) :
    PassesOnce mask t := by
  intro r hr c
  rw [List.all_eq_true] at h
  have h := List.all_eq_true.mp (h r hr)
  by_cases hex : ∃ s ∈ topoRegionSegs t r, PassesLine mask s ∧ meetsAt mask s = c
  · obtain ⟨s, h1, h2, rfl⟩ := hex
    exact of_decide_eq_true (h s (List.mem_filter.mpr ⟨h1, by simpa using h2⟩))
  · have : timesPassed mask t r c = 0 := List.countP_eq_zero.mpr fun s hs hh => hex ⟨s, hs, of_decide_eq_true hh⟩
    omega

/-- Only some points have to be tried. -/
theorem cutsApart_of {δ : Type} {m : Build} {mask : ClipMask} {t : Topology δ}
    (h : ((storedSegs t).all fun s => (storedSegs t).all fun s' => decide (PassesLine mask s → PassesLine mask s' →
      (clippedAt m mask s).isSome → clippedAt m mask s = clippedAt m mask s' → meetsAt mask s = meetsAt mask s')) = true) :
    CutsApart m mask t := by
  intro s hs s' hs' h1 h2 p h3 h4
  rw [List.all_eq_true] at h
  have := h s hs
  rw [List.all_eq_true] at this
  have := this s' hs'
  rw [decide_eq_true_eq] at this
  exact this h1 h2 (by rw [h3]; rfl) (by rw [h3, h4])

theorem cover_map {δ : Type} (t : Topology δ) (x y : ℚ) :
    cover t x y = (t.regions.map (topoRegionSegs t)).countP fun S => Encloses S x y := by
  unfold cover
  rw [List.countP_map]
  rfl

theorem exPinchedMap_segs : exPinchedMapTopology.regions.map (topoRegionSegs exPinchedMapTopology) =
    [segs [⟨20, 10⟩, ⟨30, 20⟩, ⟨20, 30⟩, ⟨10, 35⟩, ⟨10, 40⟩, ⟨20, 30⟩, ⟨40, 20⟩, ⟨20, 10⟩, ⟨10, 0⟩, ⟨10, 5⟩, ⟨20, 10⟩],
     segs [⟨20, 10⟩, ⟨30, 20⟩, ⟨20, 30⟩, ⟨10, 30⟩, ⟨10, 10⟩, ⟨20, 10⟩]] := by decide +kernel

theorem exArchMap_segs : exArchMapTopology.regions.map (topoRegionSegs exArchMapTopology) =
    [segs [⟨9, 10⟩, ⟨19, 10⟩, ⟨40, 10⟩, ⟨40, 31⟩, ⟨19, 31⟩, ⟨9, 30⟩, ⟨5, 32⟩, ⟨5, 28⟩, ⟨9, 30⟩, ⟨19, 30⟩, ⟨19, 11⟩,
      ⟨9, 10⟩, ⟨5, 12⟩, ⟨5, 8⟩, ⟨9, 10⟩],
     segs [⟨9, 10⟩, ⟨19, 11⟩, ⟨19, 30⟩, ⟨9, 30⟩, ⟨9, 10⟩]] := by decide +kernel

theorem exPinchedMap_first (x y : ℚ) (h : Encloses (segs [⟨20, 10⟩, ⟨30, 20⟩, ⟨20, 30⟩, ⟨10, 35⟩, ⟨10, 40⟩, ⟨20, 30⟩, ⟨40, 20⟩,
    ⟨20, 10⟩, ⟨10, 0⟩, ⟨10, 5⟩, ⟨20, 10⟩]) x y) : y < 10 ∨ 30 ≤ y ∨ (y < 20 ∧ y + 10 ≤ x) ∨ (20 ≤ y ∧ 50 - y ≤ x) := by
  revert h
  simp only [segs, encloses_cons, not_encloses_none, RayCrosses, Point.xi, Point.yi]
  norm_num
  grind

theorem exPinchedMap_second (x y : ℚ) (h : Encloses (segs [⟨20, 10⟩, ⟨30, 20⟩, ⟨20, 30⟩, ⟨10, 30⟩, ⟨10, 10⟩, ⟨20, 10⟩]) x y) :
    10 ≤ y ∧ y < 30 ∧ (y < 20 → x < y + 10) ∧ (20 ≤ y → x < 50 - y) := by
  revert h
  simp only [segs, encloses_cons, not_encloses_none, RayCrosses, Point.xi, Point.yi]
  norm_num
  grind

theorem exPinchedMap_apart (x y : ℚ) : cover exPinchedMapTopology x y ≤ 1 := by
  have h1 := exPinchedMap_first x y
  have h2 := exPinchedMap_second x y
  rw [cover_map, exPinchedMap_segs]
  simp only [List.countP_cons, List.countP_nil, decide_eq_true_eq]
  split_ifs with a b b <;> first | omega | skip
  all_goals grind

theorem exArchMap_first (x y : ℚ) (h : Encloses (segs [⟨9, 10⟩, ⟨19, 10⟩, ⟨40, 10⟩, ⟨40, 31⟩, ⟨19, 31⟩, ⟨9, 30⟩, ⟨5, 32⟩,
    ⟨5, 28⟩, ⟨9, 30⟩, ⟨19, 30⟩, ⟨19, 11⟩, ⟨9, 10⟩, ⟨5, 12⟩, ⟨5, 8⟩, ⟨9, 10⟩]) x y) :
    x < 9 ∨ 19 ≤ x ∨ 30 ≤ y ∨ y - 10 ≤ (x - 9) / 10 := by
  revert h
  simp only [segs, encloses_cons, not_encloses_none, RayCrosses, Point.xi, Point.yi]
  norm_num
  grind

theorem exArchMap_second (x y : ℚ) (h : Encloses (segs [⟨9, 10⟩, ⟨19, 11⟩, ⟨19, 30⟩, ⟨9, 30⟩, ⟨9, 10⟩]) x y) :
    9 ≤ x ∧ x < 19 ∧ y < 30 ∧ (x - 9) / 10 < y - 10 := by
  revert h
  simp only [segs, encloses_cons, not_encloses_none, RayCrosses, Point.xi, Point.yi]
  norm_num
  grind

theorem exArchMap_apart (x y : ℚ) : cover exArchMapTopology x y ≤ 1 := by
  have h1 := exArchMap_first x y
  have h2 := exArchMap_second x y
  rw [cover_map, exArchMap_segs]
  simp only [List.countP_cons, List.countP_nil, decide_eq_true_eq]
  split_ifs with a b b <;> first | omega | skip
  all_goals grind

/-- C121, refuted without the first condition: regions that overlap. -/
theorem C121_overlap_refuted : ∃ (mask : ClipMask) (t : Topology Nat), WellFormed t ∧ PassesOnce mask t ∧
    CutsApart .release mask t ∧ clipTopology .release t mask = .error .assert :=
  ⟨.maxX 20, exThriceTopology, wellFormed_built exThrice_built (by decide +kernel), passesOnce_of (by decide +kernel),
    cutsApart_of (by decide +kernel), by decide +kernel⟩

/-- C121, refuted without the second condition: a region that passes the mask line
twice in two points. -/
theorem C121_pinched_refuted : ∃ (mask : ClipMask) (t : Topology Nat), WellFormed t ∧ NoOverlap mask t ∧
    CutsApart .release mask t ∧ clipTopology .release t mask = .error .assert :=
  ⟨.maxX 20, exPinchedMapTopology, wellFormed_built exPinchedMap_built (by decide +kernel), fun x y _ => exPinchedMap_apart x y,
    cutsApart_of (by decide +kernel), by decide +kernel⟩

/-- C121, refuted without the third condition: clipping moves crossings to the same
points. -/
theorem C121_rounding_refuted : ∃ (mask : ClipMask) (t : Topology Nat), WellFormed t ∧ NoOverlap mask t ∧
    PassesOnce mask t ∧ clipTopology .release t mask = .error .assert :=
  ⟨.maxX 10, exArchMapTopology, wellFormed_built exArchMap_built (by decide +kernel), fun x y _ => exArchMap_apart x y,
    passesOnce_of (by decide +kernel), by decide +kernel⟩

-- non-vacuity: the same regions, clipped elsewhere
example : WellFormed exPinchedMapTopology ∧ NoOverlap (.minX 25) exPinchedMapTopology ∧ PassesOnce (.minX 25) exPinchedMapTopology ∧
    CutsApart .release (.minX 25) exPinchedMapTopology :=
  ⟨wellFormed_built exPinchedMap_built (by decide +kernel), fun x y _ => exPinchedMap_apart x y,
    passesOnce_of (by decide +kernel),
    cutsApart_of (by decide +kernel)⟩

example : ((clipTopology .release exPinchedMapTopology (.minX 25)).toOption.map fun t => (t.regions.length, t.edges.length)) = some (2, 7) := by
  decide +kernel

/-- The first region touches the line `x = 9` in (9, 100), where the second one
passes it. -/
def exTouchMap : List (Region Nat) :=
  [⟨1, [.points [⟨5, 50⟩, ⟨12, 60⟩, ⟨5, 70⟩, ⟨9, 100⟩, ⟨5, 120⟩, ⟨5, 50⟩]], []⟩,
   ⟨2, [.points [⟨12, 60⟩, ⟨5, 70⟩, ⟨9, 100⟩, ⟨12, 60⟩]], []⟩]

def exTouchMapTopology : Topology Nat := (buildTopology .debug exTouchMap).toOption.getD ⟨[], []⟩

theorem exTouchMap_built : buildTopology .debug exTouchMap = .ok exTouchMapTopology := by decide +kernel

theorem exTouchMap_segs : exTouchMapTopology.regions.map (topoRegionSegs exTouchMapTopology) =
    [segs [⟨5, 50⟩, ⟨12, 60⟩, ⟨5, 70⟩, ⟨9, 100⟩, ⟨5, 120⟩, ⟨5, 50⟩],
     segs [⟨12, 60⟩, ⟨5, 70⟩, ⟨9, 100⟩, ⟨12, 60⟩]] := by decide +kernel

theorem exTouchMap_first (x y : ℚ) (h : Encloses (segs [⟨5, 50⟩, ⟨12, 60⟩, ⟨5, 70⟩, ⟨9, 100⟩, ⟨5, 120⟩, ⟨5, 50⟩]) x y) :
    (60 ≤ y → y < 70 → 10 * x < 120 - 7 * (y - 60)) ∧ (70 ≤ y → y < 100 → 30 * x < 150 + 4 * (y - 70)) := by
  revert h
  simp only [segs, encloses_cons, not_encloses_none, RayCrosses, Point.xi, Point.yi]
  norm_num
  grind

theorem exTouchMap_second (x y : ℚ) (h : Encloses (segs [⟨12, 60⟩, ⟨5, 70⟩, ⟨9, 100⟩, ⟨12, 60⟩]) x y) :
    60 ≤ y ∧ y < 100 ∧ (y < 70 → 120 - 7 * (y - 60) ≤ 10 * x) ∧ (70 ≤ y → 150 + 4 * (y - 70) ≤ 30 * x) := by
  revert h
  simp only [segs, encloses_cons, not_encloses_none, RayCrosses, Point.xi, Point.yi]
  norm_num
  grind

theorem exTouchMap_apart (x y : ℚ) : cover exTouchMapTopology x y ≤ 1 := by
  have h1 := exTouchMap_first x y
  have h2 := exTouchMap_second x y
  rw [cover_map, exTouchMap_segs]
  simp only [List.countP_cons, List.countP_nil, decide_eq_true_eq]
  split_ifs with a b b <;> first | omega | skip
  all_goals grind

-- non-vacuity: a region that touches the mask line
example : WellFormed exTouchMapTopology ∧ NoOverlap (.maxX 9) exTouchMapTopology ∧ PassesOnce (.maxX 9) exTouchMapTopology ∧
    CutsApart .release (.maxX 9) exTouchMapTopology :=
  ⟨wellFormed_built exTouchMap_built (by decide +kernel), fun x y _ => exTouchMap_apart x y,
    passesOnce_of (by decide +kernel), cutsApart_of (by decide +kernel)⟩

example : (exTouchMapTopology.regions.map fun r => (timesPassed (.maxX 9) exTouchMapTopology r 100,
    timesTouched (.maxX 9) exTouchMapTopology r 100)) = [(2, 1), (1, 0)] := by decide +kernel

example : ((clipTopology .release exTouchMapTopology (.maxX 9)).toOption.map fun t => (t.regions.length, t.edges.length)) = some (2, 7) := by
  decide +kernel

end TopoGeo
