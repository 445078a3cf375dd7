import Verif.Proofs.ClipWinding
import Verif.Spec.ClipWinding
import Verif.Props.ClipArea
import Verif.Props.AxisMap
import Verif.Proofs.ClipRect
import Verif.Proofs.Budget
/-!
# C129: clipping keeps winding numbers
-/

namespace TopoGeo

open Spec MeasureTheory

/-- What is left of a ring. -/
abbrev remains (cs : List (List Point)) (ring : TopoRing) : List (Point × Point) :=
  ((clippedPieces cs ring).map (Piece.path cs)).flatMap segs

theorem netAlong_far {mask : ClipMask} {x y : ℚ} (hw : Within mask x y) {l : List Point} (h : ∀ p ∈ l, depth mask p ≤ 0) :
    netAlong mask x y l = 0 := by
  have key : ∀ l : List Point, (∀ p ∈ l, depth mask p ≤ 0) →
      sumAlong (forthCrosses mask x y) l = 0 ∧ sumAlong (backCrosses mask x y) l = 0 := by
    intro l h
    induction l with
    | nil => exact ⟨rfl, rfl⟩
    | cons a l ih =>
      cases l with
      | nil => exact ⟨rfl, rfl⟩
      | cons b l =>
        have := ih fun p hp => h p (List.mem_cons_of_mem _ hp)
        simp only [sumAlong, this.1, this.2, backCrosses, forth_far hw (h a (by simp)) (h b (by simp)),
          forth_far hw (h b (by simp)) (h a (by simp)), and_self]
  have := key l h
  simp [netAlong, this.1, this.2]

theorem remains_circular (cs : List (List Point)) (ring : TopoRing) : Circular (remains cs ring) := by
  by_cases hne : clippedPieces cs ring = []
  · unfold remains; rw [hne]; exact List.Perm.refl _
  · exact circular_closed (clippedPieces_closed hne)

/-- Nothing that is left of a ring goes around a point outside. -/
theorem left_outside {δ : Type} {m : Build} {mask : ClipMask} {t : Topology δ} {cs : List (List Point)}
    (hcs : ClippedBy m mask t.edges cs) (hlen : ∀ e ∈ t.edges, 2 ≤ e.points.length) {ring : TopoRing} {paths : List (List Point)}
    (hr : ReadsAs t.edges paths ring) (hc : ClosedRing paths) {x y : ℚ} (hw : Within (mirror mask) x y) :
    winding (remains cs ring) x y = 0 := by
  rw [winding_net (mask := mirror mask) (remains_circular cs ring)]
  have : (((clippedPieces cs ring).map (Piece.path cs)).map (netAlong (mirror mask) x y)).sum = 0 := by
    apply List.sum_eq_zero
    intro n hn
    obtain ⟨l, hl, rfl⟩ := List.mem_map.mp hn
    obtain ⟨pc, hpc, rfl⟩ := List.mem_map.mp hl
    have hz : netAlong (mirror mask) x y (pc.edge.points cs) = 0 := by
      apply netAlong_far hw
      intro p hp
      rw [depth_mirror]
      cases he : pc.edge with
      | plug a b =>
        have := clippedPieces_onLine hcs hlen hr hc pc hpc
        unfold PlugOnLine at this
        rw [he] at this hp
        simp only [PieceEdge.points, List.mem_cons, List.not_mem_nil, or_false] at hp
        rcases hp with rfl | rfl <;> omega
      | kept i =>
        rw [he] at hp
        simp only [PieceEdge.points] at hp
        cases hci : cs[i]? with
        | none => rw [hci] at hp; cases hp
        | some c =>
          rw [hci] at hp
          obtain ⟨e, _, hec⟩ := forall₂_exists_left hcs (List.mem_of_getElem? hci)
          have := C26_stays_inside hec p hp
          omega
    rw [Piece.path, netAlong_facing, hz, mul_zero]
  rw [this, mul_zero]

/-- Next to each point there is a rational one that is not on the mask line and that
given segments go around in the same way. -/
theorem rational_beside (mask : ClipMask) (l : List (Point × Point)) (x y : ℝ) :
    ∃ x' y' : ℚ, (Within mask x' y' ∨ Within (mirror mask) x' y') ∧ ∀ s ∈ l, turn x' y' s = turn x y s := by
  have key : ∀ c : ℝ, ∃ e > 0, (x < c → x + e = c) := fun c => by
    by_cases h : x < c
    · exact ⟨c - x, by linarith, fun _ => by ring⟩
    · exact ⟨1, one_pos, fun h' => absurd h' h⟩
  have keyy : ∀ c : ℝ, ∃ e > 0, (y < c → y + e = c) := fun c => by
    by_cases h : y < c
    · exact ⟨c - y, by linarith, fun _ => by ring⟩
    · exact ⟨1, one_pos, fun h' => absurd h' h⟩
  have fin : ∀ a c e : ℝ, ∀ a' : ℚ, (a < c → a + e = c) → a < a' → (a' : ℝ) < a + e → (c < a' ∨ (a' : ℝ) < c) := by
    intro a c e a' h h1 h2
    by_cases h3 : a < c
    · exact .inr (by linarith [h h3])
    · exact .inl (by linarith)
  cases mask with
  | minX c =>
    obtain ⟨e, he, hc⟩ := key c.toNat
    obtain ⟨x', y', h1, h2, _, _, h5⟩ := exists_rational l x y e he
    refine ⟨x', y', ?_, h5⟩
    rw [within_iff, within_iff]
    exact fin _ _ _ _ hc h1 h2
  | maxX c =>
    obtain ⟨e, he, hc⟩ := key c.toNat
    obtain ⟨x', y', h1, h2, _, _, h5⟩ := exists_rational l x y e he
    refine ⟨x', y', ?_, h5⟩
    rw [within_iff, within_iff]
    exact (fin _ _ _ _ hc h1 h2).symm
  | minY c =>
    obtain ⟨e, he, hc⟩ := keyy c.toNat
    obtain ⟨x', y', _, _, h1, h2, h5⟩ := exists_rational l x y e he
    refine ⟨x', y', ?_, h5⟩
    rw [within_iff, within_iff]
    exact fin _ _ _ _ hc h1 h2
  | maxY c =>
    obtain ⟨e, he, hc⟩ := keyy c.toNat
    obtain ⟨x', y', _, _, h1, h2, h5⟩ := exists_rational l x y e he
    refine ⟨x', y', ?_, h5⟩
    rw [within_iff, within_iff]
    exact (fin _ _ _ _ hc h1 h2).symm

theorem exists_rational_turns (l : List (Point × Point)) (U : Set (ℝ × ℝ)) (hU : IsOpen U) (p : ℝ × ℝ) (h : p ∈ U) :
    ∃ x' y' : ℚ, ((x' : ℝ), (y' : ℝ)) ∈ U ∧ ∀ s ∈ l, turn x' y' s = turn p.1 p.2 s := by
  obtain ⟨e, he, hb⟩ := Metric.isOpen_iff.mp hU _ h
  obtain ⟨x', y', h1, h2, h3, h4, h5⟩ := exists_rational l p.1 p.2 e he
  refine ⟨x', y', hb ?_, h5⟩
  rw [Metric.mem_ball, Prod.dist_eq]
  refine max_lt ?_ ?_ <;> simp only [Real.dist_eq] <;> rw [abs_lt] <;> constructor <;> linarith

/-- The same for a ring and what is left of it, in the real plane. -/
theorem left_cutFrom {δ : Type} {m : Build} {mask : ClipMask} {t : Topology δ} {cs : List (List Point)}
    (hcs : ClippedBy m mask t.edges cs) (hlen : ∀ e ∈ t.edges, 2 ≤ e.points.length) (hprod : ProductsFit mask t)
    {ring : TopoRing} {paths : List (List Point)} (hr : ReadsAs t.edges paths ring) (hc : ClosedRing paths) :
    CutFrom mask (topoRingSegs t ring) (remains cs ring) := by
  refine ⟨fun p hp hz => ?_, fun p hp => ?_⟩
  · have hU : IsOpen (insideOf mask ∩ {p | ∃ s ∈ cutSegs mask (topoRingSegs t ring), p ∈ nearSegment mask s}ᶜ) :=
      (isOpen_insideOf mask).inter (isClosed_nearSegments mask _).isOpen_compl
    obtain ⟨x', y', ⟨h4, h5⟩, h6⟩ := exists_rational_turns (remains cs ring ++ topoRingSegs t ring) _ hU p ⟨hp, fun hc => hz ⟨hp, hc⟩⟩
    rw [← winding_congr (fun s hs => h6 s (List.mem_append_left _ hs)), ← winding_congr (fun s hs => h6 s (List.mem_append_right _ hs))]
    refine ring_winding hcs hlen hprod hr hc ((within_iff mask x' y').mpr h4) ?_
    rintro ⟨s, hs, hc, hn⟩
    exact h5 ⟨s, List.mem_filter.mpr ⟨hs, by simpa using hc⟩, nearSegment_of hn⟩
  · obtain ⟨x', y', h4, h6⟩ := exists_rational_turns (remains cs ring) _ (isOpen_insideOf (mirror mask)) p hp
    rw [← winding_congr h6]
    exact left_outside hcs hlen hr hc ((within_iff _ _ _).mpr h4)

/-- If the mask line cuts no segment askew, then each point is wound around as before or
not at all. -/
theorem cutFrom_either {mask : ClipMask} {l l' : List (Point × Point)} (h : CutFrom mask l l') (hsq : ∀ s ∈ l, ¬ CutAskew mask s)
    (x y : ℝ) : winding l' x y = winding l x y ∨ winding l' x y = 0 := by
  obtain ⟨x', y', h1, h2⟩ := rational_beside mask (l ++ l') x y
  rw [← winding_congr (fun s hs => h2 s (List.mem_append_left _ hs)), ← winding_congr (fun s hs => h2 s (List.mem_append_right _ hs))]
  rcases h1 with h1 | h1
  · refine .inl (h.1 (x', y') ((within_iff _ _ _).mp h1) ?_)
    rintro ⟨_, s, hs, _⟩
    obtain ⟨h3, h4⟩ := List.mem_filter.mp hs
    exact hsq s h3 (by simpa using h4)
  · exact .inr (h.2 (x', y') ((within_iff _ _ _).mp h1))

theorem cutFrom_inside {mask : ClipMask} {l l' : List (Point × Point)} (h : CutFrom mask l l') (hsq : ∀ s ∈ l, ¬ CutAskew mask s)
    {p : ℝ × ℝ} (hp : p ∈ insideOf mask) : winding l' p.1 p.2 = winding l p.1 p.2 := by
  refine h.1 p hp ?_
  rintro ⟨_, s, hs, _⟩
  obtain ⟨h3, h4⟩ := List.mem_filter.mp hs
  exact hsq s h3 (by simpa using h4)

theorem cutFrom_once {mask : ClipMask} {l l' : List (Point × Point)} (h : CutFrom mask l l') (hsq : ∀ s ∈ l, ¬ CutAskew mask s) :
    (WindsOnce l → WindsOnce l') ∧ (WindsOnceBack l → WindsOnceBack l') := by
  constructor <;> intro hw x y <;> rcases cutFrom_either h hsq x y with h1 | h1 <;> rw [h1]
  · exact hw x y
  · exact .inl rfl
  · exact hw x y
  · exact .inl rfl

theorem cutFrom_simple {mask : ClipMask} {l l' : List (Point × Point)} (h : CutFrom mask l l') (hsq : ∀ s ∈ l, ¬ CutAskew mask s)
    (hs : SimpleRing l) : SimpleRing l' := hs.imp (cutFrom_once h hsq).1 (cutFrom_once h hsq).2

theorem enclosed_cutFrom {mask : ClipMask} {l l' : List (Point × Point)} (h : CutFrom mask l l') (hsq : ∀ s ∈ l, ¬ CutAskew mask s) :
    enclosed l' ⊆ enclosed l := by
  intro p hp
  have hp : Odd (winding l' p.1 p.2) := hp
  rcases cutFrom_either h hsq p.1 p.2 with h1 | h1
  · rw [h1] at hp; exact hp
  · rw [h1] at hp; simp at hp

/-- What segments enclose contains an open part. -/
theorem enclosed_pos {l : List (Point × Point)} {p : ℝ × ℝ} (h : p ∈ enclosed l) : areaOf (enclosed l) ≠ 0 := by
  obtain ⟨d, hd, K, hK, ht⟩ := turns_near l p.1 p.2
  let U : Set (ℝ × ℝ) := {q | p.2 < q.2 ∧ q.2 < p.2 + d ∧ p.1 < q.1 ∧ q.1 < p.1 + d ∧ K * (q.2 - p.2) < q.1 - p.1}
  have hU : IsOpen U := by
    refine (isOpen_lt continuous_const continuous_snd).inter ((isOpen_lt continuous_snd continuous_const).inter
      ((isOpen_lt continuous_const continuous_fst).inter ((isOpen_lt continuous_fst continuous_const).inter
      (isOpen_lt (f := fun q : ℝ × ℝ => K * (q.2 - p.2)) (g := fun q : ℝ × ℝ => q.1 - p.1) (by fun_prop) (by fun_prop)))))
  have hne : U.Nonempty := by
    have hpos : 0 < d / 2 / (K + 1) := by positivity
    refine ⟨(p.1 + d / 2, p.2 + d / 2 / (K + 1)), by simpa using hpos, ?_, by simpa using hd, by simp only; linarith, ?_⟩
    · have : d / 2 / (K + 1) ≤ d / 2 := div_le_self (by linarith) (by linarith)
      simp only
      linarith
    · simp only [add_sub_cancel_left]
      have : (K + 1) * (d / 2 / (K + 1)) = d / 2 := by field_simp
      linarith
  have hsub : U ⊆ enclosed l := by
    rintro q ⟨h1, h2, h3, h4, h5⟩
    have : winding l q.1 q.2 = winding l p.1 p.2 := winding_congr (ht q.1 q.2 h1.le h2 h3.le h4 h5.le)
    show Odd _
    rw [this]; exact h
  exact (lt_of_lt_of_le (hU.measure_pos volume hne) (measure_mono hsub)).ne'

/-- A simple ring of area zero encloses nothing. -/
theorem simple_empty {l : List (Point × Point)} (hc : Circular l) (hs : SimpleRing l)
    (h0 : (l.map fun s => cross s.1 s.2).sum = 0) : enclosed l = ∅ := by
  by_contra hne
  obtain ⟨p, hp⟩ := Set.nonempty_iff_ne_empty.mpr hne
  apply enclosed_pos hp
  rcases hs with hw | hw
  · rw [area_of_windsOnce hc hw, h0]; simp
  · rw [area_of_windsOnceBack hc hw, h0]; simp

/-- Clipping makes the areas of simple rings smaller, if at all. -/
theorem cutFrom_area {mask : ClipMask} {l l' : List (Point × Point)} (h : CutFrom mask l l') (hsq : ∀ s ∈ l, ¬ CutAskew mask s)
    (hs : SimpleRing l) (hc : Circular l) (hc' : Circular l') :
    (l'.map fun s => cross s.1 s.2).sum.natAbs ≤ (l.map fun s => cross s.1 s.2).sum.natAbs := by
  have i1 := winding_integral hc
  have i2 := winding_integral hc'
  rcases hs with hw | hw
  · have h0 : 0 ≤ ∫ p : ℝ × ℝ, (winding l' p.1 p.2 : ℝ) := integral_nonneg fun p => by
      rcases (cutFrom_once h hsq).1 hw p.1 p.2 with h1 | h1 <;> simp [h1]
    have h1 : ∫ p : ℝ × ℝ, (winding l' p.1 p.2 : ℝ) ≤ ∫ p : ℝ × ℝ, (winding l p.1 p.2 : ℝ) :=
      integral_mono i2.1 i1.1 fun p => by
        rcases cutFrom_either h hsq p.1 p.2 with h1 | h1
        · simp [h1]
        · rcases hw p.1 p.2 with h2 | h2 <;> simp [h1, h2]
    rw [i2.2] at h0 h1
    rw [i1.2] at h1
    have g0 : (0 : ℤ) ≤ (l'.map fun s => cross s.1 s.2).sum := by
      have : (0 : ℝ) ≤ ((l'.map fun s => cross s.1 s.2).sum : ℤ) := by linarith
      exact_mod_cast this
    have g1 : (l'.map fun s => cross s.1 s.2).sum ≤ (l.map fun s => cross s.1 s.2).sum := by
      have : (((l'.map fun s => cross s.1 s.2).sum : ℤ) : ℝ) ≤ ((l.map fun s => cross s.1 s.2).sum : ℤ) := by linarith
      exact_mod_cast this
    omega
  · have h0 : ∫ p : ℝ × ℝ, (winding l' p.1 p.2 : ℝ) ≤ 0 := integral_nonpos fun p => by
      rcases (cutFrom_once h hsq).2 hw p.1 p.2 with h1 | h1 <;> simp [h1]
    have h1 : ∫ p : ℝ × ℝ, (winding l p.1 p.2 : ℝ) ≤ ∫ p : ℝ × ℝ, (winding l' p.1 p.2 : ℝ) :=
      integral_mono i1.1 i2.1 fun p => by
        rcases cutFrom_either h hsq p.1 p.2 with h1 | h1
        · simp [h1]
        · rcases hw p.1 p.2 with h2 | h2 <;> simp [h1, h2]
    rw [i2.2] at h0 h1
    rw [i1.2] at h1
    have g0 : (l'.map fun s => cross s.1 s.2).sum ≤ 0 := by
      have : (((l'.map fun s => cross s.1 s.2).sum : ℤ) : ℝ) ≤ 0 := by linarith
      exact_mod_cast this
    have g1 : (l.map fun s => cross s.1 s.2).sum ≤ (l'.map fun s => cross s.1 s.2).sum := by
      have : (((l.map fun s => cross s.1 s.2).sum : ℤ) : ℝ) ≤ ((l'.map fun s => cross s.1 s.2).sum : ℤ) := by linarith
      exact_mod_cast this
    omega

/-- The rings of a region that are kept. -/
abbrev keptOf (cs : List (List Point)) (rings : List TopoRing) : List TopoRing :=
  rings.filter fun ring => piecesArea cs (clippedPieces cs ring) ≠ 0

theorem kept_segs {δ : Type} {t' : Topology δ} {cs : List (List Point)} {rings rings' : List TopoRing}
    (h : List.Forall₂ (fun ps ring => ReadsAs t'.edges (ps.map (Piece.path cs)) ring) (keptClipped cs rings) rings') :
    List.Forall₂ (fun ring ring' => topoRingSegs t' ring' = remains cs ring) (keptOf cs rings) rings' := by
  unfold keptClipped at h
  rw [List.filter_map, List.forall₂_map_left_iff] at h
  refine List.Forall₂.imp ?_ h
  intro ring ring' hr
  unfold topoRingSegs
  rw [pathsOf_reads hr]

/-- Rings that are cut at right angles only. -/
theorem square_ring {δ : Type} {mask : ClipMask} {t : Topology δ} (hc : CutsSquare mask t) (ring : TopoRing) :
    ∀ s ∈ topoRingSegs t ring, ¬ CutAskew mask s := by
  rintro s hs ⟨hcross, hne⟩
  have hp : PassesLine mask s := by unfold PassesLine; unfold Crosses at hcross; omega
  rcases mem_topoRingSegs hs with hs | hs
  · exact hne (hc s hs hp)
  · exact hne (hc _ hs ((passesLine_swap mask s).mpr hp)).symm

/-- C129: a ring of a clipped topology comes from a ring of the topology, an outer one from
an outer one, in the same order. It winds around each point inside of the mask as
often as the ring did, except within a unit from a segment that is cut askew, and not at
all around any point outside. -/
theorem C129_rings {δ : Type} (m : Build) (mask : ClipMask) (t t' : Topology δ) (h : clipTopology m t mask = .ok t')
    (hlen : ∀ e ∈ t.edges, 2 ≤ e.points.length) (hclosed : RingsClosed t) (hprod : ProductsFit mask t) :
    ∃ L, Survivors t t' L ∧ List.Forall₂ (fun r o => ∀ r' ∈ o,
      (∃ sub, sub.Sublist r.outerRings ∧
        List.Forall₂ (fun ring ring' => CutFrom mask (topoRingSegs t ring) (topoRingSegs t' ring')) sub r'.outerRings) ∧
      ∃ sub, sub.Sublist r.innerRings ∧
        List.Forall₂ (fun ring ring' => CutFrom mask (topoRingSegs t ring) (topoRingSegs t' ring')) sub r'.innerRings)
      t.regions L := by
  obtain ⟨cs, L, hcs, hL, hs⟩ := clip_steps h
  refine ⟨L, hL, forall₂_imp_mem hs ?_⟩
  intro r hr o ho r' hr'
  have key : ∀ ring ∈ r.outerRings ++ r.innerRings, ∀ l', l' = remains cs ring → CutFrom mask (topoRingSegs t ring) l' := by
    rintro ring hring _ rfl
    obtain ⟨paths, hp, hc⟩ := hclosed ring (List.mem_flatMap.mpr ⟨r, hr, hring⟩)
    exact left_cutFrom hcs hlen hprod hp hc
  rcases ho with ⟨_, c, rfl, _, h3, h4⟩ | ⟨_, rfl⟩
  · obtain rfl := Option.some.inj hr'
    exact ⟨⟨_, List.filter_sublist, forall₂_imp_mem (kept_segs h3) fun ring hring ring' e =>
        key ring (List.mem_append_left _ (List.mem_of_mem_filter hring)) _ e⟩,
      ⟨_, List.filter_sublist, forall₂_imp_mem (kept_segs h4) fun ring hring ring' e =>
        key ring (List.mem_append_right _ (List.mem_of_mem_filter hring)) _ e⟩⟩
  · cases hr'

/-- The area of a ring as a sum over its segments. -/
theorem topoRing_area {δ : Type} (t : Topology δ) (ring : TopoRing) :
    ((topoRingSegs t ring).map fun s => cross s.1 s.2).sum = shoelaceEdges (pathsOf t ring) := (shoelaceEdges_eq_sum _).symm

theorem left_area (cs : List (List Point)) (ring : TopoRing) :
    ((remains cs ring).map fun s => cross s.1 s.2).sum = leftArea cs ring := (shoelaceEdges_eq_sum _).symm

theorem wrap64_zero_small {z : Int} (h : z.natAbs < 2 ^ 64) (h0 : wrap64 z = 0) : z = 0 := by
  unfold wrap64 at h0; omega

/-- What holds for the rings of a topology that a mask line cuts at right angles. -/
theorem left_plain {δ : Type} {m : Build} {mask : ClipMask} {t : Topology δ} {cs : List (List Point)}
    (hcs : ClippedBy m mask t.edges cs) (hw : WellFormed t) (hc : CutsSquare mask t) {ring : TopoRing} (hring : ring ∈ allRings t)
    (hs : SimpleRing (topoRingSegs t ring)) :
    CutFrom mask (topoRingSegs t ring) (remains cs ring) ∧ SimpleRing (remains cs ring) ∧
      (leftArea cs ring).natAbs ≤ (shoelaceEdges (pathsOf t ring)).natAbs ∧
      ((shoelaceEdges (pathsOf t ring)).natAbs < 2 ^ 64 → piecesArea cs (clippedPieces cs ring) = 0 → enclosed (remains cs ring) = ∅) := by
  obtain ⟨paths, hr, hcl⟩ := hw.closed ring hring
  have h1 := left_cutFrom hcs (fun e he => two_le_of_extended (hw.extended e he)) (productsFit_square hc) hr hcl
  have hsq := square_ring hc ring
  have h2 := cutFrom_simple h1 hsq hs
  have hcirc : Circular (topoRingSegs t ring) := by
    unfold topoRingSegs
    rw [pathsOf_reads hr]
    exact circular_closed hcl
  have h3 := cutFrom_area h1 hsq hs hcirc (remains_circular cs ring)
  rw [topoRing_area, left_area] at h3
  refine ⟨h1, h2, h3, fun hfit h0 => simple_empty (remains_circular cs ring) h2 ?_⟩
  rw [left_area]
  exact wrap64_zero_small (lt_of_le_of_lt h3 hfit) h0

/-- C129: if the mask line cuts the borders at right angles only, then a ring that winds
around each point at most once, and always in the same direction, still does so. Its
area, with its sign, is that of the part of it inside of the mask. -/
theorem C129_simple {δ : Type} (m : Build) (mask : ClipMask) (t t' : Topology δ) (h : clipTopology m t mask = .ok t')
    (hw : WellFormed t) (hc : CutsSquare mask t) :
    ∃ L, Survivors t t' L ∧ List.Forall₂ (fun r o => ∀ r' ∈ o,
      (∃ sub, sub.Sublist r.outerRings ∧ List.Forall₂ (fun ring ring' =>
        CutSimply mask (topoRingSegs t ring) (topoRingSegs t' ring')) sub r'.outerRings) ∧
      ∃ sub, sub.Sublist r.innerRings ∧ List.Forall₂ (fun ring ring' =>
        CutSimply mask (topoRingSegs t ring) (topoRingSegs t' ring')) sub r'.innerRings) t.regions L := by
  obtain ⟨cs, L, hcs, hL, hs⟩ := clip_steps h
  refine ⟨L, hL, forall₂_imp_mem hs ?_⟩
  intro r hr o ho r' hr'
  have key : ∀ ring ∈ r.outerRings ++ r.innerRings, ∀ l', l' = remains cs ring → CutSimply mask (topoRingSegs t ring) l' := by
    rintro ring hring _ rfl
    obtain ⟨paths, hp, hcl⟩ := hw.closed ring (List.mem_flatMap.mpr ⟨r, hr, hring⟩)
    have hcut := left_cutFrom hcs (fun e he => two_le_of_extended (hw.extended e he)) (productsFit_square hc) hp hcl
    have hsq := square_ring hc ring
    have hae : areaOf (enclosed (topoRingSegs t ring) ∩ insideOf mask) = areaOf (enclosed (remains cs ring)) := by
      refine measure_congr (measure_symmDiff_eq_zero_iff.mp (le_antisymm ?_ bot_le))
      refine (measure_mono ?_).trans (maskLine_area mask).le
      intro p hp
      by_contra hline
      have : p ∈ insideOf mask ∨ p ∈ insideOf (mirror mask) := by
        by_contra hn
        exact hline (not_or.mp hn)
      have hiff : p ∈ enclosed (topoRingSegs t ring) ∩ insideOf mask ↔ p ∈ enclosed (remains cs ring) := by
        rcases this with hi | hi
        · simp only [Set.mem_inter_iff, hi, and_true, enclosed, Set.mem_ofPred_eq, cutFrom_inside hcut hsq hi]
        · have h0 : p ∉ insideOf mask := by
            cases mask <;> simp only [insideOf, mirror, Set.mem_ofPred_eq] at hi ⊢ <;> linarith
          simp only [Set.mem_inter_iff, h0, and_false, enclosed, Set.mem_ofPred_eq, hcut.2 p hi, false_iff]
          decide
      rcases hp with ⟨a, b⟩ | ⟨a, b⟩
      · exact b (hiff.mp a)
      · exact b (hiff.mpr a)
    refine ⟨(cutFrom_once hcut hsq).1, (cutFrom_once hcut hsq).2, fun hw1 => ?_, fun hw1 => ?_⟩
    · rw [hae, area_of_windsOnce (remains_circular cs ring) ((cutFrom_once hcut hsq).1 hw1)]
    · rw [hae, area_of_windsOnceBack (remains_circular cs ring) ((cutFrom_once hcut hsq).2 hw1)]
  rcases ho with ⟨_, c, rfl, _, h3, h4⟩ | ⟨_, rfl⟩
  · obtain rfl := Option.some.inj hr'
    exact ⟨⟨_, List.filter_sublist, forall₂_imp_mem (kept_segs h3) fun ring hring ring' e =>
        key ring (List.mem_append_left _ (List.mem_of_mem_filter hring)) _ e⟩,
      ⟨_, List.filter_sublist, forall₂_imp_mem (kept_segs h4) fun ring hring ring' e =>
        key ring (List.mem_append_right _ (List.mem_of_mem_filter hring)) _ e⟩⟩
  · cases hr'

theorem mirror_not_inside {mask : ClipMask} {p : ℝ × ℝ} (hi : p ∈ insideOf (mirror mask)) : p ∉ insideOf mask := by
  cases mask <;> simp only [insideOf, mirror, Set.mem_ofPred_eq] at hi ⊢ <;> linarith

/-- A ring that is dropped covered nothing inside. -/
theorem plain_lost {δ : Type} {m : Build} {mask : ClipMask} {t : Topology δ} {cs : List (List Point)}
    (hcs : ClippedBy m mask t.edges cs) (hw : WellFormed t) (hc : CutsSquare mask t) (hp : PlainRings t) {r : TopoRegion δ}
    (hr : r ∈ t.regions) {ring : TopoRing} (hring : ring ∈ lostRings cs r) {p : ℝ × ℝ} (hi : p ∈ insideOf mask) :
    p ∉ enclosed (topoRingSegs t ring) := by
  have zero : ∀ ring ∈ r.outerRings ++ r.innerRings, piecesArea cs (clippedPieces cs ring) = 0 →
      p ∉ enclosed (topoRingSegs t ring) := by
    intro ring hring h0 he
    have hmem : ring ∈ allRings t := List.mem_flatMap.mpr ⟨r, hr, hring⟩
    obtain ⟨h1, _, _, h4⟩ := left_plain hcs hw hc hmem (hp.simple ring hmem)
    have : p ∈ enclosed (remains cs ring) := by
      show Odd _
      rw [cutFrom_inside h1 (square_ring hc ring) hi]
      exact he
    rw [h4 (hp.fit ring hmem) h0] at this
    cases this
  unfold lostRings at hring
  split at hring
  · rename_i hnil
    have outer : ∀ ring ∈ r.outerRings, p ∉ enclosed (topoRingSegs t ring) := by
      intro ring hring
      refine zero ring (List.mem_append_left _ hring) ?_
      by_contra hne
      have : clippedPieces cs ring ∈ keptClipped cs r.outerRings :=
        List.mem_filter.mpr ⟨List.mem_map_of_mem hring, by simpa using hne⟩
      rw [hnil] at this
      cases this
    rcases List.mem_append.mp hring with hring | hring
    · exact outer ring hring
    · intro he
      obtain ⟨o, ho, h⟩ := hp.holes r hr ring hring p he
      exact outer o ho h
  · obtain ⟨h1, h2⟩ := List.mem_filter.mp hring
    exact zero ring h1 (by simpa using h2)

/-- C129: if the mask line cuts the borders at right angles only, rings are simple and
holes are within regions, then a region that clipping keeps covers, besides points on the
line, precisely what the region covered inside of the mask; and a region that vanishes
covered nothing there. -/
theorem C129_exact {δ : Type} (m : Build) (mask : ClipMask) (t t' : Topology δ) (h : clipTopology m t mask = .ok t')
    (hw : WellFormed t) (hc : CutsSquare mask t) (hp : PlainRings t) :
    ∃ L, Survivors t t' L ∧ List.Forall₂ (fun r o => ∀ p, p ∈ insideOf mask ∨ p ∈ insideOf (mirror mask) →
      ((∃ r' ∈ o, p ∈ enclosed (topoRegionSegs t' r')) ↔ p ∈ enclosed (topoRegionSegs t r) ∧ p ∈ insideOf mask)) t.regions L := by
  obtain ⟨cs, L, hcs, hL, hs⟩ := clip_steps h
  refine ⟨L, hL, forall₂_imp_mems hs ?_⟩
  intro r hr o hoL ho p hside
  rcases hside with hi | hi
  · rw [clip_step_real hcs (fun e he => two_le_of_extended (hw.extended e he)) hw.closed (productsFit_square hc) hr ho p hi
      (by
        rintro ⟨_, s, hs, _⟩
        obtain ⟨h3, h4⟩ := List.mem_filter.mp hs
        obtain ⟨ring, _, h3⟩ := List.mem_flatMap.mp h3
        exact square_ring hc ring s h3 (by simpa using h4))
      (by
        rintro ⟨_, cs', hcs', ring, hring, he⟩
        exact plain_lost hcs' hw hc hp hr hring hi he)]
    simp [hi]
  · have h0 := mirror_not_inside hi
    simp only [h0, and_false, iff_false]
    rintro ⟨r', hr', he⟩
    have := C100_outside m mask t t' h r' (survivor_mem hL o hoL r' hr')
    exact Set.eq_empty_iff_forall_notMem.mp this p ⟨he, hi⟩

/-- Rings stay simple and holes within regions. -/
theorem plain_clipped {δ : Type} {m : Build} {mask : ClipMask} {t t' : Topology δ} (h : clipTopology m t mask = .ok t')
    (hw : WellFormed t) (hc : CutsSquare mask t) (hp : PlainRings t) : PlainRings t' := by
  obtain ⟨cs, L, hcs, hL, hs⟩ := clip_steps h
  have from' : ∀ r' ∈ t'.regions, ∃ r ∈ t.regions,
      List.Forall₂ (fun ring ring' => topoRingSegs t' ring' = remains cs ring) (keptOf cs r.outerRings) r'.outerRings ∧
      List.Forall₂ (fun ring ring' => topoRingSegs t' ring' = remains cs ring) (keptOf cs r.innerRings) r'.innerRings := by
    intro r' hr'
    rw [← hL.1] at hr'
    have hmem : some r' ∈ L := List.reduceOption_mem_iff.mp hr'
    obtain ⟨r, hr, ho⟩ := forall₂_exists_left hs hmem
    rcases ho with ⟨_, c, hc', _, h3, h4⟩ | ⟨_, h0⟩
    · obtain rfl := Option.some.inj hc'
      exact ⟨r, hr, kept_segs h3, kept_segs h4⟩
    · cases h0
  have hall : ∀ ring' ∈ allRings t', ∃ ring ∈ allRings t, topoRingSegs t' ring' = remains cs ring := by
    intro ring' hring'
    obtain ⟨r', hr', hring'⟩ := List.mem_flatMap.mp hring'
    obtain ⟨r, hr, h1, h2⟩ := from' r' hr'
    rcases List.mem_append.mp hring' with hring' | hring'
    · obtain ⟨ring, hring, e⟩ := forall₂_exists_left h1 hring'
      exact ⟨ring, List.mem_flatMap.mpr ⟨r, hr, List.mem_append_left _ (List.mem_of_mem_filter hring)⟩, e⟩
    · obtain ⟨ring, hring, e⟩ := forall₂_exists_left h2 hring'
      exact ⟨ring, List.mem_flatMap.mpr ⟨r, hr, List.mem_append_right _ (List.mem_of_mem_filter hring)⟩, e⟩
  refine ⟨fun ring' hring' => ?_, fun ring' hring' => ?_, fun r' hr' inner' hinner' p he => ?_⟩
  · obtain ⟨ring, hring, e⟩ := hall ring' hring'
    rw [e]
    exact (left_plain hcs hw hc hring (hp.simple ring hring)).2.1
  · obtain ⟨ring, hring, e⟩ := hall ring' hring'
    rw [← topoRing_area, e, left_area]
    exact lt_of_le_of_lt (left_plain hcs hw hc hring (hp.simple ring hring)).2.2.1 (hp.fit ring hring)
  · obtain ⟨r, hr, h1, h2⟩ := from' r' hr'
    obtain ⟨inner, hinner, e⟩ := forall₂_exists_left h2 hinner'
    have hinner := List.mem_of_mem_filter hinner
    have all : ∀ ring ∈ r.outerRings ++ r.innerRings, ring ∈ allRings t := fun ring hring =>
      List.mem_flatMap.mpr ⟨r, hr, hring⟩
    obtain ⟨x', y', g1, g2⟩ := rational_beside mask
      ((r.outerRings ++ r.innerRings).flatMap fun ring => topoRingSegs t ring ++ remains cs ring) p.1 p.2
    have hin := left_plain hcs hw hc (all inner (List.mem_append_right _ hinner)) (hp.simple _ (all _ (List.mem_append_right _ hinner)))
    have he : Odd (winding (remains cs inner) p.1 p.2) := by rw [← e]; exact he
    rw [← winding_congr (fun s hs => g2 s (List.mem_flatMap.mpr
      ⟨inner, List.mem_append_right _ hinner, List.mem_append_right _ hs⟩))] at he
    rcases g1 with g1 | g1
    · have hi : ((x' : ℝ), (y' : ℝ)) ∈ insideOf mask := (within_iff _ _ _).mp g1
      have e1 := cutFrom_inside hin.1 (square_ring hc inner) hi
      simp only at e1
      rw [e1] at he
      obtain ⟨outer, ho, heo⟩ := hp.holes r hr inner hinner (x', y') he
      have hmem := all outer (List.mem_append_left _ ho)
      have hout := left_plain hcs hw hc hmem (hp.simple _ hmem)
      have e2 := cutFrom_inside hout.1 (square_ring hc outer) hi
      have heo : Odd (winding (topoRingSegs t outer) x' y') := heo
      simp only at e2
      rw [← e2] at heo
      have hkept : outer ∈ keptOf cs r.outerRings := by
        refine List.mem_filter.mpr ⟨ho, ?_⟩
        rw [decide_eq_true_eq]
        intro h0
        have := hout.2.2.2 (hp.fit _ hmem) h0
        exact Set.eq_empty_iff_forall_notMem.mp this (x', y') heo
      obtain ⟨outer', ho', e'⟩ := forall₂_exists_right h1 hkept
      refine ⟨outer', ho', ?_⟩
      show Odd _
      rw [e', ← winding_congr (fun s hs => g2 s (List.mem_flatMap.mpr
        ⟨outer, List.mem_append_left _ ho, List.mem_append_right _ hs⟩))]
      exact heo
    · have := hin.1.2 (x', y') ((within_iff _ _ _).mp g1)
      simp only at this
      rw [this] at he
      exact absurd he (by decide)

/-- C129: the same for several masks, one after the other. -/
theorem C129_masks {δ : Type} (m : Build) (masks : List ClipMask) (t t' : Topology δ)
    (h : masks.foldlM (fun t mask => clipTopology m t mask) t = .ok t') (hw : WellFormed t)
    (hc : ∀ mask ∈ masks, CutsSquare mask t) (hp : PlainRings t) :
    PlainRings t' ∧ ∃ L, Survivors t t' L ∧ List.Forall₂ (fun r o =>
      ∀ p, (∀ mask ∈ masks, p ∈ insideOf mask ∨ p ∈ insideOf (mirror mask)) →
        ((∃ r' ∈ o, p ∈ enclosed (topoRegionSegs t' r')) ↔
          p ∈ enclosed (topoRegionSegs t r) ∧ ∀ mask ∈ masks, p ∈ insideOf mask)) t.regions L := by
  induction masks generalizing t with
  | nil =>
    obtain rfl := Except.ok.inj h
    refine ⟨hp, t.regions.map some, ⟨reduceOption_map_some _, ?_⟩, ?_⟩
    · rw [List.forall₂_map_right_iff, List.forall₂_same]
      intro r _ r' hr'
      obtain rfl := Option.some.inj hr'
      rfl
    · rw [List.forall₂_map_right_iff, List.forall₂_same]
      intro r _ p _
      simp
  | cons mask masks ih =>
    rw [List.foldlM_cons, bind_ok] at h
    obtain ⟨t1, h1, h2⟩ := h
    have hcm := hc mask (by simp)
    obtain ⟨hp', L2, s2, f2⟩ := ih t1 h2 (C82_clip m mask t t1 hw.extended h1)
      (fun mask' hm => square_clipped hw h1 hcm (hc mask' (List.mem_cons_of_mem _ hm))) (plain_clipped h1 hw hcm hp)
    obtain ⟨L1, s1, f1⟩ := C129_exact m mask t t1 h1 hw hcm hp
    obtain ⟨L, s, f⟩ := survivors_comp s1 s2 f1 f2
    refine ⟨hp', L, s, f.imp ?_⟩
    rintro r o hro p hside
    rcases hro with ⟨g, rfl⟩ | ⟨r1, g1, g2⟩
    · have := g p (hside mask (by simp))
      simp only [Option.mem_def, reduceCtorEq, false_and, exists_false, false_iff] at this ⊢
      exact fun hh => this ⟨hh.1, hh.2 mask (by simp)⟩
    · rw [g2 p fun mask' hm => hside mask' (List.mem_cons_of_mem _ hm)]
      have := g1 p (hside mask (by simp))
      simp only [Option.mem_def, Option.some.injEq, exists_eq_left'] at this
      rw [this]
      simp only [List.mem_cons, forall_eq_or_imp]
      tauto

/-- C129: so areas are exact too. -/
theorem C129_areas {δ : Type} (m : Build) (masks : List ClipMask) (t t' : Topology δ)
    (h : masks.foldlM (fun t mask => clipTopology m t mask) t = .ok t') (hw : WellFormed t)
    (hc : ∀ mask ∈ masks, CutsSquare mask t) (hp : PlainRings t) :
    ∃ L, Survivors t t' L ∧ List.Forall₂ (fun r o =>
      areaOf {p | ∃ r' ∈ o, p ∈ enclosed (topoRegionSegs t' r')} =
        areaOf {p | p ∈ enclosed (topoRegionSegs t r) ∧ ∀ mask ∈ masks, p ∈ insideOf mask}) t.regions L := by
  obtain ⟨_, L, hL, hf⟩ := C129_masks m masks t t' h hw hc hp
  refine ⟨L, hL, hf.imp ?_⟩
  intro r o hro
  refine measure_congr (measure_symmDiff_eq_zero_iff.mp (le_antisymm ?_ bot_le))
  have hline : volume (⋃ mask ∈ {mask | mask ∈ masks}, {p | p ∉ insideOf mask ∧ p ∉ insideOf (mirror mask)}) = 0 :=
    (measure_biUnion_null_iff (List.finite_toSet masks).countable).mpr fun mask _ => maskLine_area mask
  refine (measure_mono ?_).trans hline.le
  intro p hp
  by_contra hn
  simp only [Set.mem_iUnion, not_exists] at hn
  have := hro p fun mask hm => by
    by_contra hh
    exact hn mask hm (not_or.mp hh)
  rcases hp with ⟨a, b⟩ | ⟨a, b⟩
  · exact b (this.mp a)
  · exact b (this.mpr a)

/-- The rings of a topology are as plain as those it was built from. -/
theorem plain_built {δ : Type} {m : Build} {rs : List (Region δ)} {t : Topology δ} (ht : buildTopology m rs = .ok t)
    (hp : ∀ k ∈ keptRegions rs, PlainRegion k) : PlainRings t := by
  have hf := C07_round_trip m rs t ht
  have hall : ∀ ring ∈ allRings t, ∃ k ∈ keptRegions rs, ∃ paths ∈ k.rings, pathsOf t ring = paths := by
    intro ring hring
    obtain ⟨r, hr, hring⟩ := List.mem_flatMap.mp hring
    obtain ⟨k, hk, _, h1, h2⟩ := forall₂_exists_left hf hr
    rcases List.mem_append.mp hring with hring | hring
    · obtain ⟨paths, hp, hread⟩ := forall₂_exists_left h1 hring
      exact ⟨k, hk, paths, List.mem_append_left _ hp, pathsOf_reads hread⟩
    · obtain ⟨paths, hp, hread⟩ := forall₂_exists_left h2 hring
      exact ⟨k, hk, paths, List.mem_append_right _ hp, pathsOf_reads hread⟩
  refine ⟨fun ring hring => ?_, fun ring hring => ?_, fun r hr inner hinner p he => ?_⟩
  · obtain ⟨k, hk, paths, hpaths, e⟩ := hall ring hring
    unfold topoRingSegs
    rw [e]
    exact (hp k hk).simple paths hpaths
  · obtain ⟨k, hk, paths, hpaths, e⟩ := hall ring hring
    rw [e]
    exact (hp k hk).fit paths hpaths
  · obtain ⟨k, hk, _, h1, h2⟩ := forall₂_exists_left hf hr
    obtain ⟨paths, hpaths, hread⟩ := forall₂_exists_left h2 hinner
    unfold topoRingSegs at he
    rw [pathsOf_reads hread] at he
    obtain ⟨outer, ho, heo⟩ := (hp k hk).holes paths hpaths p he
    obtain ⟨ring, hring, hread'⟩ := forall₂_exists_right h1 ho
    refine ⟨ring, hring, ?_⟩
    unfold topoRingSegs
    rw [pathsOf_reads hread']
    exact heo

theorem forall₂_conj {α β : Type} {R S : α → β → Prop} {as : List α} {bs : List β} (h1 : List.Forall₂ R as bs)
    (h2 : List.Forall₂ S as bs) : List.Forall₂ (fun a b => R a b ∧ S a b) as bs := by
  induction h1 with
  | nil => exact .nil
  | cons h _ ih => cases h2 with | cons h' hs => exact .cons ⟨h, h'⟩ (ih hs)

/-- C129: from the regions on. A map of horizontal and vertical borders with plain
rings is built and clipped, whatever the masks are, if the line of each is met by the
lines of those before it in at most one point, and the result is what remains of
the regions inside of all masks. -/
theorem C129_map {δ : Type} (masks : List ClipMask) (hone : OneCorner [] masks) (rs : List (Region δ)) (hd : DrawnMap rs)
    (closed : ∀ r ∈ rs, ∀ ring ∈ r.outerRings ++ r.innerRings, ringArea ring ≠ 0 → ClosedRing (ringPaths ring))
    (hax : ∀ k ∈ keptRegions rs, ∀ s ∈ partSegs k.rings, AxisParallel s) (hp : ∀ k ∈ keptRegions rs, PlainRegion k) :
    ∃ t t' L, buildTopology .release rs = .ok t ∧ masks.foldlM (fun t mask => clipTopology .release t mask) t = .ok t' ∧
      L.reduceOption = t'.regions ∧ List.Forall₂ (fun k o => (∀ r' ∈ o, r'.data = k.data) ∧
        ∀ p, (∀ mask ∈ masks, p ∈ insideOf mask ∨ p ∈ insideOf (mirror mask)) →
          ((∃ r' ∈ o, p ∈ enclosed (topoRegionSegs t' r')) ↔
            p ∈ enclosed (partSegs k.rings) ∧ ∀ mask ∈ masks, p ∈ insideOf mask)) (keptRegions rs) L := by
  obtain ⟨t, t1, ht, h1, hs, _⟩ := C123_normalize rs hd closed
  obtain ⟨hw, ho, _⟩ := wellFormed_of_built ht closed
  have hc : ∀ mask ∈ masks, CutsSquare mask t := fun mask _ => (axis_maps ht h1 hs closed hax mask).1
  obtain ⟨t', ht', _⟩ := C127_clips masks t hw (drawnTopology_of_map hd ht) hc hone
  obtain ⟨_, L, hL, hf⟩ := C129_masks .release masks t t' ht' hw hc (plain_built ht hp)
  refine ⟨t, t', L, ht, ht', hL.1, ?_⟩
  have h2 : List.Forall₂ (fun (k : KeptRegion δ) (r : TopoRegion δ) => topoRegionSegs t r = partSegs k.rings ∧ r.data = k.data)
      (keptRegions rs) t.regions := by
    have a := topoRegionSegs_built ht
    have b := C07_round_trip .release rs t ht
    exact forall₂_conj a (b.imp fun _ _ h => h.1)
  have h3 := forall₂_conj hL.2 hf
  refine forall₂_comp h2 h3 ?_
  rintro k r o ⟨e1, e2⟩ ⟨g1, g2⟩
  refine ⟨fun r' hr' => (g1 r' hr').trans e2, ?_⟩
  rw [← e1]
  exact g2

/-! ## The hypotheses can be met -/

/-- The cell of a grid of `n` by `n` units, and a margin, that a real number falls into. -/
noncomputable def realCell (n : Int) (x : ℝ) : Int := max (-1) (min n ⌊x⌋)

theorem lt_realCell {n a : Int} (h0 : 0 ≤ a) (h1 : a ≤ n) (x : ℝ) : x < a ↔ realCell n x < a := by
  rw [← Int.floor_lt]
  unfold realCell
  omega

theorem realCell_le {n a : Int} (h0 : 0 ≤ a) (h1 : a ≤ n) (x : ℝ) : (a : ℝ) ≤ x ↔ a ≤ realCell n x := by
  rw [← Int.le_floor]
  unfold realCell
  omega

/-- How a segment along the grid turns around a cell. -/
def cellTurn (i j : Int) (s : Point × Point) : Int :=
  if i < s.1.xi then if s.1.yi ≤ j ∧ j < s.2.yi then 1 else if s.2.yi ≤ j ∧ j < s.1.yi then -1 else 0 else 0

/-- How often segments along the grid wind around a cell. -/
def cellWinding (l : List (Point × Point)) (i j : Int) : Int := (l.map (cellTurn i j)).sum

/-- Segments along the grid. -/
def AlongGrid (n : Int) (l : List (Point × Point)) : Prop :=
  ∀ s ∈ l, AxisParallel s ∧ (s.1.xi ≤ n ∧ s.1.yi ≤ n) ∧ s.2.xi ≤ n ∧ s.2.yi ≤ n

instance (n : Int) (l : List (Point × Point)) : Decidable (AlongGrid n l) := by unfold AlongGrid; infer_instance

theorem turn_cell {n : Int} {s : Point × Point} (h : AxisParallel s) (h1 : s.1.xi ≤ n ∧ s.1.yi ≤ n) (h2 : s.2.xi ≤ n ∧ s.2.yi ≤ n)
    (x y : ℝ) : turn x y s = cellTurn (realCell n x) (realCell n y) s := by
  have p1 : 0 ≤ s.1.xi := by simp only [Point.xi]; omega
  have p2 : 0 ≤ s.1.yi := by simp only [Point.yi]; omega
  have p4 : 0 ≤ s.2.yi := by simp only [Point.yi]; omega
  unfold turn cellTurn
  simp only [realCell_le p2 h1.2, realCell_le p4 h2.2, lt_realCell p2 h1.2, lt_realCell p4 h2.2]
  rcases h with h | h
  · have : crossX y s = s.1.xi := by
      unfold crossX
      have : s.1.xi = s.2.xi := by simp only [Point.xi, h]
      rw [this]; simp
    simp only [this, lt_realCell p1 h1.1]
  · have : s.1.yi = s.2.yi := by simp only [Point.yi, h]
    rw [if_neg (c := s.1.yi ≤ _ ∧ _) (by omega), if_neg (c := s.2.yi ≤ _ ∧ _) (by omega)]
    simp

theorem winding_cell {n : Int} {l : List (Point × Point)} (h : AlongGrid n l) (x y : ℝ) :
    winding l x y = cellWinding l (realCell n x) (realCell n y) := by
  unfold winding cellWinding
  rw [List.map_congr_left fun s hs => turn_cell (h s hs).1 (h s hs).2.1 (h s hs).2.2 x y]

/-- All cells. -/
def gridCells (n : Nat) : List Int := (List.range (n + 2)).map fun i : Nat => (i : Int) - 1

theorem realCell_mem (n : Nat) (x : ℝ) : realCell n x ∈ gridCells n := by
  refine List.mem_map.mpr ⟨(realCell n x + 1).toNat, List.mem_range.mpr ?_, ?_⟩ <;> unfold realCell <;> omega

theorem plain_cells {δ : Type} {n : Nat} {t : Topology δ} (h : ∀ ring ∈ allRings t, AlongGrid n (topoRingSegs t ring))
    (hs : ∀ ring ∈ allRings t,
      (∀ i ∈ gridCells n, ∀ j ∈ gridCells n, cellWinding (topoRingSegs t ring) i j = 0 ∨ cellWinding (topoRingSegs t ring) i j = 1) ∨
      (∀ i ∈ gridCells n, ∀ j ∈ gridCells n, cellWinding (topoRingSegs t ring) i j = 0 ∨ cellWinding (topoRingSegs t ring) i j = -1))
    (hf : ∀ ring ∈ allRings t, (shoelaceEdges (pathsOf t ring)).natAbs < 2 ^ 64)
    (hh : ∀ r ∈ t.regions, ∀ ring ∈ r.innerRings, ∀ i ∈ gridCells n, ∀ j ∈ gridCells n,
      Odd (cellWinding (topoRingSegs t ring) i j) → ∃ outer ∈ r.outerRings, Odd (cellWinding (topoRingSegs t outer) i j)) :
    PlainRings t := by
  refine ⟨fun ring hr => (hs ring hr).imp ?_ ?_, hf, ?_⟩
  · intro hw x y
    rw [winding_cell (h ring hr)]
    exact hw _ (realCell_mem n x) _ (realCell_mem n y)
  · intro hw x y
    rw [winding_cell (h ring hr)]
    exact hw _ (realCell_mem n x) _ (realCell_mem n y)
  · intro r hr ring hring p hp
    have hp : Odd (winding (topoRingSegs t ring) p.1 p.2) := hp
    have mem : ∀ ring ∈ r.outerRings ++ r.innerRings, ring ∈ allRings t := fun ring hring => List.mem_flatMap.mpr ⟨r, hr, hring⟩
    rw [winding_cell (h ring (mem ring (List.mem_append_right _ hring)))] at hp
    obtain ⟨outer, ho, heo⟩ := hh r hr ring hring _ (realCell_mem n p.1) _ (realCell_mem n p.2) hp
    refine ⟨outer, ho, ?_⟩
    show Odd _
    rw [winding_cell (h outer (mem outer (List.mem_append_left _ ho)))]
    exact heo

/-- A yard with a pond and an island of the same region in it; the pond is another region. -/
def exYard : List (Region Nat) :=
  [⟨1, [.points [⟨0, 0⟩, ⟨9, 0⟩, ⟨9, 9⟩, ⟨0, 9⟩, ⟨0, 0⟩], .points [⟨3, 3⟩, ⟨4, 3⟩, ⟨4, 4⟩, ⟨3, 4⟩, ⟨3, 3⟩]],
    [.points [⟨2, 2⟩, ⟨2, 5⟩, ⟨5, 5⟩, ⟨5, 2⟩, ⟨2, 2⟩]]⟩,
   ⟨2, [.points [⟨2, 2⟩, ⟨5, 2⟩, ⟨5, 5⟩, ⟨2, 5⟩, ⟨2, 2⟩]], [.points [⟨3, 3⟩, ⟨3, 4⟩, ⟨4, 4⟩, ⟨4, 3⟩, ⟨3, 3⟩]]⟩]

def exYardTopology : Topology Nat := ((buildTopology .debug exYard).toOption).getD ⟨[], []⟩

theorem exYard_plain : PlainRings exYardTopology :=
  plain_cells (n := 9) (by decide +kernel) (by decide +kernel) (by decide +kernel) (by decide +kernel)

-- non-vacuity: with the sides of a rectangle, two of which touch the island
example : (buildTopology .debug exYard).toOption = some exYardTopology ∧ WellFormed exYardTopology ∧ PlainRings exYardTopology ∧
    (∀ mask, CutsSquare mask exYardTopology) ∧
    ∃ t', ([.minX 3, .minY 1, .maxX 4, .maxY 8] : List ClipMask).foldlM (fun t mask => clipTopology .debug t mask) exYardTopology =
      .ok t' ∧ t'.regions.length = 2 := by
  have hb : buildTopology .debug exYard = .ok exYardTopology := by
    obtain ⟨t, ht⟩ : ∃ t, buildTopology .debug exYard = .ok t := by
      have h : (buildTopology .debug exYard).toOption.isSome = true := by decide +kernel
      cases hx : buildTopology .debug exYard with
      | ok t => exact ⟨t, rfl⟩
      | error e => rw [hx] at h; cases h
    unfold exYardTopology
    rw [ht]; rfl
  refine ⟨by rw [hb]; rfl, (wellFormed_of_built hb (by decide +kernel)).1, exYard_plain,
    square_of_axis (used_built hb) (by decide +kernel), ?_⟩
  have h : ((([.minX 3, .minY 1, .maxX 4, .maxY 8] : List ClipMask).foldlM (fun t mask => clipTopology .debug t mask)
      exYardTopology).toOption.map fun t' => t'.regions.length) = some 2 := by decide +kernel
  revert h
  cases ([.minX 3, .minY 1, .maxX 4, .maxY 8] : List ClipMask).foldlM (fun t mask => clipTopology .debug t mask) exYardTopology with
  | ok t => exact fun h => ⟨t, rfl, Option.some.inj h⟩
  | error e => exact fun h => by cases h
-- at the edge of the pond, it vanishes with the island
example : ((clipTopology .debug exYardTopology (.minX 5)).toOption.map fun t' =>
    t'.regions.map fun r => (r.data, r.outerRings.length, r.innerRings.length)) = some [(1, 1, 0)] := by decide +kernel

end TopoGeo
