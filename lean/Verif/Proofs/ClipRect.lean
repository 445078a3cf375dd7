import Verif.Props.ClipArea
import Verif.Props.ClipRectangle
import Verif.Props.Pipeline
/-!
# Clipping again what was clipped
-/

namespace TopoGeo
open Spec MeasureTheory

/-- Coordinate by coordinate, `x` is between `p` and `q`. -/
def InBox (p q x : Point) : Prop :=
  ∀ mask, min (tested mask p) (tested mask q) ≤ tested mask x ∧ tested mask x ≤ max (tested mask p) (tested mask q)

theorem inBox_other {p q x : Point} (h : InBox p q x) (mask : ClipMask) :
    min (other mask p) (other mask q) ≤ other mask x ∧ other mask x ≤ max (other mask p) (other mask q) := by
  cases mask with
  | minX c | maxX c => exact h (.minY c)
  | minY c | maxY c => exact h (.minX c)

theorem inBox_crossing {m : Build} {mask : ClipMask} {p q r : Point} (hc : Crosses mask p q)
    (h : mask.intersect m p q = .ok r) : InBox p q r := by
  have hx1 : min (p.x.toNat : Int) q.x.toNat ≤ r.x.toNat := by
    rcases le_total p.x.toNat q.x.toNat with hl | hl
    · have := crossing_between hc h (.minX p.x) (by simp [depth]) (by simp only [depth]; omega)
      simp only [depth] at this; omega
    · have := crossing_between hc h (.minX q.x) (by simp only [depth]; omega) (by simp [depth])
      simp only [depth] at this; omega
  have hx2 : (r.x.toNat : Int) ≤ max (p.x.toNat : Int) q.x.toNat := by
    rcases le_total p.x.toNat q.x.toNat with hl | hl
    · have := crossing_between hc h (.maxX q.x) (by simp only [depth]; omega) (by simp [depth])
      simp only [depth] at this; omega
    · have := crossing_between hc h (.maxX p.x) (by simp [depth]) (by simp only [depth]; omega)
      simp only [depth] at this; omega
  have hy1 : min (p.y.toNat : Int) q.y.toNat ≤ r.y.toNat := by
    rcases le_total p.y.toNat q.y.toNat with hl | hl
    · have := crossing_between hc h (.minY p.y) (by simp [depth]) (by simp only [depth]; omega)
      simp only [depth] at this; omega
    · have := crossing_between hc h (.minY q.y) (by simp only [depth]; omega) (by simp [depth])
      simp only [depth] at this; omega
  have hy2 : (r.y.toNat : Int) ≤ max (p.y.toNat : Int) q.y.toNat := by
    rcases le_total p.y.toNat q.y.toNat with hl | hl
    · have := crossing_between hc h (.maxY q.y) (by simp only [depth]; omega) (by simp [depth])
      simp only [depth] at this; omega
    · have := crossing_between hc h (.maxY p.y) (by simp [depth]) (by simp only [depth]; omega)
      simp only [depth] at this; omega
  intro mask'
  cases mask' <;> simp only [tested] <;> constructor <;> assumption

/-- What counts no more for a part of a segment than for the segment, and nothing along
the mask line, counts no more for what is left of a path than for the path. -/
theorem clipEdge_sum_le {F : Point → Point → Nat} {m : Build} {mask : ClipMask}
    (hF : ∀ p q, depth mask p = 0 → depth mask q = 0 → F p q = 0)
    (hle : ∀ p q x, InBox p q x → F p x ≤ F p q ∧ F x q ≤ F p q) {edge out : List Point}
    (h : clipEdge m mask edge = .ok out) : sumAlong F out ≤ sumAlong F edge := by
  rw [clipEdge_sumAlong hF h]
  have hX := C28_crossings h
  clear h
  induction edge with
  | nil => exact le_refl _
  | cons p l ih =>
    cases l with
    | nil => exact le_refl _
    | cons q l =>
      rw [seenSum, sumAlong]
      refine add_le_add ?_ (ih fun a b hab => hX a b (by rw [pairs]; exact List.mem_cons_of_mem _ hab))
      by_cases hc : Crosses mask p q
      · obtain ⟨r, hr⟩ := hX p q (by simp [pairs]) hc
        have hr' : crossing m mask p q = r := by unfold crossing; rw [hr]
        obtain ⟨h1, h2⟩ := hle p q r (inBox_crossing hc hr)
        unfold visiblePart
        rw [hr']
        split_ifs <;> simp [sumAlong, h1, h2]
      · unfold visiblePart
        unfold Crosses at hc
        by_cases h1 : 0 < depth mask p ∨ 0 < depth mask q
        · rw [if_pos h1, if_neg (by omega), if_neg (by omega)]
          simp [sumAlong]
        · rw [if_neg h1]; simp [sumAlong]

theorem sumAlong_segs (F : Point → Point → Nat) (l : List Point) : sumAlong F l = ((segs l).map fun s => F s.1 s.2).sum := by
  induction l with
  | nil => rfl
  | cons p l ih =>
    cases l with
    | nil => rfl
    | cons q l => rw [sumAlong, segs, List.map_cons, List.sum_cons, ih]

theorem sumAlong_turned {F : Point → Point → Nat} (hsymm : ∀ p q, F p q = F q p) (l : List Point) :
    sumAlong F l.reverse = sumAlong F l := by
  rw [sumAlong_segs, sumAlong_segs, segs_reverse, List.map_reverse, List.sum_reverse, List.map_map]
  congr 1
  exact List.map_congr_left fun s _ => hsymm _ _

/-- The same for a ring. -/
theorem ring_sum_le {δ : Type} {F : Point → Point → Nat} {m : Build} {mask : ClipMask} {t : Topology δ} {cs : List (List Point)}
    (hsymm : ∀ p q, F p q = F q p) (hF : ∀ p q, depth mask p = 0 → depth mask q = 0 → F p q = 0)
    (hle : ∀ p q x, InBox p q x → F p x ≤ F p q ∧ F x q ≤ F p q)
    (hcs : ClippedBy m mask t.edges cs) (hlen : ∀ e ∈ t.edges, 2 ≤ e.points.length) {ring : TopoRing}
    {paths : List (List Point)} (hw : ReadsAs t.edges paths ring) (hc : ClosedRing paths) :
    (((clippedPieces cs ring).map (Piece.path cs)).map (sumAlong F)).sum ≤ (paths.map (sumAlong F)).sum := by
  rw [pieces_sumAlong hsymm hF hcs hlen hw hc, ← pathsOf_reads hw, pathsOf, List.map_map]
  apply List.sum_le_sum
  intro de hde
  have hwd : ∃ path, walk t.edges de = some path := by
    have : walk t.edges de ∈ paths.map some := by
      rw [← show ring.directedEdges.map (walk t.edges) = paths.map some from hw]
      exact List.mem_map_of_mem hde
    obtain ⟨path, _, h⟩ := List.mem_map.mp this
    exact ⟨path, h.symm⟩
  obtain ⟨path, hpath⟩ := hwd
  have hpo : pathOf t de = path := by unfold pathOf; rw [hpath]; rfl
  unfold walk at hpath
  obtain ⟨e, he, hep⟩ := Option.map_eq_some_iff.mp hpath
  obtain ⟨c, hc1, hc2⟩ := forall₂_getElem?_exists hcs he
  rw [Function.comp_apply, hpo, hc1, Option.getD_some]
  have := clipEdge_sum_le hF hle hc2
  rw [← hep]
  cases de.direction with
  | forward => exact this
  | backward => exact this.trans (sumAlong_turned hsymm _).ge

/-- How deep a segment reaches inside that is cut askew. -/
def askewDepth (mask : ClipMask) (p q : Point) : Nat :=
  if CutAskew mask (p, q) then (max (depth mask p) (depth mask q)).toNat else 0

theorem askewDepth_comm (mask : ClipMask) (p q : Point) : askewDepth mask p q = askewDepth mask q p := by
  have h : CutAskew mask (p, q) ↔ CutAskew mask (q, p) := by
    unfold CutAskew
    simp only
    rw [crosses_comm, ne_comm]
  unfold askewDepth
  simp only [h, max_comm]

theorem cutDepth_eq (mask : ClipMask) (l : List (Point × Point)) :
    cutDepth mask l = (l.map fun s => askewDepth mask s.1 s.2).sum := by
  unfold cutDepth cutSegs askewDepth
  induction l with
  | nil => rfl
  | cons s l ih =>
    rw [List.map_cons, List.sum_cons, ← ih]
    by_cases h : CutAskew mask s
    · rw [List.filter_cons_of_pos (by simpa using h), List.map_cons, List.sum_cons, if_pos h]
    · rw [List.filter_cons_of_neg (by simpa using h), if_neg h, zero_add]

theorem not_cutAskew_onLine {mask mask' : ClipMask} {p q : Point} (hp : depth mask p = 0) (hq : depth mask q = 0) :
    ¬ CutAskew mask' (p, q) := by
  rintro ⟨h1, h2⟩
  unfold Crosses at h1
  cases mask <;> cases mask' <;> simp only [depth, other] at hp hq h1 h2 <;> omega

theorem cutAskew_part {mask : ClipMask} {p q x : Point} (h : InBox p q x) :
    (CutAskew mask (p, x) → CutAskew mask (p, q)) ∧ (CutAskew mask (x, q) → CutAskew mask (p, q)) := by
  have h1 := h mask
  have h2 := inBox_other h mask
  unfold CutAskew Crosses
  cases mask <;> simp only [depth, tested, other] at h1 h2 ⊢ <;> omega

theorem askewDepth_part {mask : ClipMask} {p q x : Point} (h : InBox p q x) :
    askewDepth mask p x ≤ askewDepth mask p q ∧ askewDepth mask x q ≤ askewDepth mask p q := by
  obtain ⟨h3, h4⟩ := cutAskew_part (mask := mask) h
  have h1 := h mask
  unfold askewDepth
  constructor
  · by_cases hc : CutAskew mask (p, x)
    · rw [if_pos hc, if_pos (h3 hc)]
      apply Int.toNat_le_toNat
      cases mask <;> simp only [depth, tested] at h1 ⊢ <;> omega
    · rw [if_neg hc]; exact Nat.zero_le _
  · by_cases hc : CutAskew mask (x, q)
    · rw [if_pos hc, if_pos (h4 hc)]
      apply Int.toNat_le_toNat
      cases mask <;> simp only [depth, tested] at h1 ⊢ <;> omega
    · rw [if_neg hc]; exact Nat.zero_le _

theorem cutDepth_flatMap {α : Type} (mask : ClipMask) (f : α → List (Point × Point)) (l : List α) :
    cutDepth mask (l.flatMap f) = (l.map fun a => cutDepth mask (f a)).sum := by
  simp only [cutDepth_eq]
  induction l with
  | nil => rfl
  | cons a l ih => simp [ih]

theorem cutDepth_paths (mask : ClipMask) (paths : List (List Point)) :
    cutDepth mask (paths.flatMap segs) = (paths.map (sumAlong (askewDepth mask))).sum := by
  rw [cutDepth_flatMap]
  congr 1
  exact List.map_congr_left fun l _ => by rw [cutDepth_eq, sumAlong_segs]

theorem kept_depth {δ : Type} {t t' : Topology δ} {cs : List (List Point)} {mask : ClipMask} {rings rings' : List TopoRing}
    (hk : ∀ ring ∈ rings, cutDepth mask (((clippedPieces cs ring).map (Piece.path cs)).flatMap segs) ≤
      cutDepth mask (topoRingSegs t ring))
    (h : List.Forall₂ (fun ps ring => ReadsAs t'.edges (ps.map (Piece.path cs)) ring) (keptClipped cs rings) rings') :
    cutDepth mask (rings'.flatMap (topoRingSegs t')) ≤ cutDepth mask (rings.flatMap (topoRingSegs t)) := by
  rw [cutDepth_flatMap, cutDepth_flatMap]
  induction rings generalizing rings' with
  | nil =>
    cases h
    exact le_refl _
  | cons r rings ih =>
    have ih := fun {rings' : List TopoRing} => ih (rings' := rings') (fun a ha => hk a (List.mem_cons_of_mem _ ha))
    have h1 := hk r (by simp)
    unfold keptClipped at ih h
    rw [List.map_cons] at h
    rw [List.map_cons, List.sum_cons]
    by_cases hz : piecesArea cs (clippedPieces cs r) = 0
    · rw [List.filter_cons_of_neg (by simpa using hz)] at h
      exact (ih h).trans (Nat.le_add_left _ _)
    · rw [List.filter_cons_of_pos (by simpa using hz)] at h
      cases h with
      | cons h3 h4 =>
        rw [List.map_cons, List.sum_cons]
        refine add_le_add ?_ (ih h4)
        refine le_trans (le_of_eq ?_) h1
        unfold topoRingSegs
        rw [pathsOf_reads h3]

/-- What is left of a region is not cut deeper than the region, by any mask. -/
theorem clip_step_depth {δ : Type} {m : Build} {mask : ClipMask} {t t' : Topology δ} {cs : List (List Point)}
    (hcs : ClippedBy m mask t.edges cs)
    (hlen : ∀ e ∈ t.edges, 2 ≤ e.points.length) (hclosed : RingsClosed t) {r : TopoRegion δ}
    (hr : r ∈ t.regions) {o : Option (TopoRegion δ)} (ho : ClipStep cs t' r o) (mask' : ClipMask) :
    ∀ r' ∈ o, cutDepth mask' (topoRegionSegs t' r') ≤ cutDepth mask' (topoRegionSegs t r) := by
  have key : ∀ ring ∈ r.outerRings ++ r.innerRings,
      cutDepth mask' (((clippedPieces cs ring).map (Piece.path cs)).flatMap segs) ≤ cutDepth mask' (topoRingSegs t ring) := by
    intro ring hring
    obtain ⟨paths, hp, hc⟩ := hclosed ring (List.mem_flatMap.mpr ⟨r, hr, hring⟩)
    unfold topoRingSegs
    rw [pathsOf_reads hp, cutDepth_paths, cutDepth_paths]
    refine ring_sum_le (askewDepth_comm mask') ?_ (fun p q x hx => askewDepth_part hx) hcs hlen hp hc
    intro p q h1 h2
    unfold askewDepth
    rw [if_neg (not_cutAskew_onLine h1 h2)]
  rcases ho with ⟨_, c, rfl, _, h3, h4⟩ | ⟨_, rfl⟩
  · intro r' hr'
    obtain rfl := Option.some.inj hr'
    show cutDepth mask' ((c.outerRings ++ c.innerRings).flatMap (topoRingSegs t')) ≤
      cutDepth mask' ((r.outerRings ++ r.innerRings).flatMap (topoRingSegs t))
    have e1 := kept_depth (mask := mask') (t := t) (t' := t') (fun a ha => key a (List.mem_append_left _ ha)) h3
    have e2 := kept_depth (mask := mask') (t := t) (t' := t') (fun a ha => key a (List.mem_append_right _ ha)) h4
    rw [cutDepth_flatMap] at e1 e2 ⊢
    rw [cutDepth_flatMap] at e1 e2 ⊢
    rw [List.map_append, List.map_append, List.sum_append, List.sum_append]
    exact add_le_add e1 e2
  · intro r' hr'; cases hr'

/-- 1 if the product for a crossing does not fit. -/
def misfit (mask : ClipMask) (p q : Point) : Nat :=
  if Crosses mask p q ∧ ¬ InI64 ((bound mask - tested mask p) * (other mask q - other mask p)) then 1 else 0

theorem inI64_mul {a b c d : Int} (h : InI64 (a * b)) (hc : 0 ≤ c ∧ c ≤ a ∨ a ≤ c ∧ c ≤ 0) (hd : 0 ≤ d ∧ d ≤ b ∨ b ≤ d ∧ d ≤ 0) :
    InI64 (c * d) := by
  unfold InI64 at *
  rcases hc with ⟨h1, h2⟩ | ⟨h1, h2⟩ <;> rcases hd with ⟨h3, h4⟩ | ⟨h3, h4⟩
  · have e1 : c * d ≤ a * b := mul_le_mul h2 h4 h3 (h1.trans h2)
    have e2 : 0 ≤ c * d := mul_nonneg h1 h3
    omega
  · have e1 : c * (-d) ≤ a * (-b) := mul_le_mul h2 (by omega) (by omega) (h1.trans h2)
    have e2 : 0 ≤ c * (-d) := mul_nonneg h1 (by omega)
    rw [mul_neg] at e1 e2
    rw [mul_neg] at e1
    omega
  · have e1 : (-c) * d ≤ (-a) * b := mul_le_mul (by omega) h4 h3 (by omega)
    have e2 : 0 ≤ (-c) * d := mul_nonneg (by omega) h3
    rw [neg_mul] at e1 e2
    rw [neg_mul] at e1
    omega
  · have e1 : (-c) * (-d) ≤ (-a) * (-b) := mul_le_mul (by omega) (by omega) (by omega) (by omega)
    have e2 : 0 ≤ (-c) * (-d) := mul_nonneg (by omega) (by omega)
    rw [neg_mul_neg] at e1 e2
    rw [neg_mul_neg] at e1
    omega

theorem misfit_part {mask : ClipMask} {p q x : Point} (h : InBox p q x) :
    misfit mask p x ≤ misfit mask p q ∧ misfit mask x q ≤ misfit mask p q := by
  have h1 := h mask
  have h2 := inBox_other h mask
  unfold misfit
  constructor
  · by_cases hc : Crosses mask p x ∧ ¬ InI64 ((bound mask - tested mask p) * (other mask x - other mask p))
    · rw [if_pos hc, if_pos]
      have hb := crosses_between hc.1
      have hpq : Crosses mask p q := by
        have := hc.1
        unfold Crosses at this ⊢
        cases mask <;> simp only [depth, tested] at this h1 ⊢ <;> omega
      refine ⟨hpq, fun hi => hc.2 (inI64_mul hi ?_ ?_)⟩ <;> omega
    · rw [if_neg hc]; exact Nat.zero_le _
  · by_cases hc : Crosses mask x q ∧ ¬ InI64 ((bound mask - tested mask x) * (other mask q - other mask x))
    · rw [if_pos hc, if_pos]
      have hb := crosses_between hc.1
      have hpq : Crosses mask p q := by
        have := hc.1
        unfold Crosses at this ⊢
        cases mask <;> simp only [depth, tested] at this h1 ⊢ <;> omega
      refine ⟨hpq, fun hi => hc.2 (inI64_mul hi ?_ ?_)⟩ <;> omega
    · rw [if_neg hc]; exact Nat.zero_le _

theorem misfit_onLine {mask mask' : ClipMask} {p q : Point} (hp : depth mask p = 0) (hq : depth mask q = 0) :
    misfit mask' p q = 0 := by
  unfold misfit
  rw [if_neg]
  rintro ⟨h1, h2⟩
  have : other mask' q - other mask' p = 0 := by
    by_contra h0
    exact not_cutAskew_onLine hp hq ⟨h1, fun h => h0 (by simp only at h; omega)⟩
  rw [this, mul_zero] at h2
  exact h2 (by decide)

theorem sumAlong_misfit {mask : ClipMask} {l : List Point} : sumAlong (misfit mask) l = 0 ↔
    ∀ p q, [p, q] ∈ pairs l → Crosses mask p q → InI64 ((bound mask - tested mask p) * (other mask q - other mask p)) := by
  induction l with
  | nil => simp [sumAlong, pairs]
  | cons a l ih =>
    cases l with
    | nil => simp [sumAlong, pairs]
    | cons b l =>
      rw [sumAlong, Nat.add_eq_zero_iff, ih, pairs]
      constructor
      · rintro ⟨h1, h2⟩ p q hpq hc
        rcases List.mem_cons.mp hpq with h | h
        · obtain ⟨rfl, rfl⟩ : p = a ∧ q = b := by simpa using h
          by_contra hn
          unfold misfit at h1
          rw [if_pos ⟨hc, hn⟩] at h1
          cases h1
        · exact h2 p q h hc
      · intro h
        refine ⟨?_, fun p q hpq => h p q (List.mem_cons_of_mem _ hpq)⟩
        unfold misfit
        rw [if_neg]
        exact fun hc => hc.2 (h a b (by simp) hc.1)

/-- Products that fit keep fitting. -/
theorem productsFit_clip {δ : Type} {m : Build} {mask mask' : ClipMask} {t t' : Topology δ} (h : clipTopology m t mask = .ok t')
    (hlen : ∀ e ∈ t.edges, 2 ≤ e.points.length) (hclosed : RingsClosed t) (hp : ProductsFit mask' t) : ProductsFit mask' t' := by
  obtain ⟨cs, hcs, hf⟩ := clipTopology_ok h
  obtain ⟨_, h2, _⟩ := finishTopology_backPointers hf
  intro e he
  have hmem : e.points ∈ clippedPoints cs t := by rw [← h2]; exact List.mem_map_of_mem he
  rw [← sumAlong_misfit]
  rcases List.mem_append.mp hmem with hmem | hmem
  · obtain ⟨e0, he0, hc⟩ := forall₂_exists_left hcs (List.mem_filter.mp hmem).1
    have h3 := clipEdge_sum_le (F := misfit mask') (fun p q => misfit_onLine) (fun p q x => misfit_part) hc
    rw [sumAlong_misfit.mpr (hp e0 he0)] at h3
    exact Nat.le_zero.mp h3
  · obtain ⟨⟨a, b⟩, hk, hab⟩ := List.mem_map.mp hmem
    obtain ⟨r, hr, ring, hring, pc, hpc, hpe⟩ := plug_mem_newKeys hk
    obtain ⟨paths, hpa, hc⟩ := hclosed ring (List.mem_flatMap.mpr ⟨r, hr, hring⟩)
    have := clippedPieces_onLine hcs hlen hpa hc pc hpc
    unfold PlugOnLine at this
    rw [hpe] at this
    rw [← hab]
    simp [sumAlong, misfit_onLine this.1 this.2]

/-- One step after the other. -/
theorem survivors_comp {δ : Type} {t t1 t2 : Topology δ} {L1 L2 : List (Option (TopoRegion δ))}
    {P Q : TopoRegion δ → Option (TopoRegion δ) → Prop} (h1 : Survivors t t1 L1) (h2 : Survivors t1 t2 L2)
    (hP : List.Forall₂ P t.regions L1) (hQ : List.Forall₂ Q t1.regions L2) :
    ∃ L, Survivors t t2 L ∧ List.Forall₂ (fun r o => (P r none ∧ o = none) ∨ ∃ r1, P r (some r1) ∧ Q r1 o) t.regions L := by
  obtain ⟨e1, d1⟩ := h1
  obtain ⟨e2, d2⟩ := h2
  unfold Survivors
  rw [← e1] at hQ d2
  rw [← e2]
  clear e1 e2
  generalize t.regions = rs at *
  induction hP generalizing L2 with
  | nil =>
    cases hQ
    exact ⟨[], ⟨rfl, .nil⟩, .nil⟩
  | @cons r o rs L1 hp _ ih =>
    cases d1 with
    | cons d d1 =>
    cases o with
    | none =>
      rw [List.reduceOption_cons_of_none] at hQ d2
      obtain ⟨L, ⟨e, hd⟩, hf⟩ := ih hQ d2 d1
      exact ⟨none :: L, ⟨by rw [List.reduceOption_cons_of_none]; exact e, .cons (by simp) hd⟩, .cons (.inl ⟨hp, rfl⟩) hf⟩
    | some r1 =>
      rw [List.reduceOption_cons_of_some] at hQ d2
      cases hQ with
      | @cons _ o2 _ L2 hq hQ =>
        cases d2 with
        | cons dq d2 =>
        obtain ⟨L, ⟨e, hd⟩, hf⟩ := ih hQ d2 d1
        refine ⟨o2 :: L, ⟨?_, .cons (fun r' hr' => (dq r' hr').trans (d r1 rfl)) hd⟩, .cons (.inr ⟨r1, hp, hq⟩) hf⟩
        cases o2 with
        | none => simpa using e
        | some r2 => simpa using e

end TopoGeo
