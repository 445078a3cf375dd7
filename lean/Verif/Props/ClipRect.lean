import Verif.Proofs.ClipRect
/-!
# Property C101: clipping to a rectangle in the real plane
-/

namespace TopoGeo

open Spec MeasureTheory

theorem changed_trans (a b c : Set (ℝ × ℝ)) : changed a c ⊆ changed a b ∪ changed b c := by
  intro p hp
  simp only [changed, Set.mem_symmDiff, Set.mem_union] at hp ⊢
  tauto

theorem length_of_extended {e : List Point} (h : ¬ ZeroLength e) : 2 ≤ e.length := by
  unfold ZeroLength at h
  push Not at h
  exact h.1

/-- C101: clipping does not make cuts deeper, whatever the next mask. -/
theorem C101_depth {δ : Type} (m : Build) (mask : ClipMask) (t t' : Topology δ) (h : clipTopology m t mask = .ok t')
    (hw : WellFormed t) (mask' : ClipMask) :
    ∃ L, Survivors t t' L ∧ List.Forall₂ (fun r o =>
      ∀ r' ∈ o, cutDepth mask' (topoRegionSegs t' r') ≤ cutDepth mask' (topoRegionSegs t r)) t.regions L := by
  obtain ⟨cs, L, hcs, hL, hs⟩ := clip_steps h
  exact ⟨L, hL, forall₂_imp_mem hs fun r hr o ho =>
    clip_step_depth hcs (fun e he => length_of_extended (hw.extended e he)) hw.closed hr ho mask'⟩

/-- C101: products that fit keep fitting, so that the hypothesis about them is about
the map that one starts with. -/
theorem C101_products {δ : Type} (m : Build) (mask mask' : ClipMask) (t t' : Topology δ) (h : clipTopology m t mask = .ok t')
    (hw : WellFormed t) (hp : ProductsFit mask' t) : ProductsFit mask' t' :=
  productsFit_clip h (fun e he => length_of_extended (hw.extended e he)) hw.closed hp

/-- C101: clip with several masks, one after the other. What is left of a region, and
the part of the region inside of all masks, differ in area by at most twice the
depth of the segments of the region that one of the lines cuts askew, and what
rings enclose that are dropped on the way (at most `ε` in every step). -/
theorem C101_rectangle {δ : Type} (m : Build) (masks : List ClipMask) (t t' : Topology δ)
    (h : masks.foldlM (fun t mask => clipTopology m t mask) t = .ok t') (hw : WellFormed t)
    (hprod : ∀ mask ∈ masks, ProductsFit mask t) (ε : ENNReal)
    (hlost : ∀ done mask todo t1, masks = done ++ mask :: todo → done.foldlM (fun t mask => clipTopology m t mask) t = .ok t1 →
      ∀ r ∈ t1.regions, areaOf (lostInside m mask t1 r) ≤ ε) :
    ∃ L, Survivors t t' L ∧ List.Forall₂ (fun r o =>
      areaOf (changed {p | ∃ r' ∈ o, p ∈ enclosed (topoRegionSegs t' r')}
          (enclosed (topoRegionSegs t r) ∩ {p | ∀ mask ∈ masks, p ∈ insideOf mask})) ≤
        masks.length * ε + 2 * ((masks.map fun mask => cutDepth mask (topoRegionSegs t r)).sum : ℕ)) t.regions L := by
  induction masks generalizing t with
  | nil =>
    obtain rfl := Except.ok.inj h
    refine ⟨t.regions.map some, ⟨by simp [List.reduceOption], ?_⟩, ?_⟩
    · rw [List.forall₂_map_right_iff]; exact List.forall₂_same.mpr (by simp)
    · rw [List.forall₂_map_right_iff]
      refine List.forall₂_same.mpr fun r _ => ?_
      simp [changed, areaOf]
  | cons mask masks ih =>
    rw [List.foldlM_cons, bind_ok] at h
    obtain ⟨t1, h1, h⟩ := h
    have hlen := fun e he => length_of_extended (hw.extended e he)
    obtain ⟨cs, L1, hcs, hL1, hs⟩ := clip_steps h1
    have hstep := forall₂_imp_mems hs fun r hr o ho hst => And.intro
      (clip_step_area h1 hcs hlen hw.closed (hprod mask (by simp)) hr (survivor_mem hL1 o ho) hst)
      (And.intro (hlost [] mask masks t rfl rfl r hr) (clip_step_depth hcs hlen hw.closed hr hst))
    obtain ⟨L2, hL2, h2⟩ := ih t1 h (C82_clip m mask t t1 hw.extended h1)
      (fun mask' hm => C101_products m mask mask' t t1 h1 hw (hprod mask' (List.mem_cons_of_mem _ hm)))
      (fun done mask' todo t2 he hd => hlost (mask :: done) mask' todo t2 (by rw [he]; rfl)
        (by rw [List.foldlM_cons, bind_ok]; exact ⟨t1, h1, hd⟩))
    obtain ⟨L, hL, hf⟩ := survivors_comp hL1 hL2 hstep h2
    refine ⟨L, hL, hf.imp ?_⟩
    have hset : {p : ℝ × ℝ | ∀ mask' ∈ mask :: masks, p ∈ insideOf mask'} = insideOf mask ∩ {p | ∀ mask ∈ masks, p ∈ insideOf mask} := by
      ext p; simp
    have hcut : ∀ a b c : Set (ℝ × ℝ), changed (a ∩ c) (b ∩ c) ⊆ changed a b := by
      intro a b c p hp
      simp only [changed, Set.mem_symmDiff, Set.mem_inter_iff] at hp ⊢
      tauto
    rw [hset]
    have hsum : ∀ r : TopoRegion δ, ((mask :: masks).length : ENNReal) * ε +
        2 * (((mask :: masks).map fun mask => cutDepth mask (topoRegionSegs t r)).sum : ℕ) =
        (masks.length * ε + 2 * ((masks.map fun mask => cutDepth mask (topoRegionSegs t r)).sum : ℕ)) +
          (ε + 2 * cutDepth mask (topoRegionSegs t r)) := by
      intro r
      rw [List.length_cons, List.map_cons, List.sum_cons]
      push_cast
      ring
    rintro r o (⟨⟨ha, hl, _⟩, rfl⟩ | ⟨r1, ⟨ha, hl, hd⟩, hq⟩)
    · rw [hsum]
      refine le_trans ?_ (le_add_left (ha.trans (add_le_add hl (le_refl _))))
      refine measure_mono ?_
      have := hcut {p | ∃ r' ∈ (none : Option (TopoRegion δ)), p ∈ enclosed (topoRegionSegs t1 r')}
        (enclosed (topoRegionSegs t r) ∩ insideOf mask) {p | ∀ mask ∈ masks, p ∈ insideOf mask}
      rw [Set.inter_assoc] at this
      refine subset_trans (le_of_eq ?_) this
      simp
    · rw [hsum]
      have h3 := changed_trans {p | ∃ r' ∈ o, p ∈ enclosed (topoRegionSegs t' r')}
        (enclosed (topoRegionSegs t1 r1) ∩ {p | ∀ mask ∈ masks, p ∈ insideOf mask})
        (enclosed (topoRegionSegs t r) ∩ (insideOf mask ∩ {p | ∀ mask ∈ masks, p ∈ insideOf mask}))
      refine (measure_mono h3).trans ((measure_union_le _ _).trans (add_le_add (hq.trans ?_) ?_))
      · refine add_le_add (le_refl _) (mul_le_mul' (le_refl _) ?_)
        exact_mod_cast List.sum_le_sum fun mask' _ => hd mask' r1 rfl
      · refine le_trans (measure_mono ?_) (ha.trans (add_le_add hl (le_refl _)))
        have := hcut {p | ∃ r' ∈ some r1, p ∈ enclosed (topoRegionSegs t1 r')}
          (enclosed (topoRegionSegs t r) ∩ insideOf mask) {p | ∀ mask ∈ masks, p ∈ insideOf mask}
        rw [Set.inter_assoc] at this
        refine subset_trans (le_of_eq ?_) this
        simp

/-- C101: the order of the masks matters for at most that much on either side. -/
theorem C101_order {δ : Type} (m : Build) (masks masks' : List ClipMask) (hperm : masks.Perm masks') (t t1 t2 : Topology δ)
    (h1 : masks.foldlM (fun t mask => clipTopology m t mask) t = .ok t1)
    (h2 : masks'.foldlM (fun t mask => clipTopology m t mask) t = .ok t2) (hw : WellFormed t)
    (hprod : ∀ mask ∈ masks, ProductsFit mask t) (ε : ENNReal)
    (hlost : ∀ done mask todo t1, masks = done ++ mask :: todo ∨ masks' = done ++ mask :: todo →
      done.foldlM (fun t mask => clipTopology m t mask) t = .ok t1 → ∀ r ∈ t1.regions, areaOf (lostInside m mask t1 r) ≤ ε) :
    ∃ L1 L2, Survivors t t1 L1 ∧ Survivors t t2 L2 ∧ List.Forall₂ (fun r o =>
      areaOf (changed {p | ∃ r' ∈ o.1, p ∈ enclosed (topoRegionSegs t1 r')} {p | ∃ r' ∈ o.2, p ∈ enclosed (topoRegionSegs t2 r')}) ≤
        2 * (masks.length * ε + 2 * ((masks.map fun mask => cutDepth mask (topoRegionSegs t r)).sum : ℕ)))
      t.regions (L1.zip L2) := by
  obtain ⟨L1, hL1, f1⟩ := C101_rectangle m masks t t1 h1 hw hprod ε fun done mask todo t1 he => hlost done mask todo t1 (.inl he)
  obtain ⟨L2, hL2, f2⟩ := C101_rectangle m masks' t t2 h2 hw (fun mask hm => hprod mask (hperm.mem_iff.mpr hm)) ε
    fun done mask todo t1 he => hlost done mask todo t1 (.inr he)
  refine ⟨L1, L2, hL1, hL2, ?_⟩
  have hset : {p : ℝ × ℝ | ∀ mask ∈ masks', p ∈ insideOf mask} = {p | ∀ mask ∈ masks, p ∈ insideOf mask} := by
    ext p
    exact forall_congr' fun mask => by rw [hperm.mem_iff]
  rw [hset] at f2
  clear hL1 hL2
  generalize t.regions = rs at *
  induction f1 generalizing L2 with
  | nil => cases f2; exact .nil
  | @cons r o1 rs L1 a1 _ ih =>
    cases f2 with
    | cons a2 f2 =>
    refine .cons ?_ (ih _ f2)
    have e1 : masks'.length = masks.length := hperm.length_eq.symm
    have e2 : (masks'.map fun mask => cutDepth mask (topoRegionSegs t r)).sum =
        (masks.map fun mask => cutDepth mask (topoRegionSegs t r)).sum := (hperm.map _).sum_eq.symm
    rw [e1, e2] at a2
    have hc : ∀ a b : Set (ℝ × ℝ), changed a b = changed b a := fun a b => symmDiff_comm a b
    rw [two_mul]
    refine (measure_mono (changed_trans _ _ _)).trans ((measure_union_le _ _).trans (add_le_add a1 ?_))
    rw [hc]
    exact a2

/-- A triangle that both lines cut askew. -/
def exCorner : Topology Nat :=
  match buildTopology .debug [⟨1, [.points [⟨0, 0⟩, ⟨20, 9⟩, ⟨2, 17⟩, ⟨0, 0⟩]], []⟩] with
  | .ok t => t
  | .error _ => ⟨[], []⟩

/-- The triangle clipped on the left. -/
def exCornerLeft : Topology Nat :=
  match clipTopology .debug exCorner (.minX 5) with
  | .ok t => t
  | .error _ => ⟨[], []⟩

/-- The triangle clipped on the left, then at the top. -/
def exCornerBoth : Topology Nat :=
  match clipTopology .debug exCornerLeft (.minY 3) with
  | .ok t => t
  | .error _ => ⟨[], []⟩

/-- The triangle clipped at the top. -/
def exCornerTop : Topology Nat :=
  match clipTopology .debug exCorner (.minY 3) with
  | .ok t => t
  | .error _ => ⟨[], []⟩

/-- The triangle clipped at the top, then on the left. -/
def exCornerOther : Topology Nat :=
  match clipTopology .debug exCornerTop (.minX 5) with
  | .ok t => t
  | .error _ => ⟨[], []⟩

/-- C101: the order of the masks does matter, and not just for the order of edges. -/
theorem C101_order_refuted : ¬ ∀ (m : Build) (masks masks' : List ClipMask) (t t1 t2 : Topology Nat), masks.Perm masks' →
    masks.foldlM (fun t mask => clipTopology m t mask) t = .ok t1 →
    masks'.foldlM (fun t mask => clipTopology m t mask) t = .ok t2 →
    ∀ e ∈ t1.edges, ∃ e' ∈ t2.edges, e'.points = e.points := by
  intro hall
  have := hall .debug [.minX 5, .minY 3] [.minY 3, .minX 5] exCorner exCornerBoth exCornerOther
    (List.Perm.swap _ _ _) (by decide +kernel) (by decide +kernel)
  revert this
  decide +kernel

/-! ## The hypotheses can be met -/

example : [.minX 5, .minY 3].foldlM (fun t mask => clipTopology .debug t mask) exCorner = .ok exCornerBoth := by decide +kernel
example : WellFormed exCorner :=
  C82_well_formed .debug exCorner (.built [⟨1, [.points [⟨0, 0⟩, ⟨20, 9⟩, ⟨2, 17⟩, ⟨0, 0⟩]], []⟩] exCorner (by decide +kernel) (by decide +kernel))
example : ∀ mask ∈ [.minX 5, .minY 3], ProductsFit mask exCorner := by
  intro mask hm
  simp only [List.mem_cons, List.not_mem_nil, or_false] at hm
  rcases hm with rfl | rfl
  · exact (C76_checked (.minX 5) exCorner exCornerLeft (by decide +kernel)).1
  · exact (C76_checked (.minY 3) exCorner exCornerTop (by decide +kernel)).1

theorem lostInside_empty {δ : Type} {mask : ClipMask} {t : Topology δ}
    (h : ∀ r ∈ t.regions, lostRings (t.edges.map fun e => (clipEdge .debug mask e.points).toOption.getD []) r = []) :
    ∀ r ∈ t.regions, areaOf (lostInside .debug mask t r) ≤ 0 := by
  intro r hr
  have : lostInside .debug mask t r = ∅ := by
    ext p
    simp only [Set.mem_empty_iff_false, iff_false]
    rintro ⟨_, cs, hcs, ring, hring, _⟩
    rw [clippedBy_eq hcs, h r hr] at hring
    cases hring
  rw [this]
  simp [areaOf]

example : ∀ done mask todo t1, [.minX 5, .minY 3] = done ++ mask :: todo →
    done.foldlM (fun t mask => clipTopology .debug t mask) exCorner = .ok t1 →
      ∀ r ∈ t1.regions, areaOf (lostInside .debug mask t1 r) ≤ 0 := by
  intro done mask todo t1 he hd
  rcases done with _ | ⟨a, _ | ⟨b, done⟩⟩
  · obtain ⟨rfl, _⟩ := List.cons.inj he
    obtain rfl := Except.ok.inj hd
    exact lostInside_empty (by decide +kernel)
  · obtain ⟨rfl, he2⟩ := List.cons.inj he
    obtain ⟨rfl, _⟩ := List.cons.inj he2
    have e : [.minX 5].foldlM (fun t mask => clipTopology .debug t mask) exCorner = .ok exCornerLeft := by decide +kernel
    rw [e] at hd
    obtain rfl := Except.ok.inj hd
    exact lostInside_empty (by decide +kernel)
  · simp at he

example : exCorner.regions.map (fun r => [.minX 5, .minY 3].map fun mask => cutDepth mask (topoRegionSegs exCorner r)) = [[30, 20]] := by
  decide +kernel

end TopoGeo
