import Verif.Proofs.EvenOdd
import Verif.Spec.Canonical
/-!
# The boundary of a region depends on the map only
-/

namespace TopoGeo

open Spec
open scoped List

/-- The sides of a path, in terms of the input. -/
def pathSides {δ : Type} (ks : List (KeptRegion δ)) (p : List Point) : Sides :=
  let l := ks.zipIdx.flatMap fun x =>
    List.replicate (((x.1.outer.flatten ++ x.1.inner.flatten).map stored).count (stored p)) x.2
  (l[0]?, l[1]?)

/-- Paths with their sides. -/
def withSides {δ : Type} (ks : List (KeptRegion δ)) (ps : List (List Point)) : List Bound :=
  ps.map fun p => ⟨p, pathSides ks p⟩

theorem replicates_congr {α β : Type} {u : α → Nat} {v : β → Nat} {as : List α} {bs : List β}
    (h : List.Forall₂ (fun a b => u a = v b) as bs) (k : Nat) :
    ((as.zipIdx k).flatMap fun x => List.replicate (u x.1) x.2) =
      (bs.zipIdx k).flatMap fun x => List.replicate (v x.1) x.2 := by
  induction h generalizing k with
  | nil => rfl
  | cons h1 _ ih => rw [List.zipIdx_cons, List.zipIdx_cons, List.flatMap_cons, List.flatMap_cons, ih, h1]

theorem built_regions {δ : Type} {m : Build} {rs : List (Region δ)} {t : Topology δ}
    (h : buildTopology m rs = .ok t) :
    List.Forall₂ (fun (k : KeptRegion δ) (r : TopoRegion δ) => r.data = k.data ∧
      r.outerRings.map (·.directedEdges) = k.outer.map (·.map (directedFor (keysOf rs))) ∧
      r.innerRings.map (·.directedEdges) = k.inner.map (·.map (directedFor (keysOf rs))))
      (keptRegions rs) t.regions := by
  rw [(buildTopology_facts h).2.2]
  generalize keysOf rs = ks
  have aux : ∀ (l : List (KeptRegion δ)) (n : Nat),
      List.Forall₂ (fun (k : KeptRegion δ) (r : TopoRegion δ) => r.data = k.data ∧
        r.outerRings.map (·.directedEdges) = k.outer.map (·.map (directedFor ks)) ∧
        r.innerRings.map (·.directedEdges) = k.inner.map (·.map (directedFor ks)))
        l (setRegionPtrs n ((l.map (toBuildRegion ks)).map toTopoRegion)) := by
    intro l
    induction l with
    | nil => intro n; exact .nil
    | cons k l ih =>
      intro n
      refine .cons ⟨rfl, ?_, ?_⟩ (ih (n + 1)) <;>
        simp [setRegionPtr, toTopoRegion, toBuildRegion, Function.comp_def]
  exact aux _ 0

theorem sides_built {δ : Type} {m : Build} {rs : List (Region δ)} {t : Topology δ}
    (h : buildTopology m rs = .ok t) {p : List Point} (hp : p ∈ allPaths rs) :
    sides t (keyIdx (keysOf rs) (stored p)) = pathSides (keptRegions rs) p := by
  unfold sides pathSides
  have hlist : (ringsUsing t (keyIdx (keysOf rs) (stored p))).map (·.region) =
      (keptRegions rs).zipIdx.flatMap fun x =>
        List.replicate (((x.1.outer.flatten ++ x.1.inner.flatten).map stored).count (stored p)) x.2 := by
    rw [map_region_ringsUsing]
    symm
    have hb := built_regions h
    refine replicates_congr (u := fun k : KeptRegion δ => ((k.outer.flatten ++ k.inner.flatten).map stored).count (stored p))
      (v := fun r => usesOf r (keyIdx (keysOf rs) (stored p))) ?_ 0
    refine forall₂_imp_left hb ?_
    rintro k hk r ⟨_, h1, h2⟩
    unfold usesOf regionEdges
    rw [List.flatMap_append, List.flatMap_def, List.flatMap_def, h1, h2, ← List.map_flatten, ← List.map_flatten,
      ← List.map_append, List.map_map]
    have hin : ∀ e ∈ k.outer.flatten ++ k.inner.flatten, e ∈ allPaths rs :=
      fun e he => List.mem_flatMap.mpr ⟨k, hk, he⟩
    generalize k.outer.flatten ++ k.inner.flatten = l at hin
    induction l with
    | nil => rfl
    | cons e l ih =>
      rw [List.map_cons, List.map_cons, List.count_cons, List.count_cons, ih fun x hx => hin x (by simp [hx])]
      congr 1
      have : (stored e == stored p) = ((DirectedEdge.edge ∘ directedFor (keysOf rs)) e == keyIdx (keysOf rs) (stored p)) := by
        rw [Bool.eq_iff_iff, beq_iff_eq, beq_iff_eq]
        constructor
        · intro he; show keyIdx _ (stored e) = _; rw [he]
        · intro he; exact keyIdx_inj (stored_mem_keysOf (hin e (by simp))) (stored_mem_keysOf hp) he
      rw [this]
  rw [← hlist]
  dsimp only
  rw [List.getElem?_map, List.getElem?_map]

theorem bounds_built {δ : Type} {m : Build} {rs : List (Region δ)} {t : Topology δ}
    (h : buildTopology m rs = .ok t) {ring : TopoRing} {ps : List (List Point)} (hps : ∀ p ∈ ps, p ∈ allPaths rs)
    (hr : ring.directedEdges = ps.map (directedFor (keysOf rs))) :
    bounds t ring = withSides (keptRegions rs) ps ∧ pathsOf t ring = ps := by
  have hpath : ∀ p ∈ ps, pathOf t (directedFor (keysOf rs) p) = p := by
    intro p hp
    unfold pathOf
    rw [walk_directedFor (buildTopology_facts h).2.1 (stored_mem_keysOf (hps p hp))]
    rfl
  unfold bounds withSides pathsOf
  rw [hr, List.map_map, List.map_map]
  constructor
  · apply List.map_congr_left
    intro p hp
    show Bound.mk (pathOf t (directedFor (keysOf rs) p)) (sides t (keyIdx (keysOf rs) (stored p))) = _
    rw [hpath p hp, sides_built h (hps p hp)]
  · rw [show ps.map (pathOf t ∘ directedFor (keysOf rs)) = ps.map id from List.map_congr_left hpath, List.map_id]

/-! ## The same map -/

/-- The paths of a ring that is walked the other way. -/
def turnedPaths (ps : List (List Point)) : List (List Point) := (ps.map List.reverse).reverse

theorem turnedPaths_turnedPaths (ps : List (List Point)) : turnedPaths (turnedPaths ps) = ps := by
  simp [turnedPaths, List.map_reverse, Function.comp_def]

theorem turnedPaths_rotated {a b : List (List Point)} (h : a ~r b) : turnedPaths a ~r turnedPaths b :=
  (h.map _).reverse

theorem sameCurve_stored {a b : List (List Point)} (h : SameCurve a b) (ha : ∀ e ∈ a, Orientable e) :
    (a.map stored).Perm (b.map stored) := by
  rcases h with h | h
  · exact (h.map _).perm
  · have h1 : turnedPaths a ~r b := by
      have := turnedPaths_rotated h
      rwa [show (b.map List.reverse).reverse = turnedPaths b from rfl, turnedPaths_turnedPaths] at this
    refine List.Perm.trans ?_ (h1.map stored).perm
    unfold turnedPaths
    rw [List.map_reverse, List.map_map]
    refine List.Perm.trans ?_ (List.reverse_perm _).symm
    rw [show a.map (stored ∘ List.reverse) = a.map stored from
      List.map_congr_left fun e he => (stored_reverse (ha e he)).1]

theorem sameCurves_stored {a b : List (List (List Point))} (h : SameCurves a b) (ha : ∀ e ∈ a.flatten, Orientable e) :
    (a.flatten.map stored).Perm (b.flatten.map stored) := by
  obtain ⟨c, hc, h⟩ := h
  refine List.Perm.trans ?_ (hc.flatten.map stored)
  clear hc
  induction h with
  | nil => exact List.Perm.refl _
  | cons h1 _ ih =>
    rw [List.flatten_cons, List.flatten_cons, List.map_append, List.map_append]
    exact (sameCurve_stored h1 fun e he => ha e (by simp [he])).append (ih fun e he => ha e (by
      rw [List.flatten_cons]; exact List.mem_append_right _ he))

theorem sameMap_sides {δ : Type} {rs rs' : List (Region δ)} (h : SameMap rs rs')
    (ho : ∀ e ∈ allPaths rs, Orientable e) (p : List Point) :
    pathSides (keptRegions rs) p = pathSides (keptRegions rs') p := by
  unfold pathSides
  have := replicates_congr
    (u := fun k : KeptRegion δ => ((k.outer.flatten ++ k.inner.flatten).map stored).count (stored p))
    (v := fun k : KeptRegion δ => ((k.outer.flatten ++ k.inner.flatten).map stored).count (stored p)) (forall₂_imp_left h (S := fun a b => _) (by
      rintro k hk k' ⟨_, h1, h2⟩
      have hin : ∀ e ∈ k.outer.flatten ++ k.inner.flatten, Orientable e :=
        fun e he => ho e (List.mem_flatMap.mpr ⟨k, hk, he⟩)
      show List.count _ _ = List.count _ _
      rw [List.map_append, List.map_append]
      exact ((sameCurves_stored h1 fun e he => hin e (List.mem_append_left _ he)).append
        (sameCurves_stored h2 fun e he => hin e (List.mem_append_right _ he))).count_eq _)) 0
  rw [this]

theorem withSides_rotated {δ : Type} (ks : List (KeptRegion δ)) {a b : List (List Point)} (h : a ~r b) :
    withSides ks a ~r withSides ks b := h.map _

theorem withSides_turned {δ : Type} (ks : List (KeptRegion δ)) {a : List (List Point)} (h : ∀ e ∈ a, Orientable e) :
    withSides ks (turnedPaths a) = turned (withSides ks a) := by
  unfold withSides turnedPaths turned
  rw [List.map_reverse, List.map_map, List.map_map]
  congr 1
  apply List.map_congr_left
  intro p hp
  show Bound.mk p.reverse (pathSides ks p.reverse) = ⟨p.reverse, pathSides ks p⟩
  unfold pathSides
  rw [(stored_reverse (h p hp)).1]

theorem shoelaceEdges_perm {a b : List (List Point)} (h : a.Perm b) : shoelaceEdges a = shoelaceEdges b := by
  unfold shoelaceEdges
  exact (h.map _).sum_eq

theorem orientable_reverse {e : List Point} (h : Orientable e) : Orientable e.reverse := by
  unfold Orientable at h ⊢
  rw [List.head?_reverse, List.getLast?_reverse, pathArea_reverse]
  rcases h with h | ⟨h1, h2⟩
  · exact Or.inl fun h0 => h h0.symm
  · right
    rw [if_neg h2]
    have : InI64 (pathArea e) := by unfold pathArea; exact inI64_wrap64 _
    unfold InI64 at this
    constructor <;> omega

/-- The walks around the same curve. -/
theorem wound_same {δ : Type} (ks : List (KeptRegion δ)) (order : WindingOrder) {a b : List (List Point)}
    (h : SameCurve a b) (ha : ∀ e ∈ a, Orientable e) (h0 : wrap64 (shoelaceEdges a) ≠ 0)
    (h1 : wrap64 (shoelaceEdges a) ≠ -2 ^ 63) :
    (if Oriented order a then withSides ks a else turned (withSides ks a)) ~r
      (if Oriented order b then withSides ks b else turned (withSides ks b)) := by
  rcases h with h | h
  · have hs := oriented_congr (order := order) (shoelaceEdges_perm h.perm)
    have hr := withSides_rotated ks h
    by_cases ho : Oriented order a
    · rw [if_pos ho, if_pos (hs.mp ho)]; exact hr
    · rw [if_neg ho, if_neg fun x => ho (hs.mpr x)]
      exact (hr.map _).reverse
  · have h' : turnedPaths a ~r b := by
      have := turnedPaths_rotated h
      rwa [show (b.map List.reverse).reverse = turnedPaths b from rfl, turnedPaths_turnedPaths] at this
    have hs : shoelaceEdges b = -shoelaceEdges a := by
      rw [← shoelaceEdges_perm h'.perm]
      exact shoelaceEdges_reverse a
    have hr := withSides_rotated ks h'
    rw [withSides_turned ks ha] at hr
    by_cases ho : Oriented order a
    · have hb : ¬ Oriented order b := by
        unfold Oriented at ho ⊢
        rw [hs, wrap64_neg' h1]
        cases order <;> simp only at ho ⊢ <;> omega
      rw [if_pos ho, if_neg hb]
      have hob : ∀ e ∈ b, Orientable e := by
        intro e he
        obtain ⟨x, hx, rfl⟩ : ∃ x ∈ a, x.reverse = e := by
          have := h'.mem_iff.mpr he
          unfold turnedPaths at this
          rw [List.mem_reverse] at this
          exact List.mem_map.mp this
        exact orientable_reverse (ha x hx)
      rw [← withSides_turned ks hob]
      exact withSides_rotated ks h
    · rw [if_neg ho, if_pos (oriented_turned hs h0 h1 ho)]
      exact hr

/-- The boundaries of the same curves. -/
theorem boundary_same {δ : Type} {m m' : Build} {rs rs' : List (Region δ)} {t t' : Topology δ}
    (h : buildTopology m rs = .ok t) (h' : buildTopology m' rs' = .ok t') (hs : SameMap rs rs')
    (ho : ∀ e ∈ allPaths rs, Orientable e) (order : WindingOrder) {rings rings' : List TopoRing}
    {pss pss' : List (List (List Point))} (hr : rings.map (·.directedEdges) = pss.map (·.map (directedFor (keysOf rs))))
    (hr' : rings'.map (·.directedEdges) = pss'.map (·.map (directedFor (keysOf rs'))))
    (hps : ∀ ps ∈ pss, ∀ p ∈ ps, p ∈ allPaths rs) (hps' : ∀ ps ∈ pss', ∀ p ∈ ps, p ∈ allPaths rs')
    (h0 : ∀ ps ∈ pss, wrap64 (shoelaceEdges ps) ≠ 0 ∧ wrap64 (shoelaceEdges ps) ≠ -2 ^ 63)
    (hc : SameCurves pss pss') : (boundary t order rings).Perm (boundary t' order rings') := by
  have key : ∀ {m : Build} {rs : List (Region δ)} {t : Topology δ} (_ : buildTopology m rs = .ok t)
      (rings : List TopoRing) (pss : List (List (List Point)))
      (_ : rings.map (·.directedEdges) = pss.map (·.map (directedFor (keysOf rs))))
      (_ : ∀ ps ∈ pss, ∀ p ∈ ps, p ∈ allPaths rs),
      boundary t order rings = pss.flatMap fun ps => sidedSegs ((if Oriented order ps then
        withSides (keptRegions rs) ps else turned (withSides (keptRegions rs) ps)).filter Bound.separates) := by
    intro m rs t h rings
    induction rings with
    | nil =>
      intro pss hr _
      cases pss with
      | nil => rfl
      | cons a l => simp at hr
    | cons ring rings ih =>
      intro pss hr hin
      cases pss with
      | nil => simp at hr
      | cons ps pss =>
        rw [List.map_cons, List.map_cons] at hr
        obtain ⟨r1, r2⟩ := List.cons.inj hr
        obtain ⟨b1, b2⟩ := bounds_built h (hin ps (by simp)) r1
        have := ih pss r2 fun x hx => hin x (by simp [hx])
        unfold boundary at this ⊢
        rw [List.flatMap_cons, List.flatMap_cons, this]
        unfold wound
        rw [b1, b2]
  rw [key h rings pss hr hps, key h' rings' pss' hr' hps']
  obtain ⟨c, hp, hc⟩ := hc
  refine List.Perm.trans ?_ (hp.flatMap_right _)
  have hsides : ∀ ps, withSides (keptRegions rs') ps = withSides (keptRegions rs) ps := by
    intro ps
    unfold withSides
    apply List.map_congr_left
    intro p _
    rw [sameMap_sides hs ho]
  simp only [hsides]
  clear hp hr hr' hps'
  induction hc with
  | nil => exact List.Perm.refl _
  | @cons a b as bs h1 _ ih =>
    rw [List.flatMap_cons, List.flatMap_cons]
    refine List.Perm.append ?_ (ih (fun ps hp => hps ps (by simp [hp])) fun ps hp => h0 ps (by simp [hp]))
    have := wound_same (keptRegions rs) order h1 (fun e he => ho e (hps a (by simp) e he)) (h0 a (by simp)).1 (h0 a (by simp)).2
    exact (this.perm.filter _).flatMap_right _

/-- The same map has the same boundaries. -/
theorem sameBoundaries {δ : Type} {m m' : Build} {rs rs' : List (Region δ)} {t t' : Topology δ}
    (h : buildTopology m rs = .ok t) (h' : buildTopology m' rs' = .ok t') (hs : SameMap rs rs')
    (ho : ∀ e ∈ allPaths rs, Orientable e)
    (h0 : ∀ k ∈ keptRegions rs, ∀ ps ∈ k.outer ++ k.inner, wrap64 (shoelaceEdges ps) ≠ 0 ∧
      wrap64 (shoelaceEdges ps) ≠ -2 ^ 63) : SameBoundaries t t' := by
  have hb := built_regions h
  have hb' := built_regions h'
  have hmem : ∀ {α β : Type} {R : α → β → Prop} {l : List α} {l' : List β}, List.Forall₂ R l l' →
      List.Forall₂ (fun a b => a ∈ l ∧ R a b) l l' := fun h => forall₂_imp_left h fun a ha b hab => ⟨ha, hab⟩
  have hin : ∀ {rs : List (Region δ)} {k : KeptRegion δ}, k ∈ keptRegions rs →
      (∀ ps ∈ k.outer, ∀ p ∈ ps, p ∈ allPaths rs) ∧ ∀ ps ∈ k.inner, ∀ p ∈ ps, p ∈ allPaths rs :=
    fun {rs k} hk => ⟨fun ps hps p hp => List.mem_flatMap.mpr ⟨k, hk, List.mem_append_left _ (List.mem_flatten.mpr ⟨ps, hps, hp⟩)⟩,
      fun ps hps p hp => List.mem_flatMap.mpr ⟨k, hk, List.mem_append_right _ (List.mem_flatten.mpr ⟨ps, hps, hp⟩)⟩⟩
  have hflip : List.Forall₂ (fun (r : TopoRegion δ) (k : KeptRegion δ) => k ∈ keptRegions rs ∧ r.data = k.data ∧
      r.outerRings.map (·.directedEdges) = k.outer.map (·.map (directedFor (keysOf rs))) ∧
      r.innerRings.map (·.directedEdges) = k.inner.map (·.map (directedFor (keysOf rs)))) t.regions (keptRegions rs) :=
    List.Forall₂.flip (hmem hb)
  refine forall₂_comp hflip (forall₂_comp hs (hmem hb') (T := fun k r' => ∃ k', (k.data = k'.data ∧
    SameCurves k.outer k'.outer ∧ SameCurves k.inner k'.inner) ∧ k' ∈ keptRegions rs' ∧ r'.data = k'.data ∧
      r'.outerRings.map (·.directedEdges) = k'.outer.map (·.map (directedFor (keysOf rs'))) ∧
      r'.innerRings.map (·.directedEdges) = k'.inner.map (·.map (directedFor (keysOf rs'))))
    fun k k' r' h1 h2 => ⟨k', h1, h2⟩) ?_
  rintro r k r' ⟨hk, d, o, i⟩ ⟨k', ⟨d', o', i'⟩, hk', e, q, j⟩
  refine ⟨by rw [d, d', e], ?_, ?_⟩
  · exact boundary_same h h' hs ho _ o q (hin hk).1 (hin hk').1 (fun ps hp => h0 k hk ps (by simp [hp])) o'
  · exact boundary_same h h' hs ho _ i j (hin hk).2 (hin hk').2 (fun ps hp => h0 k hk ps (by simp [hp])) i'

end TopoGeo
