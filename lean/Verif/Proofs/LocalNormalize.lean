import Verif.Proofs.Local
/-!
# What becomes of a region among its neighbours
-/

namespace TopoGeo

open Spec

variable {δ : Type} {m : Build}

/-! ## By itself, with labels -/

/-- One ring. -/
def normRingOf (m : Build) (order : WindingOrder) (edges : List NormEdge) : R NormRing :=
  joinRelatedEdges edges >>= fun joined => windEdges m joined order >>= fun wound => rotateEdges wound

/-- Several rings. -/
def normRingsOf (m : Build) (order : WindingOrder) : List (List NormEdge) → R (List NormRing)
  | [] => .ok []
  | r :: rest => normRingOf m order r >>= fun n => normRingsOf m order rest >>= fun ns => .ok (n :: ns)

/-- All rings of a kind. -/
def normRegionRingsOf (m : Build) (order : WindingOrder) (rings : List (List NormEdge)) : R (List Ring) :=
  normRingsOf m order rings >>= fun ns => joinAdjacentRings ns >>= fun joined => sortRings joined >>= fun sorted =>
    .ok (sorted.map normRingToRing)

theorem normalizeRings_of {t : Topology δ} (ht : BackPointersExact t) (order : WindingOrder) {rings : List TopoRing}
    (h : ∀ ring ∈ rings, ring ∈ allRings t) : normalizeRings m t order rings = normRingsOf m order (rings.map (nedges t)) := by
  induction rings with
  | nil => rfl
  | cons r rest ih =>
    simp only [normalizeRings, normRingsOf, List.map_cons, normalizeRing, normRingOf]
    rw [withDirectedEdges_eq ht (mem_allDirectedEdges_of_ring (h r (by simp))), ok_bind, ih fun ring hr => h ring (by simp [hr])]
    rfl

theorem normalizeRegionRings_of {t : Topology δ} (ht : BackPointersExact t) (order : WindingOrder) {rings : List TopoRing}
    (h : ∀ ring ∈ rings, ring ∈ allRings t) :
    normalizeRegionRings m t rings order = normRegionRingsOf m order (rings.map (nedges t)) := by
  unfold normalizeRegionRings normalizeRegionNormRings normRegionRingsOf
  rw [normalizeRings_of ht order h]
  cases normRingsOf m order (rings.map (nedges t)) with
  | error e => rfl
  | ok ns =>
    rw [ok_bind, ok_bind]
    cases joinAdjacentRings ns <;> rfl

section Relabel

variable {lab : Option Nat × Option Nat → Option Nat × Option Nat}

theorem normRingsOf_relabel (h : Relabels lab) (order : WindingOrder) (rings : List (List NormEdge)) :
    normRingsOf m order (rings.map (List.map (relabel lab))) = (normRingsOf m order rings).map (List.map (List.map (relabel lab))) := by
  induction rings with
  | nil => rfl
  | cons r rest ih =>
    have h1 : normRingOf m order (r.map (relabel lab)) = (normRingOf m order r).map (List.map (relabel lab)) := by
      unfold normRingOf
      rw [joinRelatedEdges_relabel h, map_bind_R, bind_map_R]
      refine bind_congr_R fun joined => ?_
      rw [windEdges_relabel, map_bind_R, bind_map_R]
      exact bind_congr_R fun wound => rotateEdges_relabel wound
    simp only [normRingsOf, List.map_cons]
    rw [h1, map_bind_R, bind_map_R]
    refine bind_congr_R fun n => ?_
    rw [ih, map_bind_R, bind_map_R]
    exact bind_congr_R fun ns => rfl

theorem normRegionRingsOf_relabel (h : Relabels lab) (order : WindingOrder) (rings : List (List NormEdge)) :
    normRegionRingsOf m order (rings.map (List.map (relabel lab))) = normRegionRingsOf m order rings := by
  unfold normRegionRingsOf
  rw [normRingsOf_relabel h, map_bind_R]
  refine bind_congr_R fun ns => ?_
  rw [joinAdjacentRings_relabel h, map_bind_R]
  refine bind_congr_R fun joined => ?_
  rw [sortRings_relabel, map_bind_R]
  refine bind_congr_R fun sorted => ?_
  rw [List.map_map]
  congr 1
  exact List.map_congr_left fun ring _ => normRingToRing_relabel ring

end Relabel

theorem otherSides_relabels {g : Nat → Nat} (hg : Function.Injective g) : Relabels (otherSides g) := by
  have hi : Function.Injective (Option.map g) := Option.map_injective hg
  constructor
  · rintro ⟨a, b⟩ ⟨c, d⟩
    simp only [otherSides, Prod.mk.injEq, hi.eq_iff]
  · rintro ⟨a, b⟩
    simp only [otherSides, hi.eq_iff]

/-! ## What becomes of a region -/

/-- An edge between two regions. -/
def surroundedEdge (x : (Option (List Point) × Direction) × Sides) : NormEdge := ⟨drawnPath x.1, x.2⟩

/-- The normalized region, before it is added to the new topology. -/
def normalizedAlone (m : Build) (r : Surrounded δ) : R (Region δ) :=
  normRegionRingsOf m .clockwise (r.outer.map (List.map surroundedEdge)) >>= fun outer =>
    normRegionRingsOf m .counterClockwise (r.inner.map (List.map surroundedEdge)) >>= fun inner => .ok ⟨r.data, outer, inner⟩

/-- What becomes of a region. -/
def normalizedDrawn (r : Surrounded δ) : Option (Drawn δ) :=
  match normalizedAlone .release r with
  | .ok region => builtDrawn region
  | .error _ => none

theorem surroundedEdge_eq (t : Topology δ) (de : DirectedEdge) :
    surroundedEdge ((t.edges[de.edge]?.map (·.points), de.direction), sides t de.edge) = nedge t de := by
  unfold surroundedEdge nedge drawnPath pathOf walk
  cases t.edges[de.edge]? with
  | none => cases de.direction <;> rfl
  | some e => cases de.direction <;> rfl

theorem surroundedRing_eq (t : Topology δ) (ring : TopoRing) : (surroundedRing t ring).map surroundedEdge = nedges t ring := by
  unfold surroundedRing nedges
  rw [List.map_map]
  exact List.map_congr_left fun de _ => surroundedEdge_eq t de

theorem normalizeRegion_alone {t : Topology δ} (ht : BackPointersExact t) {r : TopoRegion δ} (hr : r ∈ t.regions) :
    normalizeRegion m t r =
      normalizedAlone m ⟨r.data, r.outerRings.map (surroundedRing t), r.innerRings.map (surroundedRing t)⟩ := by
  unfold normalizeRegion normalizedAlone
  rw [normalizeRegionRings_of ht _ (mem_allRings_outer hr), normalizeRegionRings_of ht _ (mem_allRings_inner hr)]
  simp only [List.map_map, Function.comp_def, surroundedRing_eq]

theorem normalizedAlone_rename {g : Nat → Nat} (hg : Function.Injective g) (r : Surrounded δ) :
    normalizedAlone m (r.rename g) = normalizedAlone m r := by
  have key : ∀ rings : List (List ((Option (List Point) × Direction) × Sides)),
      (rings.map (List.map fun x => (x.1, otherSides g x.2))).map (List.map surroundedEdge) =
        (rings.map (List.map surroundedEdge)).map (List.map (relabel (otherSides g))) := by
    intro rings
    simp [Function.comp_def, surroundedEdge, relabel]
  unfold normalizedAlone Surrounded.rename
  rw [key, key, normRegionRingsOf_relabel (otherSides_relabels hg), normRegionRingsOf_relabel (otherSides_relabels hg)]

theorem normalizedDrawn_rename {g : Nat → Nat} (hg : Function.Injective g) (r : Surrounded δ) :
    normalizedDrawn (r.rename g) = normalizedDrawn r := by
  unfold normalizedDrawn
  rw [normalizedAlone_rename hg]

theorem drawn_normalize {t t' : Topology δ} (ht : BackPointersExact t) (h : normalize m t = .ok t') :
    drawn t' = (surrounded t).filterMap normalizedDrawn := by
  obtain ⟨rs, h1, h2⟩ := normalize_ok.mp h
  rw [drawn_build h2]
  unfold surrounded
  rw [List.filterMap_map]
  have key : ∀ (l : List (TopoRegion δ)), (∀ r ∈ l, r ∈ t.regions) → ∀ rs : List (Region δ),
      List.Forall₂ (fun r r' => normalizeRegion m t r = .ok r') l rs → rs.filterMap builtDrawn = l.filterMap (normalizedDrawn ∘ fun r =>
        ⟨r.data, r.outerRings.map (surroundedRing t), r.innerRings.map (surroundedRing t)⟩) := by
    intro l hl rs hrs
    induction hrs with
    | nil => rfl
    | @cons r r' l rs hr _ ih =>
      have hr' : normalizeRegion .release t r = .ok r' := unchecked_ok (x := fun m => normalizeRegion m t r)
        (.bind (normalizeRegionRings_checked _ _ _) fun _ => .bind (normalizeRegionRings_checked _ _ _) fun _ => .refl _) hr
      rw [List.filterMap_cons, List.filterMap_cons, ih fun r hr => hl r (by simp [hr])]
      have : (normalizedDrawn ∘ fun r : TopoRegion δ =>
          (⟨r.data, r.outerRings.map (surroundedRing t), r.innerRings.map (surroundedRing t)⟩ : Surrounded δ)) r = builtDrawn r' := by
        rw [normalizeRegion_alone ht (hl r (by simp))] at hr'
        simp only [Function.comp, normalizedDrawn, hr']
      rw [this]
  exact key t.regions (fun _ h => h) rs h1

/-! ## Parts that share no edge with others -/

theorem ringsUsing_part {f g : Nat → Nat} {t u : Topology δ} (h : PartOf f g u t) (hu : BackPointersExact u)
    (hs : Separate f g u t) {i : Nat} (hi : i < u.edges.length) :
    ringsUsing t (f i) = (ringsUsing u i).map (renumberPtr g) := by
  classical
  have hg : Function.Injective g := (show StrictMono g from fun i j hij => h.increasing i j hij).injective
  -- the regions of the part among all regions
  have hsub : (u.regions.zipIdx.map fun x => (renumberRegion f g x.1, g x.2)).Sublist t.regions.zipIdx := by
    rw [List.sublist_iff_exists_orderEmbedding_getElem?_eq]
    refine ⟨OrderEmbedding.ofStrictMono g fun i j hij => h.increasing i j hij, fun j => ?_⟩
    change _ = t.regions.zipIdx[g j]?
    have := h.region j
    rw [List.getElem?_map, List.getElem?_zipIdx, List.getElem?_zipIdx, this]
    cases u.regions[j]? <;> simp
  let p : TopoRegion δ × Nat → Bool := fun x => decide (∃ j < u.regions.length, x.2 = g j)
  have hfilter : t.regions.zipIdx.filter p = u.regions.zipIdx.map fun x => (renumberRegion f g x.1, g x.2) := by
    have h1 : ((u.regions.zipIdx.map fun x => (renumberRegion f g x.1, g x.2)).filter p).Sublist (t.regions.zipIdx.filter p) := hsub.filter p
    have h2 : (u.regions.zipIdx.map fun x => (renumberRegion f g x.1, g x.2)).filter p =
        u.regions.zipIdx.map fun x => (renumberRegion f g x.1, g x.2) := by
      rw [List.filter_eq_self]
      intro x hx
      obtain ⟨y, hy, rfl⟩ := List.mem_map.mp hx
      have := List.mem_zipIdx_iff_getElem?.mp hy
      simp only [p, decide_eq_true_eq]
      exact ⟨y.2, (List.getElem?_eq_some_iff.mp this).1, rfl⟩
    rw [h2] at h1
    refine (h1.eq_of_length_le ?_).symm
    have hnd : (t.regions.zipIdx.filter p).Nodup := by
      refine List.Nodup.filter _ ?_
      have : (t.regions.zipIdx.map Prod.snd).Nodup := by
        rw [List.zipIdx_map_snd]
        exact List.nodup_range'
      exact this.of_map
    refine (hnd.subperm ?_).length_le
    intro x hx
    obtain ⟨hx, hp⟩ := List.mem_filter.mp hx
    obtain ⟨j, hj, hxj⟩ := of_decide_eq_true hp
    have hx := List.mem_zipIdx_iff_getElem?.mp hx
    have := h.region j
    rw [← hxj, hx, List.getElem?_eq_getElem hj, Option.map_some, Option.some.injEq] at this
    refine List.mem_map.mpr ⟨(u.regions[j], j), List.mem_zipIdx_iff_getElem?.mpr (List.getElem?_eq_getElem hj), ?_⟩
    obtain ⟨x1, x2⟩ := x
    simp only at this hxj ⊢
    rw [this, hxj]
  let uses : TopoRegion δ × Nat → List RingPtr := fun x =>
    (x.1.outerRings.zipIdx.flatMap fun y => (y.1.directedEdges.filter (·.edge = f i)).map fun _ => ⟨x.2, false, y.2⟩) ++
      (x.1.innerRings.zipIdx.flatMap fun y => (y.1.directedEdges.filter (·.edge = f i)).map fun _ => ⟨x.2, true, y.2⟩)
  have huse : ringsUsing t (f i) = t.regions.zipIdx.flatMap uses := rfl
  have hreg : ∀ x, ∀ rp ∈ uses x, rp.region = x.2 := by
    intro x rp hrp
    simp only [uses, List.mem_append, List.mem_flatMap, List.mem_map] at hrp
    rcases hrp with ⟨_, _, _, _, rfl⟩ | ⟨_, _, _, _, rfl⟩ <;> rfl
  have hskip : ∀ l : List (TopoRegion δ × Nat), (∀ x ∈ l, p x = false → uses x = []) → l.flatMap uses = (l.filter p).flatMap uses := by
    intro l hl
    induction l with
    | nil => rfl
    | cons x l ih =>
      have ih := ih fun y hy => hl y (by simp [hy])
      rw [List.flatMap_cons, List.filter_cons]
      cases hp : p x with
      | true => simp only [if_true, List.flatMap_cons, ih]
      | false => simp [hl x (by simp) hp, ih]
  rw [huse, hskip _ (fun x hx hp => ?_), hfilter, List.flatMap_map]
  · unfold ringsUsing
    rw [List.map_flatMap]
    apply List.flatMap_congr
    rintro ⟨r, j⟩ hrj
    rw [List.mem_zipIdx_iff_getElem?] at hrj
    have hmem : r ∈ u.regions := List.mem_of_getElem? hrj
    exact regionUses_renumbered h.inj (regionIn_of_backPointers hu r hmem) j hi
  · rw [List.eq_nil_iff_forall_not_mem]
    intro rp hrp
    have h1 : rp ∈ ringsUsing t (f i) := by
      rw [huse]
      exact List.mem_flatMap.mpr ⟨x, hx, hrp⟩
    obtain ⟨j, hj, h2⟩ := hs i hi rp h1
    rw [hreg x rp hrp] at h2
    have : p x = true := decide_eq_true ⟨j, hj, h2⟩
    rw [this] at hp
    cases hp

theorem normalizeRegion_part {f g : Nat → Nat} {t u : Topology δ} (h : PartOf f g u t) (ht : BackPointersExact t)
    (hu : BackPointersExact u) (hs : Separate f g u t) {r : TopoRegion δ} (hr : r ∈ u.regions) :
    normalizeRegion m t (renumberRegion f g r) = normalizeRegion m u r := by
  have hg : Function.Injective g := (show StrictMono g from fun i j hij => h.increasing i j hij).injective
  rw [normalizeRegion_alone ht (h.regions_sublist.subset (List.mem_map_of_mem hr)), normalizeRegion_alone hu hr,
    ← normalizedAlone_rename (m := m) hg (⟨r.data, _, _⟩ : Surrounded δ)]
  have hring : ∀ ring ∈ r.outerRings ++ r.innerRings, surroundedRing t (renumberRing f g ring) =
      (surroundedRing u ring).map fun x => (x.1, otherSides g x.2) := by
    intro ring hring
    simp only [surroundedRing, renumberRing, List.map_map]
    apply List.map_congr_left
    intro de hde
    have hi := regionIn_of_backPointers hu r hr ring hring de hde
    obtain ⟨e', h1, h2⟩ := h.edge _ _ (List.getElem?_eq_getElem hi)
    simp only [Function.comp, h1, List.getElem?_eq_getElem hi, Option.map_some, h2]
    congr 1
    simp only [sides, ringsUsing_part h hu hs hi, otherSides, List.getElem?_map, Option.map_map]
    rfl
  simp only [renumberRegion, Surrounded.rename, List.map_map]
  congr 2
  · exact List.map_congr_left fun ring hr => hring ring (List.mem_append_left _ hr)
  · exact List.map_congr_left fun ring hr => hring ring (List.mem_append_right _ hr)

theorem normalize_part {f g : Nat → Nat} {t u t' : Topology δ} (h : PartOf f g u t) (ht : BackPointersExact t)
    (hu : BackPointersExact u) (hs : Separate f g u t) (hn : normalize m t = .ok t') :
    ∃ u' f' g', normalize m u = .ok u' ∧ PartOf f' g' u' t' := by
  obtain ⟨rs, h1, h2⟩ := normalize_ok.mp hn
  have key : ∀ {l : List (TopoRegion δ)} {rs : List (Region δ)}, List.Forall₂ (fun r r' => normalizeRegion m t r = .ok r') l rs →
      ∀ {k : List (TopoRegion δ)}, k.Sublist l → ∃ qs, List.Forall₂ (fun r r' => normalizeRegion m t r = .ok r') k qs ∧ qs.Sublist rs := by
    intro l rs hl
    induction hl with
    | nil =>
      intro k hk
      rw [List.sublist_nil.mp hk]
      exact ⟨[], .nil, List.Sublist.refl _⟩
    | cons hr _ ih =>
      intro k hk
      cases hk with
      | cons _ hk =>
        obtain ⟨qs, h3, h4⟩ := ih hk
        exact ⟨qs, h3, h4.cons _⟩
      | cons_cons _ hk =>
        obtain ⟨qs, h3, h4⟩ := ih hk
        exact ⟨_ :: qs, .cons hr h3, h4.cons_cons _⟩
  obtain ⟨qs, h3, h4⟩ := key h1 h.regions_sublist
  rw [List.forall₂_map_left_iff] at h3
  obtain ⟨u', f', g', h5, h6⟩ := build_part h4 h2
  refine ⟨u', f', g', normalize_ok.mpr ⟨qs, forall₂_imp_left h3 fun r hr b hb => ?_, h5⟩, h6⟩
  rw [← normalizeRegion_part h ht hu hs hr]
  exact hb

end TopoGeo
