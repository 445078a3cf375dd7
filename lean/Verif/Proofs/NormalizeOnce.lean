import Verif.Spec.NormalizeTwice
import Verif.Proofs.NormalizeTwice
import Mathlib.Data.List.NodupEquivFin
/-!
# What is known of topologies that were normalized once
-/

namespace TopoGeo

open Spec

/-- What the outer or inner rings of a region become in the normalized
topology. -/
def BecomesLists {δ : Type} (t t' : Topology δ) (order : WindingOrder) (rings rings' : List TopoRing) : Prop :=
  ∃ ns out merged, NormalizedRings t order rings ns out merged ∧ (∀ n ∈ merged, NoLoops n) ∧ (∀ n ∈ out, Extended n) ∧
    rings'.map (pathsOf t') = (out.map npts).filter fun ps => wrap64 (shoelaceEdges ps) ≠ 0

/-- What a region becomes in the normalized topology. -/
def Becomes {δ : Type} (t t' : Topology δ) (r r' : TopoRegion δ) : Prop :=
  r'.data = r.data ∧ BecomesLists t t' .clockwise r.outerRings r'.outerRings ∧
    BecomesLists t t' .counterClockwise r.innerRings r'.innerRings

theorem forall₂_filter_right {α β : Type} {R : α → β → Prop} {l : List α} {k : List β} (f : β → Bool)
    (h : List.Forall₂ R l k) : ∃ l', l'.Sublist l ∧ List.Forall₂ R l' (k.filter f) := by
  induction h with
  | nil => exact ⟨[], List.Sublist.refl _, List.Forall₂.nil⟩
  | @cons a b l k h1 _ ih =>
    obtain ⟨l', hl, hf⟩ := ih
    by_cases hb : f b
    · exact ⟨a :: l', hl.cons_cons a, by rw [List.filter_cons_of_pos hb]; exact .cons h1 hf⟩
    · exact ⟨l', hl.cons a, by rw [List.filter_cons_of_neg hb]; exact hf⟩

theorem forall₂_through {α β γ : Type} {R : α → β → Prop} {S : β → γ → Prop} {l : List α} {k : List β} {j : List γ}
    (h : List.Forall₂ R l k) (h' : List.Forall₂ S k j) : List.Forall₂ (fun a c => ∃ b, R a b ∧ S b c) l j := by
  induction h generalizing j with
  | nil => cases h'; exact .nil
  | cons h1 _ ih => cases h' with
    | cons h2 h3 => exact .cons ⟨_, h1, h2⟩ (ih h3)

theorem flatMap_sublist_of {α β : Type} (f : α → List β) {l k : List α} (h : l.Sublist k) :
    (l.flatMap f).Sublist (k.flatMap f) := by
  induction h with
  | slnil => exact List.Sublist.refl _
  | cons a _ ih => rw [List.flatMap_cons]; exact ih.trans (List.sublist_append_right _ _)
  | cons_cons a _ ih => rw [List.flatMap_cons, List.flatMap_cons]; exact (List.Sublist.refl _).append ih

theorem sum_sublist_le {α : Type} (f : α → Nat) {l k : List α} (h : l.Sublist k) : (l.map f).sum ≤ (k.map f).sum := by
  induction h with
  | slnil => exact Nat.le_refl _
  | cons a _ ih => rw [List.map_cons, List.sum_cons]; omega
  | cons_cons a _ ih => rw [List.map_cons, List.map_cons, List.sum_cons, List.sum_cons]; omega

/-- Regions keep their order; some may be dropped. -/
theorem normalize_sublist {δ : Type} {m : Build} {t t' : Topology δ} (hw : WellFormed t)
    (h : normalize m t = .ok t') : ∃ l, l.Sublist t.regions ∧ List.Forall₂ (Becomes t t') l t'.regions := by
  obtain ⟨rs, h2, h1⟩ := normalize_ok.mp h
  have h7 := C07_round_trip m rs t' h1
  unfold keptRegions at h7
  rw [List.forall₂_map_left_iff] at h7
  have h2 := forall₂_imp_left h2 (S := fun r x => r ∈ t.regions ∧ normalizeRegion m t r = .ok x)
    fun r hr r' h => ⟨hr, h⟩
  obtain ⟨l, hl, hf⟩ := forall₂_filter_right _ h2
  refine ⟨l, hl, (forall₂_through hf h7).imp ?_⟩
  rintro r r' ⟨x, ⟨hr, hx⟩, hd, ho, hi⟩
  simp only [normalizeRegion, bind_ok] at hx
  obtain ⟨o, h3, i, h4, hx⟩ := hx
  obtain rfl := Except.ok.inj hx
  obtain ⟨outer, h5, rfl⟩ := normalizeRegionRings_ok h3
  obtain ⟨inner, h6, rfl⟩ := normalizeRegionRings_ok h4
  obtain ⟨n1, m1, _, g1, l1⟩ := normalizeRegionNormRings_made hw.pointers hw.closed (mem_allRings_outer hr) h5
  obtain ⟨n2, m2, _, g2, l2⟩ := normalizeRegionNormRings_made hw.pointers hw.closed (mem_allRings_inner hr) h6
  have x1 := g1.extended fun ring hring => extended_nedges hw.pointers hw.extended (mem_allRings_outer hr ring hring)
  have x2 := g2.extended fun ring hring => extended_nedges hw.pointers hw.extended (mem_allRings_inner hr ring hring)
  refine ⟨hd, ⟨n1, outer, m1, g1, l1, x1, ?_⟩, ⟨n2, inner, m2, g2, l2, x2, ?_⟩⟩
  · rw [pathsOf_forall₂ ho, keptRings_normRings x1]
  · rw [pathsOf_forall₂ hi, keptRings_normRings x2]

/-- The numbers the regions had. -/
theorem normalize_numbers {δ : Type} {m : Build} {t t' : Topology δ} (hw : WellFormed t)
    (h : normalize m t = .ok t') : ∃ f : Nat → Nat, (∀ A B, f A = f B → A = B) ∧
      ∀ A r', t'.regions[A]? = some r' → ∃ r, t.regions[f A]? = some r ∧ Becomes t t' r r' := by
  obtain ⟨l, hl, hf⟩ := normalize_sublist hw h
  obtain ⟨f, hf'⟩ := List.sublist_iff_exists_orderEmbedding_getElem?_eq.mp hl
  refine ⟨f, fun A B h => f.injective h, ?_⟩
  intro A r' hr'
  obtain ⟨r, hr, hb⟩ := forall₂_getElem? hf.flip hr'
  exact ⟨r, by rw [← hf' A]; exact hr, hb⟩

theorem boundary_mem {δ : Type} {t : Topology δ} {order : WindingOrder} {rings : List TopoRing}
    {x : (Point × Point) × Sides} (h : x ∈ boundary t order rings) : ∃ ring ∈ rings, ∃ de ∈ ring.directedEdges,
      x.2 = sides t de.edge ∧ x.2.1 ≠ x.2.2 ∧ (x.1 ∈ segs (pathOf t de) ∨ x.1.swap ∈ segs (pathOf t de)) := by
  obtain ⟨ring, hring, hx⟩ := List.mem_flatMap.mp h
  rw [sidedSegs_filter] at hx
  obtain ⟨hx, hsep⟩ := List.mem_filter.mp hx
  obtain ⟨de, hde, h1, h2⟩ := walk_segment hx
  exact ⟨ring, hring, de, hde, h1, by simpa [keepSeg] using hsep, h2⟩

/-- A ring of the normalized topology, its edges with the sides they were joined
by, and the boundary they are part of. -/
theorem becomes_ring {δ : Type} {t t' : Topology δ} {r r' : TopoRegion δ} (h : Becomes t t' r r') {ring' : TopoRing}
    (hring' : ring' ∈ r'.outerRings ++ r'.innerRings) : wrap64 (shoelaceEdges (pathsOf t' ring')) ≠ 0 ∧
    ∃ n, pathsOf t' ring' = npts n ∧ NiceRing n ∧ Extended n ∧ ∀ e ∈ n, ∀ s ∈ segs e.points,
      ∃ ring ∈ r.outerRings ++ r.innerRings, ∃ de ∈ ring.directedEdges, e.regions = sides t de.edge ∧
        e.regions.1 ≠ e.regions.2 ∧ (s ∈ segs (pathOf t de) ∨ s.swap ∈ segs (pathOf t de)) := by
  have key : ∀ order rings rings', BecomesLists t t' order rings rings' → ring' ∈ rings' →
      wrap64 (shoelaceEdges (pathsOf t' ring')) ≠ 0 ∧
      ∃ n, pathsOf t' ring' = npts n ∧ NiceRing n ∧ Extended n ∧ ∀ e ∈ n, ∀ s ∈ segs e.points,
      ∃ ring ∈ rings, ∃ de ∈ ring.directedEdges, e.regions = sides t de.edge ∧
        e.regions.1 ≠ e.regions.2 ∧ (s ∈ segs (pathOf t de) ∨ s.swap ∈ segs (pathOf t de)) := by
    rintro order rings rings' ⟨ns, out, merged, hn, _, hx, he⟩ hr
    have hm : pathsOf t' ring' ∈ (out.map npts).filter fun ps => wrap64 (shoelaceEdges ps) ≠ 0 := by
      rw [← he]; exact List.mem_map_of_mem hr
    obtain ⟨hm, ha⟩ := List.mem_filter.mp hm
    obtain ⟨n, hno, hnp⟩ := List.mem_map.mp hm
    refine ⟨by simpa using ha, n, hnp.symm, hn.nice n hno, hx n hno, ?_⟩
    intro e he s hs
    have : (s, e.regions) ∈ out.flatMap nsegs :=
      List.mem_flatMap.mpr ⟨n, hno, List.mem_flatMap.mpr ⟨e, he, List.mem_map_of_mem hs⟩⟩
    exact boundary_mem (hn.segs.mem_iff.mp this)
  rcases List.mem_append.mp hring' with hm | hm
  · obtain ⟨h1, n, h2, h3, h4, h5⟩ := key _ _ _ h.2.1 hm
    refine ⟨h1, n, h2, h3, h4, fun e he s hs => ?_⟩
    obtain ⟨ring, hr, rest⟩ := h5 e he s hs
    exact ⟨ring, List.mem_append_left _ hr, rest⟩
  · obtain ⟨h1, n, h2, h3, h4, h5⟩ := key _ _ _ h.2.2 hm
    refine ⟨h1, n, h2, h3, h4, fun e he s hs => ?_⟩
    obtain ⟨ring, hr, rest⟩ := h5 e he s hs
    exact ⟨ring, List.mem_append_right _ hr, rest⟩

/-- The segments of a region are part of its old boundary. -/
theorem becomes_count {δ : Type} {t t' : Topology δ} {r r' : TopoRegion δ} (h : Becomes t t' r r') (p q : Point) :
    (regionSegs t' r').countP (either p q) ≤
      ((boundary t .clockwise r.outerRings).map (·.1)).countP (either p q) +
      ((boundary t .counterClockwise r.innerRings).map (·.1)).countP (either p q) := by
  have key : ∀ order rings rings', BecomesLists t t' order rings rings' →
      (rings'.flatMap fun ring => (pathsOf t' ring).flatMap segs).countP (either p q) ≤
        ((boundary t order rings).map (·.1)).countP (either p q) := by
    rintro order rings rings' ⟨ns, out, merged, hn, _, hx, he⟩
    have e1 : (rings'.flatMap fun ring => (pathsOf t' ring).flatMap segs) =
        (rings'.map (pathsOf t')).flatMap fun ps => ps.flatMap segs := by rw [List.flatMap_map]
    have e2 : (out.flatMap nsegs).map (·.1) = (out.map npts).flatMap fun ps => ps.flatMap segs := by
      rw [List.map_flatMap, List.flatMap_map]
      congr 1
      funext n
      exact nsegs_fst n
    rw [e1, he, ← (hn.segs.map _).countP_eq, e2]
    exact (flatMap_sublist_of _ List.filter_sublist).countP_le
  unfold regionSegs
  rw [List.flatMap_append, List.countP_append]
  exact Nat.add_le_add (key _ _ _ h.2.1) (key _ _ _ h.2.2)

theorem regionSegs_le {δ : Type} {t t' : Topology δ} {r r' : TopoRegion δ} (h : Becomes t t' r r') (p q : Point) :
    (regionSegs t' r').countP (either p q) ≤ (regionSegs t r).countP (either p q) := by
  refine Nat.le_trans (becomes_count h p q) ?_
  unfold regionSegs
  rw [List.flatMap_append, List.countP_append]
  exact Nat.add_le_add (countP_boundary t _ _ p q) (countP_boundary t _ _ p q)

theorem passes_regions {δ : Type} (t : Topology δ) (p q : Point) :
    passes t p q = (t.regions.map fun r => (regionSegs t r).countP (either p q)).sum := by
  unfold passes allRings
  show List.countP (either p q) _ = _
  generalize t.regions = rs
  induction rs with
  | nil => rfl
  | cons r rs ih =>
    rw [List.flatMap_cons, List.flatMap_append, List.countP_append, ih]
    rfl

theorem passes_le {δ : Type} {m : Build} {t t' : Topology δ} (hw : WellFormed t)
    (h : normalize m t = .ok t') (p q : Point) : passes t' p q ≤ passes t p q := by
  obtain ⟨l, hl, hf⟩ := normalize_sublist hw h
  rw [passes_regions, passes_regions]
  have h1 : (l.map fun r => (regionSegs t r).countP (either p q)).sum ≤
      (t.regions.map fun r => (regionSegs t r).countP (either p q)).sum := sum_sublist_le _ hl
  refine Nat.le_trans ?_ h1
  clear h1 hl h
  generalize t'.regions = rs' at hf
  induction hf with
  | nil => simp
  | cons h1 _ ih =>
    have := regionSegs_le h1 p q
    simp only [List.map_cons, List.sum_cons]
    omega

theorem regionSegs_le_users {δ : Type} {t : Topology δ} (hb : BackPointersExact t) (hn : SegmentsOnce t)
    {A : Nat} {r : TopoRegion δ} (hr : t.regions[A]? = some r) {de : DirectedEdge} (hlt : de.edge < t.edges.length)
    {p q : Point} (hs : (p, q) ∈ segs (pathOf t de) ∨ (q, p) ∈ segs (pathOf t de)) :
    (regionSegs t r).countP (either p q) ≤ (ringsUsing t de.edge).countP fun p => decide (p.region = A) := by
  rw [← regionDirected_count hr, regionSegs_eq]
  have hone := segment_once hb hn hlt hs
  have : ∀ l : List DirectedEdge, (∀ d ∈ l, d ∈ allDirectedEdges t) →
      (l.flatMap fun d => segs (pathOf t d)).countP (either p q) ≤ l.countP fun d => decide (d.edge = de.edge) := by
    intro l
    induction l with
    | nil => simp
    | cons d l ih =>
      intro hl
      have h1 := ih fun x hx => hl x (by simp [hx])
      have h2 := hone d (hl d (by simp))
      rw [List.flatMap_cons, List.countP_append, List.countP_cons]
      simp only [decide_eq_true_eq]
      omega
  refine this _ fun d hd => ?_
  obtain ⟨ring, hring, hd⟩ := List.mem_flatMap.mp hd
  exact mem_all_of_region hr hring hd

/-- Two edges that share a segment are one. -/
theorem edge_of_segment_once {δ : Type} {t : Topology δ} (hb : BackPointersExact t) (hn : SegmentsOnce t)
    {d d' : DirectedEdge} (hd : d ∈ allDirectedEdges t) (hd' : d' ∈ allDirectedEdges t) {s : Point × Point}
    (hs : s ∈ segs (pathOf t d) ∨ s.swap ∈ segs (pathOf t d))
    (hs' : s ∈ segs (pathOf t d') ∨ s.swap ∈ segs (pathOf t d')) : d'.edge = d.edge := by
  obtain ⟨p, q⟩ := s
  have := segment_once hb hn (hb.2.2 d hd) (p := p) (q := q) hs d' hd'
  by_contra hne
  rw [if_neg hne] at this
  have hpos : 0 < (segs (pathOf t d')).countP (either p q) := by
    rw [List.countP_pos_iff]
    rcases hs' with h | h
    · exact ⟨_, h, by simp [either]⟩
    · exact ⟨_, h, by simp [either]⟩
  omega

/-- A region uses an edge that separates regions once. -/
theorem separates_once {δ : Type} {t : Topology δ} {i A : Nat} (hle : (ringsUsing t i).length ≤ 2)
    (hs : (sides t i).1 ≠ (sides t i).2) : ((ringsUsing t i).countP fun p => decide (p.region = A)) ≤ 1 := by
  unfold sides at hs
  match hu : ringsUsing t i with
  | [] => simp
  | [x] => rw [List.countP_cons]; simp; split <;> omega
  | [x, y] =>
    rw [hu] at hs
    simp at hs
    by_cases hx : x.region = A <;> by_cases hy : y.region = A
    · exact absurd (hx.trans hy.symm) hs
    all_goals simp [hx, hy]
  | x :: y :: z :: l => rw [hu] at hle; simp at hle

/-- A segment of a region of the normalized topology had two different regions
on its sides. -/
theorem passedBy_before {δ : Type} {t t' : Topology δ} {B : Nat}
    {f : Nat → Nat} (hf : ∀ A r', t'.regions[A]? = some r' → ∃ r, t.regions[f A]? = some r ∧ Becomes t t' r r')
    {s : Point × Point} (hp : PassedBy t' B s) : PassedBy t (f B) s := by
  obtain ⟨r', ring', de', h1, h2, h3, h4⟩ := hp
  obtain ⟨r, hr, hb⟩ := hf B r' h1
  obtain ⟨_, n, hn, _, _, hseg⟩ := becomes_ring hb h2
  have : pathOf t' de' ∈ npts n := by rw [← hn]; exact List.mem_map_of_mem h3
  obtain ⟨e, he, hep⟩ := List.mem_map.mp this
  rw [← hep] at h4
  rcases h4 with h4 | h4
  · obtain ⟨ring, hring, de, hde, _, _, hs⟩ := hseg e he _ h4
    exact ⟨r, ring, de, hr, hring, hde, hs⟩
  · obtain ⟨ring, hring, de, hde, _, _, hs⟩ := hseg e he _ h4
    exact ⟨r, ring, de, hr, hring, hde, by simpa [or_comm] using hs⟩

theorem one_of_normalize {δ : Type} {m : Build} {t t' : Topology δ} (hw : WellFormed t) (hn : SegmentsOnce t)
    (h : normalize m t = .ok t') : ∀ r ∈ t'.regions, ∀ p q, (regionSegs t' r).countP (either p q) ≤ 1 := by
  obtain ⟨f, _, hf⟩ := normalize_numbers hw h
  intro r' hr' p q
  obtain ⟨A, hA⟩ := List.mem_iff_getElem?.mp hr'
  obtain ⟨r, hr, hb⟩ := hf A r' hA
  by_contra hc
  have h1 := becomes_count hb p q
  have key : ∀ order rings, (∀ ring ∈ rings, ring ∈ r.outerRings ++ r.innerRings) →
      0 < ((boundary t order rings).map (·.1)).countP (either p q) → (regionSegs t r).countP (either p q) ≤ 1 := by
    intro order rings hrings hpos
    obtain ⟨s, hs, hse⟩ := List.countP_pos_iff.mp hpos
    obtain ⟨x, hx, rfl⟩ := List.mem_map.mp hs
    obtain ⟨ring, hring, de, hde, h2, h3, h4⟩ := boundary_mem hx
    have hlt := hw.pointers.2.2 de (mem_all_of_region hr (hrings ring hring) hde)
    have hpq : (p, q) ∈ segs (pathOf t de) ∨ (q, p) ∈ segs (pathOf t de) := by
      have : x.1 = (p, q) ∨ x.1 = (q, p) := by simpa [either] using hse
      rcases this with h | h <;> rw [h] at h4
      · exact h4
      · exact h4.symm
    refine Nat.le_trans (regionSegs_le_users hw.pointers hn hr hlt hpq) (separates_once ?_ (by rw [← h2]; exact h3))
    exact (hw.pointers.1 de.edge _ (List.getElem?_eq_getElem hlt)).1
  have h2 := regionSegs_le hb p q
  rcases Nat.eq_zero_or_pos (((boundary t .clockwise r.outerRings).map (·.1)).countP (either p q)) with h0 | h0
  · rcases Nat.eq_zero_or_pos (((boundary t .counterClockwise r.innerRings).map (·.1)).countP (either p q)) with h3 | h3
    · omega
    · have := key _ _ (fun ring hring => List.mem_append_right _ hring) h3
      omega
  · have := key _ _ (fun ring hring => List.mem_append_left _ hring) h0
    omega

/-- Where a region passes segments once, no edge has it on both sides. -/
theorem noSelf_of_one {δ : Type} {t : Topology δ} (hw : WellFormed t)
    (h : ∀ r ∈ t.regions, ∀ p q, (regionSegs t r).countP (either p q) ≤ 1) : NoSelfEdges t (allRings t) := by
  intro ring hring de hde
  have hd := mem_allDirectedEdges_of_ring hring de hde
  have hlt := hw.pointers.2.2 de hd
  obtain ⟨⟨p, q⟩, hs⟩ := extended_pathOf hw hd
  obtain ⟨r, hr, hring⟩ := List.mem_flatMap.mp hring
  obtain ⟨A, hA⟩ := List.mem_iff_getElem?.mp hr
  have h1 := Nat.le_trans (regionUsers_le hA hlt (Or.inl hs)) (h r hr p q)
  obtain ⟨u, hu, hua⟩ := mem_ringsUsing.mpr ⟨r, ring, de, hA, hring, hde, rfl⟩
  have hle := (hw.pointers.1 de.edge _ (List.getElem?_eq_getElem hlt)).1
  unfold sides
  match hl : ringsUsing t de.edge with
  | [] => rw [hl] at hu; simp at hu
  | [x] => simp
  | [x, y] =>
    rw [hl] at hu h1
    simp only [List.getElem?_cons_zero, List.getElem?_cons_succ, Option.map_some, ne_eq, Option.some.injEq]
    intro hxy
    have hx : x.region = A := by
      simp at hu
      rcases hu with rfl | rfl
      · exact hua
      · rw [hxy]; exact hua
    simp [hx, ← hxy] at h1
  | x :: y :: z :: l => rw [hl] at hle; simp at hle

theorem cyclicallyDistinct_adjoins {α : Type} {l : List α} (h : CyclicallyDistinct l) (h2 : 2 ≤ l.length) {i : Nat} {x y : α}
    (hx : l[i]? = some x) (hy : l[(i + 1) % l.length]? = some y) : x ≠ y := by
  rcases h with h | h
  · omega
  · have hi := (List.getElem?_eq_some_iff.mp hx).1
    have hc := List.isChain_iff_getElem.mp h i (by simp; omega)
    obtain ⟨_, hx⟩ := List.getElem?_eq_some_iff.mp hx
    obtain ⟨hj, hy⟩ := List.getElem?_eq_some_iff.mp hy
    rw [List.getElem_append_left hi, hx] at hc
    by_cases hl : i + 1 < l.length
    · rw [List.getElem_append_left hl] at hc
      simp only [Nat.mod_eq_of_lt hl] at hy
      rwa [hy] at hc
    · have : i + 1 = l.length := by omega
      simp only [this, Nat.mod_self] at hy
      rw [List.getElem_append_right (by omega)] at hc
      simp only [this, Nat.sub_self, List.getElem_take] at hc
      rwa [hy] at hc

/-- A ring that runs the wrong way was put together from others, and has no
closed edges. -/
theorem becomes_loops {δ : Type} {t t' : Topology δ} {order : WindingOrder} {rings rings' : List TopoRing}
    (h : BecomesLists t t' order rings rings') {ring' : TopoRing} (hr : ring' ∈ rings')
    (hmin : wrap64 (shoelaceEdges (pathsOf t' ring')) ≠ -2 ^ 63) : Oriented order (pathsOf t' ring') ∨
      ∀ de ∈ ring'.directedEdges, (pathOf t' de).head? = (pathOf t' de).getLast? → Telling (pathOf t' de) := by
  obtain ⟨ns, out, merged, hn, hl, _, he⟩ := h
  have hm : pathsOf t' ring' ∈ (out.map npts).filter fun ps => wrap64 (shoelaceEdges ps) ≠ 0 := by
    rw [← he]; exact List.mem_map_of_mem hr
  obtain ⟨hm, ha⟩ := List.mem_filter.mp hm
  obtain ⟨n, hno, hnp⟩ := List.mem_map.mp hm
  rcases List.mem_append.mp (hn.adjoined.parts.mem_iff.mp hno) with hin | hin
  · left
    obtain ⟨ring, hring, hnr⟩ := forall₂_exists_left hn.single (List.mem_of_mem_filter hin)
    rw [← hnp]
    refine hnr.oriented ?_
    intro h0
    apply hmin
    rw [← hnp]
    have hs := hnr.segs
    rw [wound_nedges] at hs
    have := shoelaceEdges_of_perm hs.perm
    by_cases ho : Oriented order (pathsOf t ring)
    · rw [if_pos ho, npts_nedges] at this
      rw [this]; exact h0
    · rw [if_neg ho, npts_nturned, shoelaceEdges_reverse, npts_nedges] at this
      rw [this]
      unfold wrap64 at h0 ⊢
      omega
  · right
    intro de hde hc
    have hmem : pathOf t' de ∈ npts n := by rw [hnp]; exact List.mem_map_of_mem hde
    obtain ⟨e, he, hep⟩ := List.mem_map.mp hmem
    rcases hl n hin with h1 | h1
    · match n, h1, he with
      | [f], _, he =>
        obtain rfl := List.mem_singleton.mp he
        have : pathsOf t' ring' = [pathOf t' de] := by rw [← hnp, ← hep]; rfl
        rw [this, shoelaceEdges_single] at ha hmin
        exact ⟨by simpa using ha, hmin⟩
    · rw [← hep] at hc
      exact absurd hc (h1 e he)

theorem loops_of_normalize {δ : Type} {m : Build} {t t' : Topology δ} (hw : WellFormed t)
    (h : normalize m t = .ok t')
    (hmin : ∀ ring ∈ allRings t', wrap64 (shoelaceEdges (pathsOf t' ring)) ≠ -2 ^ 63) : LoopsSound t' := by
  obtain ⟨f, _, hf⟩ := normalize_numbers hw h
  intro A r' ring' de hr' hring' hde hc
  obtain ⟨r, _, _, ho, hi⟩ := hf A r' hr'
  have hm := hmin ring' (List.mem_flatMap.mpr ⟨r', List.mem_of_getElem? hr', hring'⟩)
  by_cases htell : Telling (pathOf t' de)
  · exact Or.inl htell
  · right
    intro r2 hr2
    obtain rfl := Option.some.inj (hr'.symm.trans hr2)
    constructor
    · intro hin
      exact (becomes_loops ho hin hm).resolve_right fun h => htell (h de hde hc)
    · intro hin
      exact (becomes_loops hi hin hm).resolve_right fun h => htell (h de hde hc)

/-- A topology that was normalized once. -/
theorem once_of_normalize {δ : Type} {m : Build} {t t' : Topology δ} (hw : WellFormed t) (hn : SegmentsOnce t)
    (h : normalize m t = .ok t')
    (hmin : ∀ ring ∈ allRings t', wrap64 (shoelaceEdges (pathsOf t' ring)) ≠ -2 ^ 63) : Once t' := by
  obtain ⟨f, hinj, hf⟩ := normalize_numbers hw h
  have hw' := wellFormed_normalize hw h
  have hone := one_of_normalize hw hn h
  obtain ⟨rs, _, hb⟩ := normalize_ok.mp h
  refine ⟨hw', outerRings_of_built hb, noSelf_of_one hw' hone, hmin, ?_, ?_, hone, ?_, loops_of_normalize hw h hmin⟩
  · intro ring hring
    obtain ⟨r, hr, hring⟩ := List.mem_flatMap.mp hring
    exact (C17_first m t t' hw h r hr).1 ring hring
  · intro p q
    refine Nat.le_trans (passes_le hw h p q) ?_
    by_contra hc
    have hpos : 0 < passes t p q := by omega
    rw [passes_eq] at hpos
    obtain ⟨s, hs, hse⟩ := List.countP_pos_iff.mp hpos
    obtain ⟨de, hde, hs⟩ := List.mem_flatMap.mp hs
    have hlt := hw.pointers.2.2 de hde
    have hpq : (p, q) ∈ segs (pathOf t de) ∨ (q, p) ∈ segs (pathOf t de) := by
      have : s = (p, q) ∨ s = (q, p) := by simpa [either] using hse
      rcases this with rfl | rfl
      · exact Or.inl hs
      · exact Or.inr hs
    have h1 := passes_le_users hw.pointers hn hlt hpq
    have h2 := (hw.pointers.1 de.edge _ (List.getElem?_eq_getElem hlt)).1
    omega
  · intro A r' ring' x y hr' hring' hlen ⟨i, hx, hy⟩ s hs s' hs' B hBA hB hB'
    obtain ⟨r, hr, hbec⟩ := hf A r' hr'
    obtain ⟨_, n, hp, hnice, _, hseg⟩ := becomes_ring hbec hring'
    have hlen' : n.length = ring'.directedEdges.length := by
      have := congrArg List.length hp
      simpa [pathsOf, npts] using this.symm
    have hfor := forall₂_of_map_eq (f := pathOf t') (g := fun e : NormEdge => e.points) hp
    have hedge : ∀ (i : Nat) (x : DirectedEdge), ring'.directedEdges[i]? = some x → ∃ e, n[i]? = some e ∧ e ∈ n ∧
        pathOf t' x = e.points := by
      intro i x hx
      obtain ⟨e, he, hxe⟩ := forall₂_getElem? hfor hx
      exact ⟨e, he, List.mem_of_getElem? he, hxe.2.2⟩
    obtain ⟨e, he, hem, hep⟩ := hedge _ _ hx
    obtain ⟨e', he', hem', hep'⟩ := hedge _ _ hy
    rw [hep] at hs
    rw [hep'] at hs'
    have hne : e.regions ≠ e'.regions := by
      refine cyclicallyDistinct_adjoins (l := nsides n) (i := i) hnice.cyclic ?_ ?_ ?_
      · simp [nsides]; omega
      · simp [nsides, he]
      · simp only [nsides, List.length_map, hlen', List.getElem?_map, he']
        rfl
    have key : ∀ (e : NormEdge) (s : Point × Point), e ∈ n → s ∈ segs e.points → PassedBy t' B s →
        e.regions = (some (min (f A) (f B)), some (max (f A) (f B))) := by
      intro e s he hs hB
      obtain ⟨ring, hring, de, hde, h1, _, h3⟩ := hseg e he s hs
      obtain ⟨r2, ring2, d2, g1, g2, g3, g4⟩ := passedBy_before hf hB
      have hd := mem_all_of_region hr hring hde
      have hsame := edge_of_segment_once hw.pointers hn hd (mem_all_of_region g1 g2 g3) h3 g4
      have hlt := hw.pointers.2.2 de hd
      have hle := (hw.pointers.1 de.edge _ (List.getElem?_eq_getElem hlt)).1
      have hA2 : ∃ p ∈ ringsUsing t de.edge, p.region = f A := mem_ringsUsing.mpr ⟨r, ring, de, hr, hring, hde, rfl⟩
      have hB2 : ∃ p ∈ ringsUsing t de.edge, p.region = f B := mem_ringsUsing.mpr ⟨r2, ring2, d2, g1, g2, g3, hsame⟩
      rw [h1]
      have hfne : f A ≠ f B := fun h => hBA (hinj _ _ h).symm
      rcases Nat.lt_or_gt_of_ne hfne with hlt | hlt
      · rw [sides_of_two hle hlt hA2 hB2, Nat.min_eq_left (Nat.le_of_lt hlt), Nat.max_eq_right (Nat.le_of_lt hlt)]
      · rw [sides_of_two hle hlt hB2 hA2, Nat.min_eq_right (Nat.le_of_lt hlt), Nat.max_eq_left (Nat.le_of_lt hlt)]
    exact hne ((key e s hem hs hB).trans (key e' s' hem' hs' hB').symm)

/-- The second pass leaves a topology that follows the rules. -/
theorem normal_of_once {δ : Type} {m0 m : Build} {rs : List (Region δ)} {t t' : Topology δ}
    (hb : buildTopology m0 rs = .ok t) (ho : Once t) (h : normalize m t = .ok t') : Normal t' := by
  have hw' := wellFormed_normalize ho.wellFormed h
  have h16 := C16_topology_partial m t t' ho.wellFormed ho.noSelf ho.bounded h
  have h17 := C17_first m t t' ho.wellFormed h
  have hone : ∀ r ∈ t'.regions, ∀ p q, (regionSegs t' r).countP (either p q) ≤ 1 := by
    intro r' hr' p q
    obtain ⟨A, hA⟩ := List.mem_iff_getElem?.mp hr'
    obtain ⟨r, hr, heq⟩ := regionSegs_kept ho.wellFormed ho.noSelf ho.outer h hA
    rw [heq]
    exact ho.one r (List.mem_of_getElem? hr) p q
  refine ⟨hw', noSelf_of_one hw' hone, ?_, fun r hr => (h16 r hr).1, fun r hr => (h16 r hr).2, ?_,
    fun r hr => (h17 r hr).2⟩
  · intro ring' hring'
    obtain ⟨r', hr', hm⟩ := List.mem_flatMap.mp hring'
    obtain ⟨A, hA⟩ := List.mem_iff_getElem?.mp hr'
    obtain ⟨ring, n, hO⟩ := origin_of_normalize ho.wellFormed ho.noSelf ho.outer ho.bounded ho.first h hA hm
    obtain ⟨w, _, ht, _⟩ := hO.walk
    have hf : List.Forall₂ (fun de e => sides t' de.edge = e.regions) ring'.directedEdges n :=
      (forall₂_of_map_eq (f := pathOf t') (g := fun e : NormEdge => e.points) ht.paths).imp
        fun de e hde => edge_sides_again hb ho h hA hm hO hde.2.1 hde.1 hde.2.2
    have hsd : (ring'.directedEdges.map fun de => sides t' de.edge) = nsides n := by
      unfold nsides
      generalize ring'.directedEdges = des at hf ⊢
      clear * - hf
      induction hf with
      | nil => rfl
      | cons h1 _ ih => rw [List.map_cons, List.map_cons, h1, ih]
    rw [hsd]
    exact ht.nice.cyclic
  · intro ring hring
    obtain ⟨r, hr, hring⟩ := List.mem_flatMap.mp hring
    exact (h17 r hr).1 ring hring

/-- The areas of the rings of a normalized topology. -/
theorem area_of_normalize {δ : Type} {m : Build} {t t' : Topology δ} (hw : WellFormed t) (h : normalize m t = .ok t') :
    ∀ ring ∈ allRings t', wrap64 (shoelaceEdges (pathsOf t' ring)) ≠ 0 := by
  obtain ⟨f, _, hf⟩ := normalize_numbers hw h
  intro ring hring
  obtain ⟨r', hr', hm⟩ := List.mem_flatMap.mp hring
  obtain ⟨A, hA⟩ := List.mem_iff_getElem?.mp hr'
  obtain ⟨r, _, hb⟩ := hf A r' hA
  exact (becomes_ring hb hm).1

end TopoGeo
