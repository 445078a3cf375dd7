import Verif.Spec.EvenOdd
import Verif.Props.Simplify
/-!
# What simplifying keeps of a topology
-/

namespace TopoGeo

open Spec

/-! ## C81 -/

theorem simplify_sides {δ : Type} {m : Build} {t t' : Topology δ} {s : Nat} (h : simplify m t s = .ok t') (i : Nat) :
    sides t' i = sides t i := by
  unfold sides ringsUsing
  rw [(C45_frame m t t' s h).1]

theorem simplify_paths {δ : Type} {m : Build} {t t' : Topology δ} {s : Nat} (hs : s ≤ u64Max)
    (h : simplify m t s = .ok t') (ring : TopoRing) : List.Forall₂ Thinned (pathsOf t ring) (pathsOf t' ring) := by
  obtain ⟨_, h2⟩ := C45_frame m t t' s h
  unfold pathsOf
  rw [List.forall₂_map_left_iff, List.forall₂_map_right_iff, List.forall₂_same]
  intro de _
  unfold pathOf walk
  by_cases hlt : de.edge < t.edges.length
  · have hlt' : de.edge < t'.edges.length := by rw [← h2.length_eq]; exact hlt
    have h7 : SimplifiedTo m s t.edges[de.edge] t'.edges[de.edge] := h2.get hlt hlt'
    obtain ⟨k1, k2, k3⟩ := C38_subsequence m _ _ s hs h7.1
    rw [List.getElem?_eq_getElem hlt, List.getElem?_eq_getElem hlt']
    rcases de with ⟨i, _ | _⟩
    · exact ⟨k1, k2, k3⟩
    · exact ⟨List.reverse_sublist.mpr k1, by simpa using k3, by simpa using k2⟩
  · rw [List.getElem?_eq_none (by omega), List.getElem?_eq_none (by rw [← h2.length_eq]; omega)]
    exact ⟨List.Sublist.refl _, rfl, rfl⟩

/-- C81: a well-formed topology stays well-formed, so it can be clipped,
simplified or normalized again. -/
theorem C81_well_formed {δ : Type} (m : Build) (t t' : Topology δ) (s : Nat) (hs : s ≤ u64Max) (hw : WellFormed t)
    (h : simplify m t s = .ok t') : WellFormed t' := by
  obtain ⟨h1, h2⟩ := C45_frame m t t' s h
  refine ⟨C45_back_pointers m t t' s h hw.pointers, ?_, ?_⟩
  · intro ring hring
    have hring' : ring ∈ allRings t := by unfold allRings at hring ⊢; rwa [h1] at hring
    obtain ⟨paths, h3, h4⟩ := hw.closed ring hring'
    obtain ⟨paths', h5, _, h6⟩ := C45_closed m t t' s hs h ring paths h3
    exact ⟨paths', h5, h6 h4⟩
  · intro e' he' hz
    obtain ⟨e, he, h3⟩ := forall₂_exists_left h2 he'
    obtain ⟨k1, k2, k3⟩ := C39_ring m _ _ s hs h3.1
    rcases hz with hz | ⟨p, hz⟩
    · omega
    · have : e'.points.head? = e'.points.getLast? := by rw [hz]; rfl
      have := k3 (k2.mp this)
      rw [hz] at this
      simp at this

theorem thinned_first {a b : List (List Point)} (h : List.Forall₂ Thinned a b) :
    b.head?.bind List.head? = a.head?.bind List.head? := by
  cases h with
  | nil => rfl
  | cons h _ => exact h.2.1

/-- C81: the regions on the sides of each edge stay the same, and each ring
starts where it started; so what normalizing achieves is kept: the leftmost node
comes first, rings are sorted, no two adjacent edges have the same sides, and no
edge has the same region on both sides. -/
theorem C81_normal_form {δ : Type} (m : Build) (t t' : Topology δ) (s : Nat) (hs : s ≤ u64Max)
    (h : simplify m t s = .ok t') :
    (∀ i, sides t' i = sides t i) ∧
    (∀ ring, StartsLeftmost (pathsOf t ring) → StartsLeftmost (pathsOf t' ring)) ∧
    (∀ rings : List TopoRing, SortedByFirst (rings.map (pathsOf t)) → SortedByFirst (rings.map (pathsOf t'))) ∧
    (∀ ring, CyclicallyDistinct ((bounds t ring).map (·.sides)) → CyclicallyDistinct ((bounds t' ring).map (·.sides))) ∧
    (∀ rings, NoSelfEdges t rings → NoSelfEdges t' rings) := by
  have hsides := simplify_sides h
  refine ⟨hsides, ?_, ?_, ?_, ?_⟩
  · intro ring hl
    have hp := simplify_paths hs h ring
    have hfirst := thinned_first hp
    unfold StartsLeftmost at hl ⊢
    split at hl
    · rename_i e he
      rw [he] at hp
      generalize pathsOf t' ring = x at hp
      cases hp with
      | cons h1 h2 =>
        cases h2
        intro p hp q hq
        exact hl p (h1.1.subset hp) q (h1.2.1 ▸ hq)
    · rename_i hne
      split
      · rename_i e' he'
        exfalso
        rw [he'] at hp
        generalize hx : pathsOf t ring = x at hp
        cases hp with
        | cons h1 h2 =>
          cases h2
          exact hne _ hx
      · intro e' he' p hp' q hq
        obtain ⟨e, he, h1⟩ := forall₂_exists_left hp he'
        rw [hfirst] at hq
        exact hl e he p (h1.2.1 ▸ hp') q hq
  · intro rings hp
    unfold SortedByFirst at hp ⊢
    rw [List.pairwise_map] at hp ⊢
    refine hp.imp ?_
    intro a b hab p hp q hq
    rw [thinned_first (simplify_paths hs h a)] at hp
    rw [thinned_first (simplify_paths hs h b)] at hq
    exact hab p hp q hq
  · intro ring hc
    have : (bounds t' ring).map (·.sides) = (bounds t ring).map (·.sides) := by
      simp [bounds, Function.comp_def, hsides]
    rw [this]; exact hc
  · intro rings hn ring hring de hde
    rw [hsides]
    exact hn ring hring de hde

-- non-vacuity
example : WellFormed exNormal ∧ simplify .debug exNormal 1000 = .ok exSimplified ∧
    exSimplified.edges.map (·.points.length) ≠ exNormal.edges.map (·.points.length) ∧
    (∀ ring ∈ allRings exNormal, StartsLeftmost (pathsOf exNormal ring)) := by
  refine ⟨wellFormed_normalize exNorm_wellFormed exNorm_normalize, by decide +kernel, by decide +kernel, ?_⟩
  intro ring hring
  obtain ⟨r, hr, hring⟩ := List.mem_flatMap.mp hring
  exact (C17_first .debug exNorm exNormal exNorm_wellFormed exNorm_normalize r hr).1 ring hring

/-- Two regions and a narrow third one between them. -/
def exLensRegions : List (Region String) :=
  [⟨"A", [.points [⟨5, 0⟩, ⟨4, 5⟩, ⟨5, 10⟩, ⟨1, 10⟩, ⟨1, 0⟩, ⟨5, 0⟩]], []⟩,
   ⟨"B", [.points [⟨5, 0⟩, ⟨9, 0⟩, ⟨9, 10⟩, ⟨5, 10⟩, ⟨6, 5⟩, ⟨5, 0⟩]], []⟩,
   ⟨"L", [.points [⟨5, 0⟩, ⟨6, 5⟩, ⟨5, 10⟩, ⟨4, 5⟩, ⟨5, 0⟩]], []⟩]

/-- Their topology. -/
def exLensBuilt : Topology String := ((buildTopology .debug exLensRegions).toOption.getD ⟨[], []⟩)

/-- Their normalized topology. -/
def exLens : Topology String := ((normalize .debug exLensBuilt).toOption.getD ⟨[], []⟩)

/-- It, simplified. -/
def exLensSimple : Topology String := ((simplify .debug exLens 1000).toOption.getD ⟨[], []⟩)

/-- C81, refuted for distinct edges and for areas: two edges of a normalized
topology become the same line; the ring between them loses its area, and
normalizing panics. -/
theorem C81_collapse_refuted : ∃ (rs : List (Region String)) (t0 t t' : Topology String),
    buildTopology .debug rs = .ok t0 ∧ normalize .debug t0 = .ok t ∧ simplify .debug t 1000 = .ok t' ∧
    (t.edges.map (·.points)).Nodup ∧ ¬ (t'.edges.map (·.points)).Nodup ∧
    (∃ ring ∈ allRings t', shoelaceEdges (pathsOf t ring) = 20 ∧ shoelaceEdges (pathsOf t' ring) = 0) ∧
    normalize .debug t = .ok t ∧ normalize .release t' = .error .assert :=
  ⟨exLensRegions, exLensBuilt, exLens, exLensSimple, by decide +kernel, by decide +kernel, by decide +kernel,
    by decide +kernel, by decide +kernel, by decide +kernel, by decide +kernel, by decide +kernel⟩

/-- C81, refuted for orientation: a clockwise island becomes counter-clockwise. -/
theorem C81_winding_refuted : ∃ (rs : List (Region String)) (t t' : Topology String),
    buildTopology .debug rs = .ok t ∧ normalize .debug t = .ok t ∧ simplify .debug t 1000 = .ok t' ∧
    (allRings t).map (fun ring => shoelaceEdges (pathsOf t ring)) = [6] ∧
    (allRings t').map (fun ring => shoelaceEdges (pathsOf t' ring)) = [-2] :=
  ⟨[⟨"A", [.edges [[⟨0, 0⟩, ⟨1, 1⟩, ⟨2, 0⟩, ⟨1, 4⟩, ⟨0, 0⟩]]], []⟩],
    ⟨[⟨"A", [⟨[⟨0, .forward⟩], some 0⟩], []⟩], [⟨[⟨0, 0⟩, ⟨1, 1⟩, ⟨2, 0⟩, ⟨1, 4⟩, ⟨0, 0⟩], some ⟨0, false, 0⟩, none⟩]⟩,
    ⟨[⟨"A", [⟨[⟨0, .forward⟩], some 0⟩], []⟩], [⟨[⟨0, 0⟩, ⟨1, 1⟩, ⟨2, 0⟩, ⟨0, 0⟩], some ⟨0, false, 0⟩, none⟩]⟩,
    by decide +kernel, by decide +kernel, by decide +kernel, by decide +kernel, by decide +kernel⟩

/-- A square with a bay, and a triangle in the bay. -/
def exBayRegions : List (Region String) :=
  [⟨"A", [.edges [[⟨10, 10⟩, ⟨50, 10⟩, ⟨50, 50⟩, ⟨40, 50⟩, ⟨30, 20⟩, ⟨20, 50⟩, ⟨10, 50⟩, ⟨10, 10⟩]]], []⟩,
   ⟨"B", [.edges [[⟨28, 44⟩, ⟨30, 40⟩, ⟨32, 44⟩, ⟨28, 44⟩]]], []⟩]

/-- Their topology. -/
def exBay : Topology String := ((buildTopology .debug exBayRegions).toOption.getD ⟨[], []⟩)

/-- It, simplified. -/
def exBaySimple : Topology String := ((simplify .debug exBay 601).toOption.getD ⟨[], []⟩)

/-- C81, refuted for areas: two regions that were apart overlap. No point had
belonged to both of them. -/
theorem C81_overlap_refuted : ∃ (rs : List (Region String)) (t t' : Topology String),
    buildTopology .debug rs = .ok t ∧ normalize .debug t = .ok t ∧ simplify .debug t 601 = .ok t' ∧
    t.regions.map (fun r => decide (Encloses (topoRegionSegs t r) 30 42)) = [false, true] ∧
    t'.regions.map (fun r => decide (Encloses (topoRegionSegs t' r) 30 42)) = [true, true] :=
  ⟨exBayRegions, exBay, exBaySimple, by decide +kernel, by decide +kernel, by decide +kernel, by decide +kernel,
    by decide +kernel⟩

end TopoGeo
