import Verif.Proofs.Straighten
import Verif.Props.Cover
/-!
# Simplifying changes what regions cover only next to what it straightens

C94: where simplifying leaves the points of edges as they are, regions stay as
they are. The code that weighs points does not matter for this.
-/

namespace TopoGeo

open Spec

theorem exists_keeps {R : TopoEdge → TopoEdge → Prop} {es es' : List TopoEdge} (h : List.Forall₂ R es es')
    (hk : ∀ e e', R e e' → ∃ kept, ReducedTo e e' kept) :
    ∃ keeps : List (List Nat), keeps.length = es.length ∧
      ∀ (i : Nat) (e e' : TopoEdge) (k : List Nat), es[i]? = some e → es'[i]? = some e' → keeps[i]? = some k → ReducedTo e e' k := by
  induction h with
  | nil => exact ⟨[], rfl, by simp⟩
  | @cons e e' es es' h1 _ ih =>
    obtain ⟨keeps, h2, h3⟩ := ih
    obtain ⟨k, h4⟩ := hk e e' h1
    refine ⟨k :: keeps, by simp [h2], ?_⟩
    rintro (_ | i) a a' b ha ha' hb
    · obtain rfl : e = a := by simpa using ha
      obtain rfl : e' = a' := by simpa using ha'
      obtain rfl : k = b := by simpa using hb
      exact h4
    · exact h3 i a a' b (by simpa using ha) (by simpa using ha') (by simpa using hb)

theorem odd_countP_iff {α : Type} (l : List α) (f : α → Nat) (P : α → Prop) [DecidablePred P] (h : ∀ a, P a ↔ Odd (f a)) :
    Odd (l.countP fun a => P a) ↔ Odd (l.map f).sum := by
  have : (l.countP fun a => P a) = l.countP fun a => Odd (f a) := by
    congr 1
    funext a
    simp only [h a]
  rw [this, odd_countP]

theorem region_reduced {δ : Type} {t t' : Topology δ} {keeps : List (List Nat)} (hlen : t.edges.length = t'.edges.length)
    (hk : keeps.length = t.edges.length)
    (h : ∀ (i : Nat) (e e' : TopoEdge) (k : List Nat), t.edges[i]? = some e → t'.edges[i]? = some e' → keeps[i]? = some k →
      ReducedTo e e' k) (r : TopoRegion δ) (x y : ℚ) :
    Even (((regionEdges r).map fun de => crossings x y (pathOf t' de)).sum +
      ((regionEdges r).map fun de => crossings x y (pathOf t de)).sum +
      ((bypassed t keeps r).map fun st => crossings x y (bow st)).sum) := by
  unfold bypassed
  have hre : (r.outerRings ++ r.innerRings).flatMap (·.directedEdges) = regionEdges r := rfl
  rw [hre]
  generalize regionEdges r = des
  induction des with
  | nil => exact Even.zero
  | cons de des ih =>
    have h1 : Even (crossings x y (pathOf t' de) + crossings x y (pathOf t de) +
        ((straightened ((t.edges[de.edge]?.map (·.points)).getD []) (keeps[de.edge]?.getD [])).map
          fun st => crossings x y (bow st)).sum) := by
      rw [crossings_pathOf, crossings_pathOf]
      by_cases hlt : de.edge < t.edges.length
      · have hlt' : de.edge < t'.edges.length := by omega
        have hlt'' : de.edge < keeps.length := by omega
        have := even_reduced x y (h de.edge _ _ _ (List.getElem?_eq_getElem hlt) (List.getElem?_eq_getElem hlt')
          (List.getElem?_eq_getElem hlt''))
        rw [List.getElem?_eq_getElem hlt, List.getElem?_eq_getElem hlt', List.getElem?_eq_getElem hlt'']
        simpa using this
      · rw [List.getElem?_eq_none (by omega), List.getElem?_eq_none (by omega), List.getElem?_eq_none (by omega)]
        simp [straightened, stretches]
    rw [List.flatMap_cons, List.map_cons, List.map_cons, List.map_append, List.sum_cons, List.sum_cons, List.sum_append]
    rw [Nat.even_iff] at h1 ih ⊢
    omega

/-- C94: for each edge there are positions such that simplifying keeps the points
there, and such that the following holds for each region and each point of the
plane. Whether the region covers the point stays as it was iff an even number of
stretches of its edges, each closed by the line that replaces it, go around the
point. -/
theorem C94_bows {δ : Type} (m : Build) (t t' : Topology δ) (s : Nat) (hs : s ≤ u64Max) (h : simplify m t s = .ok t') :
    ∃ keeps : List (List Nat), keeps.length = t.edges.length ∧
      (∀ (i : Nat) (e e' : TopoEdge) (k : List Nat), t.edges[i]? = some e → t'.edges[i]? = some e' → keeps[i]? = some k →
        ReducedTo e e' k) ∧
      ∀ (r : TopoRegion δ) (x y : ℚ), (Encloses (topoRegionSegs t' r) x y ↔ Encloses (topoRegionSegs t r) x y) ↔
        Even ((bypassed t keeps r).countP fun st => Encloses (segs (bow st)) x y) := by
  obtain ⟨_, h2⟩ := C45_frame m t t' s h
  obtain ⟨keeps, h3, h4⟩ := exists_keeps h2 (by
    intro e e' he
    have hp : Simplifiable e.points := by
      by_contra hp
      have := he.1
      rw [simplifyEdge_not hp] at this
      simp at this
    obtain ⟨kept, hk⟩ := (simplifyEdge_safe hs hp).of_ok he.1
    exact ⟨kept, hk.picks, hk.first, hk.last⟩)
  refine ⟨keeps, h3, h4, fun r x y => ?_⟩
  have h5 := region_reduced h2.length_eq h3 h4 r x y
  have h6 := odd_countP_iff (bypassed t keeps r) (fun st => crossings x y (bow st))
    (fun st => Encloses (segs (bow st)) x y) fun st => Iff.rfl
  rw [← Nat.not_odd_iff_even, h6]
  unfold Encloses
  rw [topoRegionSegs_count, topoRegionSegs_count]
  rw [Nat.even_iff] at h5
  rw [Nat.odd_iff, Nat.odd_iff, Nat.odd_iff]
  omega

/-- C94: a point that is in none of the boxes around the stretches that are made
straight belongs to a region after simplifying iff it did before, and to as many
regions. -/
theorem C94_local {δ : Type} (m : Build) (t t' : Topology δ) (s : Nat) (hs : s ≤ u64Max) (h : simplify m t s = .ok t') :
    ∃ keeps : List (List Nat), keeps.length = t.edges.length ∧
      (∀ (i : Nat) (e e' : TopoEdge) (k : List Nat), t.edges[i]? = some e → t'.edges[i]? = some e' → keeps[i]? = some k →
        ReducedTo e e' k) ∧
      (∀ (r : TopoRegion δ) (x y : ℚ), (∀ st ∈ bypassed t keeps r, ¬ InBox st x y) →
        (Encloses (topoRegionSegs t' r) x y ↔ Encloses (topoRegionSegs t r) x y)) ∧
      ∀ x y : ℚ, (∀ r ∈ t.regions, ∀ st ∈ bypassed t keeps r, ¬ InBox st x y) → cover t' x y = cover t x y := by
  obtain ⟨keeps, h1, h2, h3⟩ := C94_bows m t t' s hs h
  have h4 : ∀ (r : TopoRegion δ) (x y : ℚ), (∀ st ∈ bypassed t keeps r, ¬ InBox st x y) →
      (Encloses (topoRegionSegs t' r) x y ↔ Encloses (topoRegionSegs t r) x y) := by
    intro r x y hb
    rw [h3]
    have : (bypassed t keeps r).countP (fun st => Encloses (segs (bow st)) x y) = 0 := by
      rw [List.countP_eq_zero]
      intro st hst he
      have := even_bow_outside (hb st hst)
      rw [← Nat.not_odd_iff_even] at this
      exact this (show Encloses (segs (bow st)) x y by simpa using he)
    rw [this]
    exact Even.zero
  refine ⟨keeps, h1, h2, h4, fun x y hb => ?_⟩
  unfold cover
  rw [(C45_frame m t t' s h).1]
  exact List.countP_congr fun r hr => by simpa using h4 r x y (hb r hr)

/-! ## The hypotheses can be met -/

/-- The shared edge of the two stacked regions is straightened: the point in the bow
moves from one region to the other, other points stay. -/
example : bypassed exStack [[0, 2], [0, 1, 2, 3], [0, 1, 2, 3]] (exStack.regions.headD ⟨"", [], []⟩) =
    [[⟨10, 50⟩, ⟨30, 52⟩, ⟨90, 50⟩]] := by decide +kernel

example : InBox [⟨10, 50⟩, ⟨30, 52⟩, ⟨90, 50⟩] (30 : ℚ) (51 : ℚ) ∧
    Encloses (segs (bow [⟨10, 50⟩, ⟨30, 52⟩, ⟨90, 50⟩])) (30 : ℚ) (51 : ℚ) ∧
    ¬ InBox [⟨10, 50⟩, ⟨30, 52⟩, ⟨90, 50⟩] (30 : ℚ) (49 : ℚ) := by decide +kernel

example : ∃ r ∈ exStack.regions, Encloses (topoRegionSegs exStack r) (30 : ℚ) (51 : ℚ) ∧
    ¬ Encloses (topoRegionSegs exStackSimple r) (30 : ℚ) (51 : ℚ) := by decide +kernel

end TopoGeo
