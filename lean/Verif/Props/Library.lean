import Verif.Proofs.LibraryInstances
import Verif.Spec.MemoryOps
/-!
# C116: which standard library is used does not matter
-/

namespace TopoGeo
open Spec

/-- C116. Building a topology gives the same result with any library that keeps its
contracts: the same topology, or the same panic. -/
theorem C116_build {δ : Type} {L : Library} (hL : L.Lawful) (m : Build) (regions : List (Region δ)) :
    L.buildTopology m regions = buildTopology m regions := library_build hL m regions

/-- C116. Normalizing, too, for any topology at all. -/
theorem C116_normalize {δ : Type} {L : Library} (hL : L.Lawful) (m : Build) (t : Topology δ) :
    L.normalize m t = normalize m t := library_normalize hL m t

/-- C116. And clipping. -/
theorem C116_clip {δ : Type} {L : Library} (hL : L.Lawful) (m : Build) (t : Topology δ) (mask : ClipMask) :
    L.clipTopology m t mask = clipTopology m t mask := library_clip hL m t mask

/-- C116. A pipeline, each step of which may use a different library. -/
theorem C116_pipeline {δ : Type} (m : Build) (regions : List (Region δ)) (L : Library) (hL : L.Lawful)
    (steps : List (Library × Operation)) (hs : ∀ x ∈ steps, x.1.Lawful) :
    (L.buildTopology m regions >>= fun t => steps.foldlM (fun t x => x.2.applyWith m t x.1) t) =
      pipeline m regions (steps.map Prod.snd) := by
  unfold pipeline
  rw [C116_build hL]
  congr 1
  funext t
  induction steps generalizing t with
  | nil => rfl
  | cons x rest ih =>
    have hx : x.2.applyWith m t x.1 = x.2.apply m t := by
      cases x.2 with
      | normalize => exact C116_normalize (hs x (by simp)) m t
      | clip mask => exact C116_clip (hs x (by simp)) m t mask
      | simplify s => rfl
    rw [List.foldlM_cons, List.map_cons, List.foldlM_cons, hx]
    congr 1
    funext t'
    exact ih (fun y hy => hs y (by simp [hy])) t'

/-- Two islands of one region that touch in the leftmost point of both. -/
def touchingIslands : List (Region Nat) :=
  [⟨1, [.edges [[⟨0, 0⟩, ⟨1, 3⟩, ⟨2, 2⟩, ⟨0, 0⟩]], .edges [[⟨0, 0⟩, ⟨3, 1⟩, ⟨3, 0⟩, ⟨0, 0⟩]]], []⟩]

/-- Two parts of one region that share an edge and touch in a point. -/
def touchingParts : List (Region Nat) :=
  [⟨1, [.edges [[⟨4, 5⟩, ⟨6, 5⟩], [⟨6, 5⟩, ⟨6, 9⟩, ⟨0, 5⟩, ⟨3, 6⟩, ⟨4, 5⟩]],
    .edges [[⟨6, 5⟩, ⟨4, 5⟩], [⟨4, 5⟩, ⟨3, 4⟩, ⟨0, 5⟩, ⟨6, 1⟩, ⟨6, 5⟩]]], []⟩]

/-- C116. That the sort is stable is needed: with one that is not, normalizing some built
topology gives another result. -/
theorem C116_stability_needed (m : Build) : ∃ L : Library, L.paths.Lawful ∧ L.pairs.Lawful ∧ L.tree.Lawful ∧
    (∀ s, ((L.tree.entries s).map Prod.fst).Pairwise (· < ·)) ∧ SortsOnly L.sort ∧
    ∃ (regions : List (Region Nat)) (t t1 t2 : Topology Nat), buildTopology m regions = .ok t ∧ L.normalize m t = .ok t1 ∧
      normalize m t = .ok t2 ∧ t1 ≠ t2 := by
  refine ⟨{ listLibrary false with sort := unstableInsertion }, listMap_lawful _ _ _, listMap_lawful _ _ _, sortedMap_lawful,
    fun s => List.pairwise_map.mpr s.2, unstableInsertion_sorts, touchingIslands, ?_⟩
  have h : (buildTopology m touchingIslands >>= fun t => ({ listLibrary false with sort := unstableInsertion } : Library).normalize m t >>= fun t1 =>
      normalize m t >>= fun t2 => .ok (decide (t1 ≠ t2))) = .ok true := by cases m <;> decide +kernel
  rw [bind_ok] at h
  obtain ⟨t, h1, h⟩ := h
  rw [bind_ok] at h
  obtain ⟨t1, h2, h⟩ := h
  rw [bind_ok] at h
  obtain ⟨t2, h3, h⟩ := h
  exact ⟨t, t1, t2, h1, h2, h3, of_decide_eq_true (Except.ok.inj h)⟩

/-- C116. That the map of edges iterates in the order of keys is needed: with one that does
not, normalizing some built topology gives another result. -/
theorem C116_sorted_needed (m : Build) : ∃ L : Library, L.paths.Lawful ∧ L.pairs.Lawful ∧ L.tree.Lawful ∧ StableSort L.sort ∧
    ∃ (regions : List (Region Nat)) (t t1 t2 : Topology Nat), buildTopology m regions = .ok t ∧ L.normalize m t = .ok t1 ∧
      normalize m t = .ok t2 ∧ t1 ≠ t2 := by
  refine ⟨{ listLibrary false with tree := listMap _ _ true }, listMap_lawful _ _ _, listMap_lawful _ _ _, listMap_lawful _ _ _,
    stableInsertion_stable, touchingParts, ?_⟩
  have h : (buildTopology m touchingParts >>= fun t => ({ listLibrary false with tree := listMap _ _ true } : Library).normalize m t >>= fun t1 =>
      normalize m t >>= fun t2 => .ok (decide (t1 ≠ t2))) = .ok true := by cases m <;> decide +kernel
  rw [bind_ok] at h
  obtain ⟨t, h1, h⟩ := h
  rw [bind_ok] at h
  obtain ⟨t1, h2, h⟩ := h
  rw [bind_ok] at h
  obtain ⟨t2, h3, h⟩ := h
  exact ⟨t, t1, t2, h1, h2, h3, of_decide_eq_true (Except.ok.inj h)⟩

/-! A library as the theorems ask for: lists that iterate from either end, and insertion. -/

example (backwards : Bool) : (listLibrary backwards).Lawful := listLibrary_lawful backwards

/-- Two squares that share an edge. -/
def squares : List (Region Nat) :=
  [⟨1, [.edges [[⟨0, 0⟩, ⟨0, 4⟩, ⟨4, 4⟩], [⟨4, 4⟩, ⟨4, 0⟩], [⟨4, 0⟩, ⟨0, 0⟩]]], []⟩,
   ⟨2, [.edges [[⟨4, 0⟩, ⟨4, 4⟩], [⟨4, 4⟩, ⟨8, 4⟩, ⟨8, 0⟩, ⟨4, 0⟩]]], []⟩]

example : ((listLibrary true).buildTopology .debug squares).map (fun t => t.edges.length) = .ok 4 := by decide +kernel

example : ((listLibrary true).buildTopology .debug squares >>= fun t =>
      [(listLibrary false, Operation.normalize), (listLibrary true, .clip (.minX 2))].foldlM
        (fun t x => x.2.applyWith .debug t x.1) t) = pipeline .debug squares [.normalize, .clip (.minX 2)] :=
  C116_pipeline .debug squares _ (listLibrary_lawful true) _ (by
    intro x hx
    rcases List.mem_cons.mp hx with rfl | hx
    · exact listLibrary_lawful false
    · rcases List.mem_singleton.mp hx with rfl
      exact listLibrary_lawful true)

example : (pipeline .debug squares [.normalize, .clip (.minX 2)]).map (fun t => (t.regions.length, t.edges.map (·.points))) =
    .ok (2, [[⟨4, 0⟩, ⟨4, 4⟩], [⟨4, 0⟩, ⟨2, 0⟩, ⟨2, 4⟩, ⟨4, 4⟩], [⟨4, 0⟩, ⟨8, 0⟩, ⟨8, 4⟩, ⟨4, 4⟩]]) := by decide +kernel

end TopoGeo
