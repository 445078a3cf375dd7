import Mathlib.Algebra.BigOperators.Group.Finset.Basic
import Mathlib.Tactic.FieldSimp
import Mathlib.Tactic.Linarith
import Verif.Proofs.NormalizeShared
import Verif.Spec.EvenOdd
/-!
# Lemmas about counting crossings
-/

namespace TopoGeo

open Spec

theorem rayCrosses_swap (x y : ℚ) (s : Point × Point) : RayCrosses x y s.swap ↔ RayCrosses x y s := by
  obtain ⟨p, q⟩ := s
  unfold RayCrosses
  simp only [Prod.swap]
  rw [or_comm]
  refine and_congr_right fun h => ?_
  have hne : (q.yi : ℚ) - p.yi ≠ 0 := by
    rcases h with ⟨h1, h2⟩ | ⟨h1, h2⟩ <;> intro h0 <;> linarith
  have hne' : (p.yi : ℚ) - q.yi ≠ 0 := fun h0 => hne (by linarith)
  have : (q.xi : ℚ) + (y - q.yi) * (p.xi - q.xi) / (p.yi - q.yi) =
      p.xi + (y - p.yi) * (q.xi - p.xi) / (q.yi - p.yi) := by
    field_simp
    ring
  rw [this]

/-- How often the ray crosses a path. -/
def crossings (x y : ℚ) (path : List Point) : Nat := (segs path).countP fun s => RayCrosses x y s

theorem crossings_reverse (x y : ℚ) (path : List Point) : crossings x y path.reverse = crossings x y path := by
  unfold crossings
  rw [segs_reverse, List.countP_reverse, List.countP_map]
  congr 1
  funext s
  simp only [Function.comp, decide_eq_decide]
  exact rayCrosses_swap x y s

theorem countP_flatMap_segs {α : Type} (x y : ℚ) (f : α → List Point) (l : List α) :
    (l.flatMap fun a => segs (f a)).countP (fun s => RayCrosses x y s) = (l.map fun a => crossings x y (f a)).sum := by
  induction l with
  | nil => rfl
  | cons a l ih => rw [List.flatMap_cons, List.countP_append, ih, List.map_cons, List.sum_cons]; rfl

theorem countP_sidedSegs (x y : ℚ) (bs : List Bound) :
    ((sidedSegs bs).map (·.1)).countP (fun s => RayCrosses x y s) = (bs.map fun b => crossings x y b.path).sum := by
  rw [← countP_flatMap_segs]
  congr 1
  unfold sidedSegs
  rw [List.map_flatMap]
  congr 1
  funext b
  rw [List.map_map]
  exact List.map_id _

theorem sum_filter_not {α : Type} (p : α → Bool) (f : α → Nat) (l : List α) :
    ((l.filter p).map f).sum + ((l.filter fun a => !p a).map f).sum = (l.map f).sum := by
  induction l with
  | nil => rfl
  | cons a l ih =>
    by_cases h : p a
    · rw [List.filter_cons_of_pos h, List.filter_cons_of_neg (by simp [h])]
      simp only [List.map_cons, List.sum_cons]
      omega
    · rw [List.filter_cons_of_neg h, List.filter_cons_of_pos (by simp [h])]
      simp only [List.map_cons, List.sum_cons]
      omega

/-- Winding a ring does not change what crosses it, and neither does it change
which of its edges separate regions. -/
theorem sum_wound {δ : Type} (t : Topology δ) (order : WindingOrder) (ring : TopoRing) (x y : ℚ) (p : Sides → Bool) :
    (((wound t order ring).filter fun b => p b.sides).map fun b => crossings x y b.path).sum =
      ((ring.directedEdges.filter fun de => p (sides t de.edge)).map fun de => crossings x y (pathOf t de)).sum := by
  have h0 : (((bounds t ring).filter fun b => p b.sides).map fun b => crossings x y b.path).sum =
      ((ring.directedEdges.filter fun de => p (sides t de.edge)).map fun de => crossings x y (pathOf t de)).sum := by
    unfold bounds
    rw [List.filter_map, List.map_map]
    rfl
  unfold wound
  split
  · exact h0
  · rw [← h0]
    unfold turned
    rw [List.filter_reverse, List.map_reverse, List.sum_reverse, List.filter_map, List.map_map]
    congr 1
    apply List.map_congr_left
    intro b _
    exact crossings_reverse x y b.path

theorem even_sum_of_even_count (f : Nat → Nat) (l : List Nat) (h : ∀ a ∈ l, Even (l.count a)) : Even (l.map f).sum := by
  rw [Finset.sum_list_map_count]
  refine Finset.sum_induction _ Even (fun a b ha hb => ha.add hb) Even.zero ?_
  intro a ha
  show Even (l.count a * f a)
  exact (h a (List.mem_toFinset.mp ha)).mul_right _

/-! ## Users by region -/

/-- The directed edges of a region. -/
def regionEdges {δ : Type} (r : TopoRegion δ) : List DirectedEdge :=
  (r.outerRings ++ r.innerRings).flatMap (·.directedEdges)

/-- How often a region uses an edge. -/
def usesOf {δ : Type} (r : TopoRegion δ) (i : Nat) : Nat := ((regionEdges r).map (·.edge)).count i

theorem map_region_rings (rings : List TopoRing) (i n k : Nat) (inner : Bool) :
    ((rings.zipIdx k).flatMap fun (y : TopoRing × Nat) =>
      (y.1.directedEdges.filter (·.edge = i)).map fun _ => (⟨n, inner, y.2⟩ : RingPtr)).map (·.region) =
    List.replicate (((rings.flatMap (·.directedEdges)).map (·.edge)).count i) n := by
  induction rings generalizing k with
  | nil => rfl
  | cons r rest ih =>
    rw [List.zipIdx_cons, List.flatMap_cons, List.map_append, ih, List.flatMap_cons, List.map_append,
      List.count_append, List.replicate_add, List.map_map]
    congr 1
    rw [List.eq_replicate_iff]
    constructor
    · rw [List.length_map, ← List.countP_eq_length_filter, List.count, List.countP_map]
      congr 1
    · intro b hb
      obtain ⟨_, _, rfl⟩ := List.mem_map.mp hb
      rfl

theorem map_region_ringsUsing {δ : Type} (t : Topology δ) (i : Nat) :
    (ringsUsing t i).map (·.region) = t.regions.zipIdx.flatMap fun x => List.replicate (usesOf x.1 i) x.2 := by
  unfold ringsUsing
  rw [List.map_flatMap]
  congr 1
  funext ⟨r, n⟩
  have h1 := map_region_rings r.outerRings i n 0 false
  have h2 := map_region_rings r.innerRings i n 0 true
  simp only [List.map_append]
  rw [h1, h2, ← List.replicate_add, ← List.count_append, ← List.map_append, ← List.flatMap_append]
  rfl

theorem count_replicates {α : Type} (u : α → Nat) (rs : List α) (k n : Nat) (hk : k ≤ n) :
    ((rs.zipIdx k).flatMap fun x => List.replicate (u x.1) x.2).count n = (rs[n - k]?.map u).getD 0 := by
  induction rs generalizing k with
  | nil => simp
  | cons r rest ih =>
    rw [List.zipIdx_cons, List.flatMap_cons, List.count_append, List.count_replicate]
    by_cases h : k = n
    · subst h
      have : ((rest.zipIdx (k + 1)).flatMap fun x => List.replicate (u x.1) x.2).count k = 0 := by
        rw [List.count_eq_zero]
        intro hm
        obtain ⟨⟨a, j⟩, hx, hm⟩ := List.mem_flatMap.mp hm
        have := List.le_snd_of_mem_zipIdx hx
        have := (List.mem_replicate.mp hm).2
        simp only at *
        omega
      rw [this]
      simp
    · rw [if_neg (by simpa using h), ih (k + 1) (by omega), zero_add]
      obtain ⟨j, rfl⟩ : ∃ j, n = k + 1 + j := ⟨n - (k + 1), by omega⟩
      have h1 : k + 1 + j - (k + 1) = j := by omega
      have h2 : k + 1 + j - k = j + 1 := by omega
      rw [h1, h2, List.getElem?_cons_succ]

theorem usesOf_eq {δ : Type} {t : Topology δ} {n : Nat} {r : TopoRegion δ} (hr : t.regions[n]? = some r) (i : Nat) :
    usesOf r i = ((ringsUsing t i).map (·.region)).count n := by
  rw [map_region_ringsUsing, count_replicates (fun r => usesOf r i) t.regions 0 n (Nat.zero_le n), Nat.sub_zero, hr]
  rfl

/-- An edge with the same region on both sides is used twice by that region. -/
theorem uses_of_self {δ : Type} {t : Topology δ} (hb : BackPointersExact t) {n : Nat} {r : TopoRegion δ}
    (hr : t.regions[n]? = some r) {de : DirectedEdge} (hde : de ∈ regionEdges r)
    (hs : (sides t de.edge).1 = (sides t de.edge).2) : usesOf r de.edge = 2 := by
  have hall : de ∈ allDirectedEdges t := by
    obtain ⟨ring, hring, hde⟩ := List.mem_flatMap.mp hde
    exact List.mem_flatMap.mpr ⟨ring, List.mem_flatMap.mpr ⟨r, List.mem_of_getElem? hr, hring⟩, hde⟩
  have hlt := hb.2.2 de hall
  have hle := (hb.1 de.edge _ (List.getElem?_eq_getElem hlt)).1
  have hpos : 0 < usesOf r de.edge := List.count_pos_iff.mpr (List.mem_map_of_mem hde)
  rw [usesOf_eq hr] at hpos ⊢
  unfold sides at hs
  match hu : ringsUsing t de.edge with
  | [] => rw [hu] at hpos; simp at hpos
  | [a] => rw [hu] at hs; simp at hs
  | [a, b] =>
    rw [hu] at hs hpos
    simp only [List.getElem?_cons_zero, Option.map_some, List.getElem?_cons_succ, Option.some.injEq] at hs
    simp only [List.map_cons, List.map_nil, hs] at hpos ⊢
    have := List.count_pos_iff.mp hpos
    simp only [List.mem_cons, List.not_mem_nil, or_false, or_self] at this
    rw [this]
    simp
  | a :: b :: c :: l => rw [hu] at hle; simp at hle

/-- What is left out has even numbers of crossings. -/
theorem even_self {δ : Type} {t : Topology δ} (hb : BackPointersExact t) {n : Nat} {r : TopoRegion δ}
    (hr : t.regions[n]? = some r) (x y : ℚ) :
    Even (((regionEdges r).filter fun de => !((sides t de.edge).1 ≠ (sides t de.edge).2 : Bool)).map
      fun de => crossings x y (pathOf t de)).sum := by
  have h1 : (((regionEdges r).filter fun de => !((sides t de.edge).1 ≠ (sides t de.edge).2 : Bool)).map
      fun de => crossings x y (pathOf t de)) =
      (((regionEdges r).map (·.edge)).filter fun i => !((sides t i).1 ≠ (sides t i).2 : Bool)).map
        fun i => crossings x y (pathOf t ⟨i, .forward⟩) := by
    rw [List.filter_map, List.map_map]
    apply List.map_congr_left
    intro de _
    obtain ⟨i, d⟩ := de
    cases d with
    | forward => rfl
    | backward =>
      show crossings x y (pathOf t ⟨i, .backward⟩) = crossings x y (pathOf t ⟨i, .forward⟩)
      unfold pathOf walk
      cases t.edges[i]? with
      | none => rfl
      | some e => exact crossings_reverse x y e.points
  rw [h1]
  apply even_sum_of_even_count
  intro a ha
  obtain ⟨ha, hs⟩ := List.mem_filter.mp ha
  rw [List.count_filter (p := fun i => !((sides t i).1 ≠ (sides t i).2 : Bool)) hs]
  obtain ⟨de, hde, rfl⟩ := List.mem_map.mp ha
  have := uses_of_self hb hr hde (by simpa using hs)
  unfold usesOf at this
  rw [this]
  exact even_two

end TopoGeo
