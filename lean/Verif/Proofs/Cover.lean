import Verif.Proofs.EvenOdd
import Verif.Spec.Cover
/-!
# What all regions together cover
-/

namespace TopoGeo

open Spec

theorem count_uses {δ : Type} (t : Topology δ) (i : Nat) :
    ((allDirectedEdges t).map (·.edge)).count i = (ringsUsing t i).length := by
  have h1 : (ringsUsing t i).length = (t.regions.map fun r => usesOf r i).sum := by
    rw [← List.length_map (f := fun p : RingPtr => p.region), map_region_ringsUsing, List.length_flatMap]
    simp only [List.length_replicate]
    have : (t.regions.zipIdx.map fun a => usesOf a.1 i) = (t.regions.zipIdx.map Prod.fst).map fun r => usesOf r i := by
      rw [List.map_map]; rfl
    rw [this]
    simp
  rw [h1]
  unfold allDirectedEdges allRings usesOf regionEdges
  generalize t.regions = rs
  induction rs with
  | nil => rfl
  | cons r rs ih =>
    rw [List.flatMap_cons, List.flatMap_append, List.map_append, List.count_append, ih]
    rfl

/-- A sum over indices, by index. -/
theorem sum_by_index (l : List Nat) (n : Nat) (h : ∀ i ∈ l, i < n) (f : Nat → Nat) :
    (l.map f).sum = ∑ i ∈ Finset.range n, l.count i * f i := by
  rw [Finset.sum_list_map_count]
  simp only [nsmul_eq_mul, Nat.cast_id]
  apply Finset.sum_subset
  · intro i hi
    exact Finset.mem_range.mpr (h i (List.mem_toFinset.mp hi))
  · intro i _ hi
    rw [List.count_eq_zero.mpr (fun hm => hi (List.mem_toFinset.mpr hm)), zero_mul]

theorem sum_getElem {α : Type} (l : List α) (g : α → Nat) :
    (l.map g).sum = ∑ i ∈ Finset.range l.length, (l[i]?.map g).getD 0 := by
  induction l with
  | nil => rfl
  | cons a l ih =>
    rw [List.map_cons, List.sum_cons, ih, List.length_cons, Finset.sum_range_succ']
    simp [add_comm]

theorem odd_sum_iff {ι : Type} (s : Finset ι) (f g : ι → Nat) (h : ∀ i ∈ s, (Odd (f i) ↔ Odd (g i))) :
    Odd (∑ i ∈ s, f i) ↔ Odd (∑ i ∈ s, g i) := by
  classical
  induction s using Finset.induction_on with
  | empty => rfl
  | insert a s ha ih =>
    rw [Finset.sum_insert ha, Finset.sum_insert ha, Nat.odd_add, Nat.odd_add, h a (by simp),
      ← Nat.not_odd_iff_even, ← Nat.not_odd_iff_even, ih fun i hi => h i (by simp [hi])]

theorem crossings_pathOf {δ : Type} (t : Topology δ) (x y : ℚ) (de : DirectedEdge) :
    crossings x y (pathOf t de) = (t.edges[de.edge]?.map fun e => crossings x y e.points).getD 0 := by
  obtain ⟨i, d⟩ := de
  unfold pathOf walk
  cases t.edges[i]? with
  | none => rfl
  | some e =>
    cases d with
    | forward => rfl
    | backward => exact crossings_reverse x y e.points

theorem odd_countP {α : Type} (l : List α) (f : α → Nat) : Odd (l.countP fun a => Odd (f a)) ↔ Odd (l.map f).sum := by
  induction l with
  | nil => rfl
  | cons a l ih =>
    rw [List.countP_cons, List.map_cons, List.sum_cons, Nat.odd_add', ← Nat.not_odd_iff_even, Nat.odd_add,
      ← Nat.not_odd_iff_even, ih]
    by_cases h : Odd (f a)
    · simp [h]
    · simp [h]

/-- An edge is used once iff its back pointers say that it is on the border. -/
theorem onBorder_iff {δ : Type} {t : Topology δ} (hb : BackPointersExact t) {i : Nat} {e : TopoEdge}
    (he : t.edges[i]? = some e) : OnBorder e ↔ (ringsUsing t i).length = 1 := by
  obtain ⟨h1, h2, h3⟩ := hb.1 i e he
  unfold OnBorder
  rw [h2, h3]
  match ringsUsing t i with
  | [] => simp
  | [a] => simp
  | a :: b :: l => simp

theorem topoRegionSegs_count {δ : Type} (t : Topology δ) (r : TopoRegion δ) (x y : ℚ) :
    (topoRegionSegs t r).countP (fun s => RayCrosses x y s) =
      ((regionEdges r).map fun de => crossings x y (pathOf t de)).sum := by
  rw [← countP_flatMap_segs]
  congr 1
  unfold topoRegionSegs regionEdges pathsOf
  rw [List.flatMap_assoc]
  congr 1
  funext ring
  rw [List.flatMap_map]

theorem allDirectedEdges_eq {δ : Type} (t : Topology δ) : allDirectedEdges t = t.regions.flatMap regionEdges := by
  unfold allDirectedEdges allRings regionEdges
  rw [List.flatMap_assoc]

theorem odd_cover {δ : Type} {t : Topology δ} (hb : BackPointersExact t) (x y : ℚ) :
    Odd (cover t x y) ↔ Encloses (borderSegs t) x y := by
  have h1 : Odd (cover t x y) ↔ Odd ((allDirectedEdges t).map fun de => crossings x y (pathOf t de)).sum := by
    unfold cover Encloses
    rw [odd_countP, allDirectedEdges_eq]
    apply iff_of_eq
    congr 1
    generalize t.regions = rs
    induction rs with
    | nil => rfl
    | cons r rs ih => rw [List.map_cons, List.sum_cons, ih, List.flatMap_cons, List.map_append, List.sum_append, topoRegionSegs_count]
  have h2 : ((allDirectedEdges t).map fun de => crossings x y (pathOf t de)).sum =
      ∑ i ∈ Finset.range t.edges.length,
        (ringsUsing t i).length * (t.edges[i]?.map fun e => crossings x y e.points).getD 0 := by
    have h3 : ((allDirectedEdges t).map fun de => crossings x y (pathOf t de)) =
        ((allDirectedEdges t).map (·.edge)).map fun i => (t.edges[i]?.map fun e => crossings x y e.points).getD 0 := by
      rw [List.map_map]
      exact List.map_congr_left fun de _ => crossings_pathOf t x y de
    rw [h3, sum_by_index _ t.edges.length]
    · exact Finset.sum_congr rfl fun i _ => by rw [count_uses]
    · intro i hi
      obtain ⟨de, hde, rfl⟩ := List.mem_map.mp hi
      exact hb.2.2 de hde
  have h4 : (borderSegs t).countP (fun s => RayCrosses x y s) =
      ∑ i ∈ Finset.range t.edges.length,
        (t.edges[i]?.map fun e => if OnBorder e then crossings x y e.points else 0).getD 0 := by
    rw [← sum_getElem]
    unfold borderSegs
    rw [countP_flatMap_segs]
    generalize t.edges = es
    induction es with
    | nil => rfl
    | cons e es ih =>
      by_cases h : OnBorder e
      · rw [List.filter_cons_of_pos (by simpa using h), List.map_cons, List.sum_cons, ih, List.map_cons, List.sum_cons, if_pos h]
      · rw [List.filter_cons_of_neg (by simpa using h), ih, List.map_cons, List.sum_cons, if_neg h, zero_add]
  rw [h1, h2]
  unfold Encloses
  rw [h4]
  apply odd_sum_iff
  intro i hi
  have hlt := Finset.mem_range.mp hi
  have he := List.getElem?_eq_getElem hlt
  rw [he]
  simp only [Option.map_some, Option.getD_some]
  have h5 := onBorder_iff hb he
  have h6 := (hb.1 i _ he).1
  by_cases h : OnBorder t.edges[i]
  · rw [if_pos h, h5.mp h, one_mul]
  · rw [if_neg h]
    have : (ringsUsing t i).length = 0 ∨ (ringsUsing t i).length = 2 := by
      have h8 : (ringsUsing t i).length ≠ 1 := fun h7 => h (h5.mpr h7)
      omega
    rcases this with h7 | h7 <;> rw [h7]
    · simp
    · simp

/-! ## Signed areas -/

/-- The same edge in the other direction. -/
def reversed (de : DirectedEdge) : DirectedEdge := ⟨de.edge, opposite de.direction⟩

theorem reversed_reversed (de : DirectedEdge) : reversed (reversed de) = de := by
  obtain ⟨i, d⟩ := de; cases d <;> rfl

theorem shoelace_reversed {δ : Type} (t : Topology δ) (de : DirectedEdge) :
    shoelace (pathOf t (reversed de)) = - shoelace (pathOf t de) := by
  obtain ⟨i, d⟩ := de
  unfold pathOf walk reversed
  cases t.edges[i]? with
  | none => rfl
  | some e =>
    cases d with
    | forward => exact shoelace_reverse e.points
    | backward =>
      simp only [opposite, Option.map_some, Option.getD_some]
      rw [shoelace_reverse, neg_neg]

theorem perm_reversed (l : List DirectedEdge) (hn : l.Nodup) (hc : ∀ de ∈ l, reversed de ∈ l) : (l.map reversed).Perm l := by
  have hinj : Function.Injective reversed := fun a b h => by
    rw [← reversed_reversed a, h, reversed_reversed]
  rw [List.perm_ext_iff_of_nodup (hn.map hinj) hn]
  intro a
  constructor
  · intro h
    obtain ⟨b, hb, rfl⟩ := List.mem_map.mp h
    exact hc b hb
  · intro h
    exact List.mem_map.mpr ⟨reversed a, hc a h, reversed_reversed a⟩

theorem sum_neg_map (l : List DirectedEdge) (f : DirectedEdge → Int) : (l.map fun a => - f a).sum = - (l.map f).sum := by
  induction l with
  | nil => rfl
  | cons a l ih => simp only [List.map_cons, List.sum_cons, ih]; omega

/-- Directed edges that come in pairs cancel. -/
theorem sum_paired {δ : Type} (t : Topology δ) (l : List DirectedEdge) (hn : l.Nodup) (hc : ∀ de ∈ l, reversed de ∈ l) :
    (l.map fun de => shoelace (pathOf t de)).sum = 0 := by
  have h1 := ((perm_reversed l hn hc).map fun de => shoelace (pathOf t de)).sum_eq
  rw [List.map_map] at h1
  have h2 : (l.map ((fun de => shoelace (pathOf t de)) ∘ reversed)).sum = - (l.map fun de => shoelace (pathOf t de)).sum := by
    rw [← sum_neg_map]
    congr 1
    exact List.map_congr_left fun de _ => shoelace_reversed t de
  omega

/-- An edge that is used twice, never twice in the same direction, is used in
both. -/
theorem reversed_mem {δ : Type} {t : Topology δ} (ho : Opposed t) {de : DirectedEdge} (hde : de ∈ allDirectedEdges t)
    (h2 : (ringsUsing t de.edge).length = 2) : reversed de ∈ allDirectedEdges t := by
  rw [← count_uses] at h2
  by_contra hno
  have hsub : (allDirectedEdges t).filter (fun d => d.edge == de.edge) = (allDirectedEdges t).filter (fun d => d == de) := by
    apply List.filter_congr
    intro d hd
    by_cases h : d = de
    · subst h; simp
    · have : d.edge ≠ de.edge := by
        intro he
        apply hno
        have : d = reversed de := by
          obtain ⟨i, a⟩ := d
          obtain ⟨j, b⟩ := de
          simp only at he
          subst he
          unfold reversed
          cases a <;> cases b <;> simp_all [opposite]
        rw [← this]; exact hd
      have h' : (d == de) = false := by simpa using h
      rw [h']; simpa using this
  have hcount : ((allDirectedEdges t).map (·.edge)).count de.edge = ((allDirectedEdges t).filter (fun d => d.edge == de.edge)).length := by
    rw [List.count, List.countP_map, List.countP_eq_length_filter]
    rfl
  rw [hcount, hsub, ← List.countP_eq_length_filter] at h2
  have h3 : (allDirectedEdges t).count de = 2 := h2
  have h4 := List.nodup_iff_count_le_one.mp ho de
  omega

theorem shoelace_rings {δ : Type} (t : Topology δ) (rings : List TopoRing) :
    (rings.map fun ring => shoelaceEdges (pathsOf t ring)).sum =
      ((rings.flatMap (·.directedEdges)).map fun de => shoelace (pathOf t de)).sum := by
  induction rings with
  | nil => rfl
  | cons ring rings ih =>
    rw [List.map_cons, List.sum_cons, ih, List.flatMap_cons, List.map_append, List.sum_append]
    unfold shoelaceEdges pathsOf
    rw [List.map_map]
    rfl

theorem mapShoelace_eq {δ : Type} (t : Topology δ) :
    mapShoelace t = ((allDirectedEdges t).map fun de => shoelace (pathOf t de)).sum := by
  unfold mapShoelace allDirectedEdges allRings
  generalize t.regions = rs
  induction rs with
  | nil => rfl
  | cons r rs ih =>
    rw [List.map_cons, List.sum_cons, ih, List.flatMap_cons, List.flatMap_append, List.map_append, List.sum_append,
      regionShoelace, shoelace_rings]

theorem sum_filter_split (l : List DirectedEdge) (p : DirectedEdge → Bool) (f : DirectedEdge → Int) :
    (l.map f).sum = ((l.filter p).map f).sum + ((l.filter fun a => !p a).map f).sum := by
  induction l with
  | nil => rfl
  | cons a l ih =>
    by_cases h : p a
    · rw [List.filter_cons_of_pos h, List.filter_cons_of_neg (by simp [h])]
      simp only [List.map_cons, List.sum_cons, ih]
      omega
    · rw [List.filter_cons_of_neg h, List.filter_cons_of_pos (by simp [h])]
      simp only [List.map_cons, List.sum_cons, ih]
      omega

theorem mapShoelace_border {δ : Type} {t : Topology δ} (hb : BackPointersExact t) (ho : Opposed t) :
    mapShoelace t = borderShoelace t := by
  rw [mapShoelace_eq, sum_filter_split _ fun de => (t.edges[de.edge]?).any fun e => OnBorder e]
  have : (((allDirectedEdges t).filter fun de => !((t.edges[de.edge]?).any fun e => OnBorder e)).map
      fun de => shoelace (pathOf t de)).sum = 0 := by
    apply sum_paired
    · exact ho.filter _
    · intro de hde
      obtain ⟨h1, h2⟩ := List.mem_filter.mp hde
      refine List.mem_filter.mpr ⟨?_, h2⟩
      apply reversed_mem ho h1
      have hlt := hb.2.2 de h1
      have he := List.getElem?_eq_getElem hlt
      have h3 := (hb.1 _ _ he).1
      rw [he] at h2
      have h4 : ¬ OnBorder t.edges[de.edge] := by simpa using h2
      rw [onBorder_iff hb he] at h4
      have h5 : 0 < (ringsUsing t de.edge).length := by
        rw [← count_uses]
        exact List.count_pos_iff.mpr (List.mem_map_of_mem h1)
      omega
  rw [this, add_zero]
  rfl

/-! ## When the border stays -/

theorem borderSegs_congr {δ : Type} (t t' : Topology δ)
    (h : List.Forall₂ (fun e e' => (OnBorder e' ↔ OnBorder e) ∧ (OnBorder e → e'.points = e.points)) t.edges t'.edges) :
    borderSegs t' = borderSegs t := by
  unfold borderSegs
  generalize t.edges = es at h
  generalize t'.edges = es' at h
  induction h with
  | nil => rfl
  | @cons e e' es es' h1 _ ih =>
    by_cases hb : OnBorder e
    · rw [List.filter_cons_of_pos (by simpa using h1.1.mpr hb), List.filter_cons_of_pos (by simpa using hb),
        List.flatMap_cons, List.flatMap_cons, ih, h1.2 hb]
    · rw [List.filter_cons_of_neg (by simpa using fun h => hb (h1.1.mp h)), List.filter_cons_of_neg (by simpa using hb), ih]

theorem borderShoelace_congr {δ : Type} (t t' : Topology δ) (hr : t'.regions = t.regions)
    (h : ∀ i : Nat, (∀ e, t.edges[i]? = some e → ∃ e', t'.edges[i]? = some e' ∧ (OnBorder e' ↔ OnBorder e) ∧
      (OnBorder e → e'.points = e.points)) ∧ (t.edges[i]? = none → t'.edges[i]? = none)) :
    borderShoelace t' = borderShoelace t := by
  have hd : allDirectedEdges t' = allDirectedEdges t := by
    unfold allDirectedEdges allRings
    rw [hr]
  unfold borderShoelace
  rw [hd]
  have hf : ((allDirectedEdges t).filter fun de => (t'.edges[de.edge]?).any fun e => OnBorder e) =
      (allDirectedEdges t).filter fun de => (t.edges[de.edge]?).any fun e => OnBorder e := by
    apply List.filter_congr
    intro de _
    cases he : t.edges[de.edge]? with
    | none => rw [(h de.edge).2 he]
    | some e =>
      obtain ⟨e', h1, h2, _⟩ := (h de.edge).1 e he
      rw [h1]
      simp [h2]
  rw [hf]
  congr 1
  apply List.map_congr_left
  intro de hde
  have hb := (List.mem_filter.mp hde).2
  unfold pathOf walk
  cases he : t.edges[de.edge]? with
  | none => rw [(h de.edge).2 he]
  | some e =>
    rw [he] at hb
    obtain ⟨e', h1, _, h3⟩ := (h de.edge).1 e he
    have : e'.points = e.points := h3 (by simpa using hb)
    rw [h1, Option.map_some, Option.map_some, this]

end TopoGeo
