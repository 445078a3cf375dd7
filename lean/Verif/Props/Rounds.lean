import Verif.Proofs.ClipRounds
import Verif.Proofs.Cover
import Verif.Proofs.Local
import Verif.Props.Sizes
import Mathlib.Algebra.BigOperators.Ring.Finset
import Mathlib.Algebra.Order.BigOperators.Group.Finset
/-!
# Property C110: how long building, normalizing and clipping take
-/

namespace TopoGeo

open Timed Spec

/-- C110: counting the rounds of the loops does not change what is computed. -/
theorem C110_same {δ : Type} (m : Build) (rs : List (Region δ)) (t : Topology δ) (mask : ClipMask) :
    (buildTopologyT m rs).result = buildTopology m rs ∧ (normalizeT m t).result = normalize m t ∧
      (clipTopologyT m t mask).result = clipTopology m t mask :=
  ⟨buildTopologyT_result m rs, normalizeT_result m t, clipTopologyT_result m t mask⟩

/-- C110: building a topology takes linear time. -/
theorem C110_build {δ : Type} (m : Build) (rs : List (Region δ)) : (buildTopologyT m rs).rounds ≤ 28 * regionsVolume rs :=
  buildTopologyT_rounds m rs

/-- C110: normalizing a topology of size `n` takes `O(n log n)` time. -/
theorem C110_normalize {δ : Type} (m : Build) (t : Topology δ) :
    (normalizeT m t).rounds ≤ 83 * (walkedVolume t * ((walkedVolume t).log2 + 1)) :=
  normalizeT_rounds m t

/-- C110: clipping a topology takes linear time. -/
theorem C110_clip {δ : Type} (m : Build) (t : Topology δ) (mask : ClipMask) :
    (clipTopologyT m t mask).rounds ≤ 15 * walkedVolume t + 2 * storedVolume t :=
  clipTopologyT_rounds m t mask

theorem splitRingsT_pass {ret : List NormRing} {rings : List NormRing}
    (h : ∀ r ∈ rings, (∀ e ∈ r, e.isRedundant = false) ∨ (∀ e ∈ r, e.isRedundant = true)) :
    (splitRingsT ret [] rings).rounds ≤ 3 * normVolume rings ∧
      ∃ out, splitRings ret [] rings = .ok (out, []) := by
  induction rings generalizing ret with
  | nil => exact ⟨by simp [splitRingsT], ret, rfl⟩
  | cons r rest ih =>
    have hl := length_le_volume r
    have ih' := fun ret => ih (ret := ret) fun r' hr' => h r' (by simp [hr'])
    rw [normVolume_cons]
    constructor
    · have : (splitRingsT ret [] (r :: rest)).rounds ≤ (normRounds r + (r.length + 3 * normVolume rest)) + 1 := by
        refine rounds_tick_bind (rounds_ticks_bind (rounds_ticks_bind ?_))
        dsimp only
        split
        · exact (ih' _).1
        · split
          · exact (ih' _).1
          · rename_i h1 h2
            exfalso
            rcases h r (by simp) with hr | hr
            · apply h1
              rw [List.length_eq_zero_iff, List.filter_eq_nil_iff]
              intro e he
              simp [hr e he]
            · apply h2
              rw [List.length_eq_zero_iff, List.filter_eq_nil_iff]
              intro e he
              simp [hr e he]
      rw [normRounds_eq] at this
      omega
    · simp only [splitRings]
      split
      · exact (ih' _).2
      · split
        · exact (ih' _).2
        · rename_i h1 h2
          exfalso
          rcases h r (by simp) with hr | hr
          · apply h1
            rw [List.length_eq_zero_iff, List.filter_eq_nil_iff]
            intro e he
            simp [hr e he]
          · apply h2
            rw [List.length_eq_zero_iff, List.filter_eq_nil_iff]
            intro e he
            simp [hr e he]

theorem normVolume_eq (rings : List NormRing) :
    normVolume rings = (rings.map fun r => 1 + pathsVolume (r.map (·.points))).sum := by
  induction rings with
  | nil => rfl
  | cons r rest ih => rw [normVolume_cons, ih, List.map_cons, List.sum_cons, edgeSize_gVol]

/-- C110: what the comment on `join_adjacent_rings` says: "This is O(N lg N); to
speed things up, we pass through rings that aren't redundant and we nix rings
that are entirely redundant." If all rings are of these two kinds, the time is
linear. -/
theorem C110_join (rings : List NormRing) (n : Nat)
    (hn : (rings.map fun r => 1 + pathsVolume (r.map (·.points))).sum = n) :
    (joinAdjacentRingsT rings).result = joinAdjacentRings rings ∧
    (joinAdjacentRingsT rings).rounds ≤ 15 * (n * (n.log2 + 1)) ∧
    ((∀ r ∈ rings, (∀ e ∈ r, e.isRedundant = false) ∨ (∀ e ∈ r, e.isRedundant = true)) →
      (joinAdjacentRingsT rings).rounds ≤ 3 * n) := by
  rw [← normVolume_eq] at hn
  subst hn
  refine ⟨joinAdjacentRingsT_result rings, joinAdjacentRingsT_rounds (Nat.le_refl _), fun h => ?_⟩
  obtain ⟨h1, out, h2⟩ := splitRingsT_pass (ret := []) h
  refine Nat.le_trans (rounds_bind (l := 0) h1 fun rm hrm => ?_) (by omega)
  rw [splitRingsT_result, h2] at hrm
  obtain rfl := Except.ok.inj hrm
  simp

theorem walkedVolume_eq {δ : Type} (t : Topology δ) :
    walkedVolume t = t.regions.length + (allRings t).length + ((allDirectedEdges t).map fun de => (pathOf t de).length + 1).sum := by
  have hring : ∀ rings : List TopoRing, (rings.map (topoRingVolume t)).sum =
      rings.length + ((rings.flatMap (·.directedEdges)).map fun de => (pathOf t de).length + 1).sum := by
    intro rings
    induction rings with
    | nil => rfl
    | cons r rings ih =>
      have e : topoRingVolume t r = 1 + (r.directedEdges.map fun de => (pathOf t de).length + 1).sum := by
        simp [topoRingVolume, pathsVolume, pathsOf, Function.comp_def]
      rw [List.map_cons, List.sum_cons, ih, List.flatMap_cons, List.map_append, List.sum_append, List.length_cons, e]
      omega
  unfold walkedVolume allDirectedEdges allRings
  generalize t.regions = rs
  induction rs with
  | nil => rfl
  | cons r rs ih =>
    rw [List.map_cons, List.sum_cons, ih, List.flatMap_cons, List.flatMap_append, List.map_append, List.sum_append,
      List.length_cons, List.length_append, topoRegionVolume, hring]
    omega

/-- C110: as each edge has at most two uses, the size in these bounds is not
much more than that of what is stored. -/
theorem C110_shared {δ : Type} (t : Topology δ) (hb : BackPointersExact t) :
    walkedVolume t ≤ t.regions.length + (allRings t).length + 2 * storedVolume t := by
  rw [walkedVolume_eq]
  have h3 : ((allDirectedEdges t).map fun de => (pathOf t de).length + 1) =
      ((allDirectedEdges t).map (·.edge)).map fun i => (t.edges[i]?.map fun e => e.points.length + 1).getD 0 := by
    rw [List.map_map]
    refine List.map_congr_left fun de hde => ?_
    have hlt := hb.2.2 de hde
    simp only [Function.comp_apply]
    unfold pathOf walk
    rw [List.getElem?_eq_getElem hlt]
    cases de.direction <;> simp
  have h4 : storedVolume t = ∑ i ∈ Finset.range t.edges.length, (t.edges[i]?.map fun e => e.points.length + 1).getD 0 := by
    rw [← sum_getElem]
    simp [storedVolume, pathsVolume, Function.comp_def]
  rw [h3, sum_by_index _ t.edges.length, h4, Finset.mul_sum]
  · have : ∑ i ∈ Finset.range t.edges.length, ((allDirectedEdges t).map (·.edge)).count i *
        (t.edges[i]?.map fun e => e.points.length + 1).getD 0 ≤ ∑ i ∈ Finset.range t.edges.length,
        2 * (t.edges[i]?.map fun e => e.points.length + 1).getD 0 := by
      refine Finset.sum_le_sum fun i hi => Nat.mul_le_mul_right _ ?_
      rw [count_uses]
      have hlt := Finset.mem_range.mp hi
      exact (hb.1 i t.edges[i] (List.getElem?_eq_getElem hlt)).1
    omega
  · intro i hi
    obtain ⟨de, hde, rfl⟩ := List.mem_map.mp hi
    exact hb.2.2 de hde

theorem pairs_volume (ps : List Point) : pathsVolume (pairs ps) ≤ 3 * ps.length :=
  match ps with
  | [] => Nat.zero_le _
  | [_] => Nat.zero_le _
  | a :: b :: rest => by
    have := pairs_volume (b :: rest)
    simp only [pairs, pathsVolume_cons, List.length_cons, List.length_nil] at *
    omega

theorem pathsVolume_sublist {a b : List (List Point)} (h : a.Sublist b) : pathsVolume a ≤ pathsVolume b := by
  induction h with
  | slnil => exact Nat.le_refl _
  | cons x _ ih => rw [pathsVolume_cons]; omega
  | cons_cons x _ ih => rw [pathsVolume_cons, pathsVolume_cons]; omega

theorem stored_length (e : List Point) : (stored e).length = e.length := by
  unfold stored; split <;> simp

theorem ringPaths_volume (r : Ring) : 1 + pathsVolume ((ringPaths r).map stored) ≤ 3 * ringVolume r := by
  have h : pathsVolume ((ringPaths r).map stored) = pathsVolume (ringPaths r) := by
    simp [pathsVolume, Function.comp_def, stored_length]
  rw [h]
  cases r with
  | points ps =>
    have h1 := pathsVolume_sublist (List.filter_sublist (l := pairs ps) (p := fun e => ¬ ZeroLength e))
    have h2 := pairs_volume ps
    simp only [ringPaths, ringVolume]
    omega
  | edges es =>
    have h1 := pathsVolume_sublist (List.filter_sublist (l := es) (p := fun e => ¬ ZeroLength e))
    simp only [ringPaths, ringVolume]
    omega

theorem keptRings_volume (rs : List Ring) :
    ((keptRings rs).map fun r => 1 + pathsVolume ((ringPaths r).map stored)).sum ≤ 3 * (rs.map ringVolume).sum := by
  induction rs with
  | nil => exact Nat.zero_le _
  | cons r rs ih =>
    have := ringPaths_volume r
    unfold keptRings at *
    rw [List.filter_cons]
    split <;> simp only [List.map_cons, List.sum_cons] <;> omega

theorem pathsVolume_append (a b : List (List Point)) : pathsVolume (a ++ b) = pathsVolume a + pathsVolume b := by
  simp [pathsVolume]

theorem flatten_volume (rs : List Ring) :
    pathsVolume ((((keptRings rs).map ringPaths).flatten).map stored) ≤ 3 * (rs.map ringVolume).sum := by
  refine Nat.le_trans ?_ (keptRings_volume rs)
  induction keptRings rs with
  | nil => exact Nat.zero_le _
  | cons r l ih =>
    rw [List.map_cons, List.flatten_cons, List.map_append, pathsVolume_append, List.map_cons, List.sum_cons]
    omega

/-- The size of what a region looks like. -/
def drawnVolume {δ : Type} (d : Drawn δ) : Nat :=
  1 + ((d.outer ++ d.inner).map fun ring => 1 + pathsVolume (ring.map fun x => x.1.getD [])).sum

theorem walkedVolume_drawn {δ : Type} (t : Topology δ) : walkedVolume t = ((drawn t).map drawnVolume).sum := by
  have h : ∀ ring, topoRingVolume t ring = 1 + pathsVolume ((drawnRing t ring).map fun x => x.1.getD []) := by
    intro ring
    simp only [topoRingVolume, pathsVolume, pathsOf, drawnRing, List.map_map]
    congr 3
    funext de
    simp only [Function.comp_apply, pathOf, walk]
    cases t.edges[de.edge]? with
    | none => rfl
    | some e => cases de.direction <;> simp
  unfold walkedVolume drawn
  rw [List.map_map]
  congr 2
  funext r
  simp only [topoRegionVolume, drawnVolume, Function.comp_apply, List.map_append, List.map_map, funext h, Function.comp_def]

theorem builtDrawn_volume {δ : Type} {r : Region δ} {d : Drawn δ} (h : builtDrawn r = some d) :
    drawnVolume d ≤ 3 * regionVolume r := by
  unfold builtDrawn at h
  dsimp only at h
  split at h
  · cases h
  · obtain rfl := Option.some.inj h
    have h1 := keptRings_volume r.outerRings
    have h2 := keptRings_volume r.innerRings
    simp only [drawnVolume, regionVolume, List.map_append, List.sum_append, List.map_map, Function.comp_def,
      Option.getD_some] at *
    change _ + (List.sum (List.map (fun x => 1 + pathsVolume (List.map stored (ringPaths x))) _) +
      List.sum (List.map (fun x => 1 + pathsVolume (List.map stored (ringPaths x))) _)) ≤ _
    omega

/-- C110: a topology that was just built is not much larger than the regions. -/
theorem C110_size {δ : Type} (m : Build) (rs : List (Region δ)) (t : Topology δ) (h : buildTopology m rs = .ok t) :
    walkedVolume t ≤ 3 * regionsVolume rs ∧ storedVolume t ≤ 3 * regionsVolume rs := by
  constructor
  · rw [walkedVolume_drawn, drawn_build h]
    unfold regionsVolume
    clear h
    induction rs with
    | nil => exact Nat.zero_le _
    | cons r rs ih =>
      rw [List.filterMap_cons]
      cases hd : builtDrawn r with
      | none => simp only [List.map_cons, List.sum_cons]; omega
      | some d =>
        have := builtDrawn_volume hd
        simp only [List.map_cons, List.sum_cons]; omega
  · unfold storedVolume
    rw [(buildTopology_facts h).2.1]
    refine Nat.le_trans (pathsVolume_sublist (firstOccurrences_sublist _)) ?_
    clear h
    unfold allPaths keptRegions regionsVolume
    induction rs with
    | nil => exact Nat.zero_le _
    | cons r rs ih =>
      have h1 := flatten_volume r.outerRings
      have h2 := flatten_volume r.innerRings
      rw [List.filter_cons]
      split
      · simp only [List.map_cons, List.flatMap_cons, List.map_append, List.sum_cons, pathsVolume_append, regionVolume,
          List.sum_append] at *
        omega
      · simp only [List.map_cons, List.sum_cons] at *
        omega

/-! The comb: building takes 379 rounds of at most 700, normalizing 668 of at most
31374, and clipping 88 of at most 1047. -/

example : regionsVolume exCombRegions = 25 ∧ (buildTopologyT .debug exCombRegions).rounds = 379 := by decide +kernel

example : walkedVolume exComb = 63 ∧ storedVolume exComb = 51 ∧ (normalizeT .debug exComb).rounds = 668 := by
  decide +kernel

example : (clipTopologyT .debug exComb (.minX 2)).rounds = 88 := by decide +kernel

example : BackPointersExact exComb := (buildTopology_facts exComb_built).1

/-! Two rings, one to pass through and one to nix. -/

example : (joinAdjacentRingsT [[⟨[⟨0, 0⟩, ⟨1, 0⟩, ⟨1, 1⟩, ⟨0, 0⟩], (some 0, none)⟩],
    [⟨[⟨4, 0⟩, ⟨5, 0⟩, ⟨5, 1⟩, ⟨4, 0⟩], (some 0, some 0)⟩]]).rounds = 14 := by decide +kernel

/-! A region that cannot be built: the rounds until the panic. -/

example : (buildTopologyT .debug [(⟨(), [.points [⟨4294967295, 0⟩, ⟨4294967295, 4294967295⟩, ⟨0, 4294967295⟩,
    ⟨4294967295, 0⟩]], []⟩ : Region Unit)]).rounds = 6 := by decide +kernel

example : (buildTopologyT .debug [(⟨(), [.points [⟨4294967295, 0⟩, ⟨4294967295, 4294967295⟩, ⟨0, 4294967295⟩,
    ⟨4294967295, 0⟩]], []⟩ : Region Unit)]).result = .error .overflow := by
  rw [buildTopologyT_result]; decide +kernel

end TopoGeo
