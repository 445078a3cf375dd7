import Verif.Proofs.OrderClip
import Verif.Proofs.Normalize
/-!
# Normalizing renumbered topologies
-/

namespace TopoGeo

open Spec

/-! ## Edges between regions with other numbers -/

/-- Other names for pairs of regions, so that different pairs have different names and
pairs of equal regions get names of that kind. -/
structure Relabels (lab : Option Nat × Option Nat → Option Nat × Option Nat) : Prop where
  inj : ∀ a b, lab a = lab b ↔ a = b
  redundant : ∀ a, (lab a).1 = (lab a).2 ↔ a.1 = a.2

/-- An edge between regions with other numbers. -/
def relabel (lab : Option Nat × Option Nat → Option Nat × Option Nat) (e : NormEdge) : NormEdge :=
  ⟨e.points, lab e.regions⟩

theorem map_bind_R {α β γ : Type} (x : R α) (g : α → β) (k : β → R γ) : (x.map g >>= k) = (x >>= fun a => k (g a)) := by
  cases x <;> rfl

theorem bind_map_R {α β γ : Type} (x : R α) (k : α → R β) (g : β → γ) : (x >>= k).map g = (x >>= fun a => (k a).map g) := by
  cases x <;> rfl

theorem bind_congr_R {α β : Type} {x : R α} {k l : α → R β} (h : ∀ a, k a = l a) : (x >>= k) = (x >>= l) := by
  cases x
  · rfl
  · exact h _

variable {lab : Option Nat × Option Nat → Option Nat × Option Nat}

theorem rotateIslandEdge_relabel (e : NormEdge) :
    rotateIslandEdge (relabel lab e) = (rotateIslandEdge e).map (relabel lab) := by
  unfold rotateIslandEdge
  have hp : (relabel lab e).points = e.points := rfl
  simp only [hp]
  split
  · rfl
  · rfl
  · split <;> rfl

theorem firstPoints_relabel (es : List NormEdge) : firstPoints (es.map (relabel lab)) = firstPoints es := by
  induction es with
  | nil => rfl
  | cons e rest ih =>
    simp only [List.map_cons, firstPoints, ih]
    rfl

theorem rotateEdges_relabel (es : List NormEdge) :
    rotateEdges (es.map (relabel lab)) = (rotateEdges es).map (List.map (relabel lab)) := by
  have many : ∀ es : List NormEdge,
      (do let ps ← firstPoints (es.map (relabel lab))
          match argMin ps with
          | none | some 0 => .ok (es.map (relabel lab))
          | some index => .ok ((es.map (relabel lab)).drop index ++ (es.map (relabel lab)).take index) : R (List NormEdge)) =
      (do let ps ← firstPoints es
          match argMin ps with
          | none | some 0 => .ok es
          | some index => .ok (es.drop index ++ es.take index) : R (List NormEdge)).map (List.map (relabel lab)) := by
    intro es
    rw [firstPoints_relabel, bind_map_R]
    refine bind_congr_R fun ps => ?_
    split
    · rfl
    · rfl
    · simp [Except.map, List.map_drop, List.map_take]
  match es with
  | [] => exact many []
  | [e] =>
    simp only [List.map_cons, List.map_nil, rotateEdges]
    rw [rotateIslandEdge_relabel, map_bind_R, bind_map_R]
    exact bind_congr_R fun _ => rfl
  | a :: b :: rest => exact many (a :: b :: rest)

theorem joinStep_relabel (h : Relabels lab) (ret : List NormEdge) (e : NormEdge) :
    joinStep (ret.map (relabel lab)) (relabel lab e) = (joinStep ret e).map (List.map (relabel lab)) := by
  unfold joinStep
  rw [List.getLast?_map]
  cases ret.getLast? with
  | none => simp [Except.map]
  | some last =>
    simp only [Option.map_some, relabel, h.inj]
    split
    · rw [bind_map_R]
      refine bind_congr_R fun t => ?_
      simp [Except.map, List.map_dropLast, relabel]
    · simp [Except.map, relabel]

theorem joinLoop_relabel (h : Relabels lab) (es ret : List NormEdge) :
    joinLoop (ret.map (relabel lab)) (es.map (relabel lab)) = (joinLoop ret es).map (List.map (relabel lab)) := by
  induction es generalizing ret with
  | nil => rfl
  | cons e rest ih =>
    simp only [List.map_cons, joinLoop]
    rw [joinStep_relabel h, map_bind_R, bind_map_R]
    exact bind_congr_R fun ret' => ih ret'

theorem joinWrap_relabel (h : Relabels lab) (es : List NormEdge) :
    joinWrap (es.map (relabel lab)) = (joinWrap es).map (List.map (relabel lab)) := by
  match es with
  | [] => rfl
  | [e] => rfl
  | a :: b :: rest =>
    simp only [List.map_cons, joinWrap]
    have hl : (relabel lab b :: rest.map (relabel lab)).getLast (by simp) = relabel lab ((b :: rest).getLast (by simp)) := by
      have := List.getLast_map (f := relabel lab) (l := b :: rest) (by simp)
      exact this
    rw [hl]
    generalize (b :: rest).getLast (by simp) = last
    have hr : ∀ e : NormEdge, (relabel lab e).regions = lab e.regions := fun _ => rfl
    rw [hr, hr]
    simp only [h.inj]
    split
    · rw [bind_map_R]
      refine bind_congr_R fun t => ?_
      simp only [Except.map, List.map_cons, List.map_dropLast]
      rfl
    · rfl

theorem joinRelatedEdges_relabel (h : Relabels lab) (es : List NormEdge) :
    joinRelatedEdges (es.map (relabel lab)) = (joinRelatedEdges es).map (List.map (relabel lab)) := by
  unfold joinRelatedEdges
  have := joinLoop_relabel h es []
  rw [List.map_nil] at this
  rw [this, map_bind_R, bind_map_R]
  exact bind_congr_R fun ret => joinWrap_relabel h ret

theorem normAreaLoop_relabel (m : Build) (es : List NormEdge) (a : Int) :
    normAreaLoop m a (es.map (relabel lab)) = normAreaLoop m a es := by
  induction es generalizing a with
  | nil => rfl
  | cons e rest ih =>
    simp only [List.map_cons, normAreaLoop, ih]
    rfl

theorem windEdges_relabel (m : Build) (es : List NormEdge) (order : WindingOrder) :
    windEdges m (es.map (relabel lab)) order = (windEdges m es order).map (List.map (relabel lab)) := by
  unfold windEdges calculateWindingOrder
  rw [normAreaLoop_relabel, bind_map_R]
  refine bind_congr_R fun w => ?_
  split
  · rfl
  · simp [Except.map, List.map_reverse, relabel, Function.comp_def]

/-- An entry of the merge map. -/
def relabelEntry (lab : Option Nat × Option Nat → Option Nat × Option Nat) (x : Point × NormEdge) : Point × NormEdge :=
  (x.1, relabel lab x.2)

theorem mergeInsert_relabel (k : Point) (e : NormEdge) (map : MergeMap) :
    MergeMap.insert k (relabel lab e) (map.map (relabelEntry lab)) =
      (MergeMap.insert k e map).map (List.map (relabelEntry lab)) := by
  induction map with
  | nil => rfl
  | cons x rest ih =>
    obtain ⟨k', e'⟩ := x
    simp only [List.map_cons, relabelEntry, MergeMap.insert]
    split
    · rfl
    · split
      · rfl
      · rw [ih, map_bind_R, bind_map_R]
        exact bind_congr_R fun _ => rfl

theorem mergeRemove_relabel (k : Point) (map : MergeMap) :
    MergeMap.remove k (map.map (relabelEntry lab)) =
      (MergeMap.remove k map).map fun x => (relabel lab x.1, x.2.map (relabelEntry lab)) := by
  induction map with
  | nil => rfl
  | cons x rest ih =>
    obtain ⟨k', e'⟩ := x
    simp only [List.map_cons, relabelEntry, MergeMap.remove]
    split
    · rfl
    · rw [ih]
      cases MergeMap.remove k rest <;> rfl

theorem indexEdges_relabel (es : List NormEdge) (map : MergeMap) :
    indexEdges (map.map (relabelEntry lab)) (es.map (relabel lab)) =
      (indexEdges map es).map (List.map (relabelEntry lab)) := by
  induction es generalizing map with
  | nil => rfl
  | cons e rest ih =>
    simp only [List.map_cons, indexEdges]
    rw [show (relabel lab e).points = e.points from rfl]
    cases e.points.head? with
    | none => rfl
    | some p =>
      dsimp only
      rw [mergeInsert_relabel, map_bind_R, bind_map_R]
      exact bind_congr_R fun map' => ih map'

theorem isRedundant_relabel (h : Relabels lab) (e : NormEdge) : (relabel lab e).isRedundant = e.isRedundant := by
  have := h.redundant e.regions
  rw [Bool.eq_iff_iff]
  simpa [NormEdge.isRedundant, relabel] using this

theorem splitRings_relabel (h : Relabels lab) (rings ret : List NormRing) (map : MergeMap) :
    splitRings (ret.map (List.map (relabel lab))) (map.map (relabelEntry lab)) (rings.map (List.map (relabel lab))) =
      (splitRings ret map rings).map fun x => (x.1.map (List.map (relabel lab)), x.2.map (relabelEntry lab)) := by
  induction rings generalizing ret map with
  | nil => rfl
  | cons r rest ih =>
    have h1 : (r.map (relabel lab)).filter (fun e => e.isRedundant) = (r.filter fun e => e.isRedundant).map (relabel lab) := by
      rw [List.filter_map]
      congr 2
      funext e
      exact isRedundant_relabel h e
    have h2 : (r.map (relabel lab)).filter (fun e => !e.isRedundant) = (r.filter fun e => !e.isRedundant).map (relabel lab) := by
      rw [List.filter_map]
      congr 2
      funext e
      simp only [Function.comp, isRedundant_relabel h e]
    simp only [List.map_cons, splitRings, h1, h2, List.length_map]
    split
    · have := ih (ret ++ [r.filter fun e => !e.isRedundant]) map
      simpa using this
    · split
      · exact ih ret map
      · rw [indexEdges_relabel, map_bind_R, bind_map_R]
        exact bind_congr_R fun map' => ih ret map'

theorem follow_relabel (start : Point) (fuel : Nat) (current : Point) (map : MergeMap) (edges : List NormEdge) :
    follow start fuel current (map.map (relabelEntry lab)) (edges.map (relabel lab)) =
      (follow start fuel current map edges).map fun x => (x.1.map (relabel lab), x.2.map (relabelEntry lab)) := by
  induction fuel generalizing current map edges with
  | zero => rfl
  | succ fuel ih =>
    simp only [follow, mergeRemove_relabel]
    cases MergeMap.remove current map with
    | none => rfl
    | some x =>
      obtain ⟨edge, map'⟩ := x
      simp only [Option.map_some]
      rw [show (relabel lab edge).points = edge.points from rfl]
      cases edge.points.getLast? with
      | none => rfl
      | some e =>
        dsimp only
        split
        · simp [Except.map]
        · have := ih e map' (edges ++ [edge])
          simpa using this

theorem mergeLoop_relabel (h : Relabels lab) (fuel : Nat) (map : MergeMap) (ret : List NormRing) :
    mergeLoop fuel (map.map (relabelEntry lab)) (ret.map (List.map (relabel lab))) =
      (mergeLoop fuel map ret).map (List.map (List.map (relabel lab))) := by
  induction fuel generalizing map ret with
  | zero =>
    cases map with
    | nil => simp [mergeLoop, Except.map]
    | cons x rest => simp [mergeLoop, Except.map, relabelEntry]
  | succ fuel ih =>
    cases map with
    | nil => simp [mergeLoop, Except.map]
    | cons x rest =>
      obtain ⟨start, e⟩ := x
      have hf := follow_relabel (lab := lab) start (((start, e) :: rest).length + 1) start ((start, e) :: rest) []
      simp only [List.map_cons, List.map_nil, relabelEntry, List.length_cons] at hf
      simp only [List.map_cons, relabelEntry, mergeLoop, List.length_cons, List.length_map]
      rw [hf, map_bind_R, bind_map_R]
      refine bind_congr_R fun y => ?_
      dsimp only
      rw [joinRelatedEdges_relabel h, map_bind_R, bind_map_R]
      refine bind_congr_R fun joined => ?_
      rw [rotateEdges_relabel, map_bind_R, bind_map_R]
      refine bind_congr_R fun rotated => ?_
      have := ih y.2 (ret ++ [rotated])
      rw [List.map_append] at this
      exact this

theorem ringKey_relabel (ring : NormRing) : ringKey (ring.map (relabel lab)) = ringKey ring := by
  cases ring <;> rfl

theorem keyRings_relabel (rings : List NormRing) :
    keyRings (rings.map (List.map (relabel lab))) =
      (keyRings rings).map (List.map fun x => (x.1, x.2.map (relabel lab))) := by
  induction rings with
  | nil => rfl
  | cons r rest ih =>
    simp only [List.map_cons, keyRings, ringKey_relabel, ih]
    rw [bind_map_R]
    refine bind_congr_R fun k => ?_
    rw [map_bind_R, bind_map_R]
    exact bind_congr_R fun _ => rfl

theorem insertByKey_relabel (x : Point × NormRing) (l : List (Point × NormRing)) :
    insertByKey (x.1, x.2.map (relabel lab)) (l.map fun x => (x.1, x.2.map (relabel lab))) =
      (insertByKey x l).map fun x => (x.1, x.2.map (relabel lab)) := by
  induction l with
  | nil => rfl
  | cons y ys ih =>
    simp only [List.map_cons, insertByKey]
    split
    · rfl
    · rw [ih]; rfl

theorem sortByKey_relabel (l : List (Point × NormRing)) :
    sortByKey (l.map fun x => (x.1, x.2.map (relabel lab))) = (sortByKey l).map fun x => (x.1, x.2.map (relabel lab)) := by
  induction l with
  | nil => rfl
  | cons y ys ih =>
    simp only [List.map_cons, sortByKey]
    rw [ih, insertByKey_relabel]

theorem sortRings_relabel (rings : List NormRing) :
    sortRings (rings.map (List.map (relabel lab))) = (sortRings rings).map (List.map (List.map (relabel lab))) := by
  unfold sortRings
  rw [keyRings_relabel, map_bind_R, bind_map_R]
  refine bind_congr_R fun ks => ?_
  rw [sortByKey_relabel]
  simp [Except.map]

theorem joinAdjacentRings_relabel (h : Relabels lab) (rings : List NormRing) :
    joinAdjacentRings (rings.map (List.map (relabel lab))) =
      (joinAdjacentRings rings).map (List.map (List.map (relabel lab))) := by
  unfold joinAdjacentRings
  have := splitRings_relabel h rings [] []
  simp only [List.map_nil] at this
  rw [this, map_bind_R, bind_map_R]
  refine bind_congr_R fun x => ?_
  dsimp only
  rw [List.length_map]
  split
  · rfl
  · rw [mergeLoop_relabel h, map_bind_R, bind_map_R]
    exact bind_congr_R fun ret => sortRings_relabel ret

theorem normRingToRing_relabel (ring : NormRing) : normRingToRing (ring.map (relabel lab)) = normRingToRing ring := by
  simp [normRingToRing, relabel, Function.comp_def]

/-! ## Renumbered topologies -/

variable {δ : Type}

theorem normalizeRing_relabel (h : Relabels lab) {m : Build} {t u : Topology δ} {order : WindingOrder} {r r' : TopoRing}
    (hr : withDirectedEdges u r'.directedEdges = (withDirectedEdges t r.directedEdges).map (List.map (relabel lab))) :
    normalizeRing m u order r' = (normalizeRing m t order r).map (List.map (relabel lab)) := by
  unfold normalizeRing
  rw [hr, map_bind_R, bind_map_R]
  refine bind_congr_R fun edges => ?_
  rw [joinRelatedEdges_relabel h, map_bind_R, bind_map_R]
  refine bind_congr_R fun joined => ?_
  rw [windEdges_relabel, map_bind_R, bind_map_R]
  exact bind_congr_R fun wound => rotateEdges_relabel wound

theorem normalizeRings_relabel (h : Relabels lab) {m : Build} {t u : Topology δ} {order : WindingOrder} {rings : List TopoRing}
    {ρ : TopoRing → TopoRing} (hr : ∀ r ∈ rings, withDirectedEdges u (ρ r).directedEdges =
      (withDirectedEdges t r.directedEdges).map (List.map (relabel lab))) :
    normalizeRings m u order (rings.map ρ) = (normalizeRings m t order rings).map (List.map (List.map (relabel lab))) := by
  induction rings with
  | nil => rfl
  | cons r rest ih =>
    simp only [List.map_cons, normalizeRings]
    rw [normalizeRing_relabel h (hr r (by simp)), map_bind_R, bind_map_R, ih fun r hr' => hr r (by simp [hr'])]
    refine bind_congr_R fun n => ?_
    rw [map_bind_R, bind_map_R]
    exact bind_congr_R fun _ => rfl

theorem normalizeRegionRings_relabel (h : Relabels lab) {m : Build} {t u : Topology δ} {order : WindingOrder}
    {rings : List TopoRing} {ρ : TopoRing → TopoRing} (hr : ∀ r ∈ rings, withDirectedEdges u (ρ r).directedEdges =
      (withDirectedEdges t r.directedEdges).map (List.map (relabel lab))) :
    normalizeRegionRings m u (rings.map ρ) order = normalizeRegionRings m t rings order := by
  unfold normalizeRegionRings normalizeRegionNormRings
  rw [normalizeRings_relabel h hr, map_bind_R]
  have : ∀ ns : List NormRing, (joinAdjacentRings (ns.map (List.map (relabel lab))) >>= fun joined => sortRings joined) =
      (joinAdjacentRings ns >>= fun joined => sortRings joined).map (List.map (List.map (relabel lab))) := by
    intro ns
    rw [joinAdjacentRings_relabel h, map_bind_R, bind_map_R]
    exact bind_congr_R fun joined => sortRings_relabel joined
  simp only [this]
  have h2 : ∀ x : R (List NormRing), (x.map (List.map (List.map (relabel lab))) >>= fun sorted =>
      (.ok (sorted.map normRingToRing) : R (List Ring))) = (x >>= fun sorted => .ok (sorted.map normRingToRing)) := by
    intro x
    rw [map_bind_R]
    refine bind_congr_R fun sorted => ?_
    rw [List.map_map]
    congr 1
    exact List.map_congr_left fun ring _ => normRingToRing_relabel ring
  rw [← bind_map_R, h2]

/-- Pairs of regions with other numbers: in increasing order if they were. -/
def pairLabel (g : Nat → Nat) : Option Nat × Option Nat → Option Nat × Option Nat
  | (some a, some b) => if (a ≤ b) ↔ (g a ≤ g b) then (some (g a), some (g b)) else (some (g b), some (g a))
  | (x, y) => (x.map g, y.map g)

theorem pairLabel_relabels {g : Nat → Nat} (hg : Function.Injective g) : Relabels (pairLabel g) := by
  have hi : ∀ a b, g a = g b ↔ a = b := fun a b => hg.eq_iff
  constructor
  · rintro ⟨a, b⟩ ⟨c, d⟩
    refine ⟨fun h => ?_, fun h => by rw [h]⟩
    match a, b, c, d with
    | some a, some b, some c, some d =>
      simp only [pairLabel] at h
      split at h <;> split at h <;> rename_i h1 h2 <;>
        simp only [Prod.mk.injEq, Option.some.injEq, hi] at h ⊢
      · exact h
      · obtain ⟨rfl, rfl⟩ := h
        constructor <;> (have := hi a b; omega)
      · obtain ⟨rfl, rfl⟩ := h
        have := hi a b
        constructor <;> omega
      · exact ⟨h.2, h.1⟩
    | some a, some b, some c, none => simp only [pairLabel] at h; split at h <;> simp at h
    | some a, some b, none, d => cases d <;> (simp only [pairLabel] at h; split at h <;> simp at h)
    | some a, none, some c, some d => simp only [pairLabel] at h; split at h <;> simp at h
    | some a, none, some c, none => simpa [pairLabel, hi] using h
    | some a, none, none, d => cases d <;> simp [pairLabel] at h
    | none, b, some c, some d => cases b <;> (simp only [pairLabel] at h; split at h <;> simp at h)
    | none, b, some c, none => cases b <;> simp [pairLabel] at h
    | none, none, none, none => rfl
    | none, some b, none, none => simp [pairLabel] at h
    | none, none, none, some d => simp [pairLabel] at h
    | none, some b, none, some d => simpa [pairLabel, hi] using h
  · rintro ⟨a, b⟩
    match a, b with
    | some a, some b =>
      simp only [pairLabel]
      split
      · simp [hi]
      · simp [hi, eq_comm]
    | some a, none => simp [pairLabel]
    | none, some b => simp [pairLabel]
    | none, none => simp [pairLabel]

/-- A permutation of the numbers below `n` that keeps the others. -/
def extended (n : Nat) (g : Nat → Nat) (i : Nat) : Nat := if i < n then g i else i

theorem extended_injective {n : Nat} {g : Nat → Nat} (h : Reorders n g) : Function.Injective (extended n g) := by
  intro a b hab
  unfold extended at hab
  split at hab <;> split at hab
  · exact h.inj a ‹_› b ‹_› hab
  · have := h.lt a ‹_›; omega
  · have := h.lt b ‹_›; omega
  · exact hab

theorem ringsUsing_pairwise (t : Topology δ) (i : Nat) : (ringsUsing t i).Pairwise fun a b => a.region ≤ b.region := by
  unfold ringsUsing
  rw [List.pairwise_flatMap]
  have hreg : ∀ (x : TopoRegion δ × Nat) (a : RingPtr), a ∈ (x.1.outerRings.zipIdx.flatMap fun y =>
        (y.1.directedEdges.filter (·.edge = i)).map fun _ => (⟨x.2, false, y.2⟩ : RingPtr)) ++
      (x.1.innerRings.zipIdx.flatMap fun y =>
        (y.1.directedEdges.filter (·.edge = i)).map fun _ => (⟨x.2, true, y.2⟩ : RingPtr)) → a.region = x.2 := by
    intro x a ha
    rcases List.mem_append.mp ha with ha | ha
    · obtain ⟨y, _, ha⟩ := List.mem_flatMap.mp ha
      obtain ⟨_, _, rfl⟩ := List.mem_map.mp ha
      rfl
    · obtain ⟨y, _, ha⟩ := List.mem_flatMap.mp ha
      obtain ⟨_, _, rfl⟩ := List.mem_map.mp ha
      rfl
  constructor
  · intro x _
    refine List.pairwise_of_forall_mem_list fun a ha b hb => ?_
    rw [hreg x a ha, hreg x b hb]
  · have : (t.regions.zipIdx.map Prod.snd).Pairwise (· < ·) := by
      rw [List.zipIdx_map_snd]
      exact List.pairwise_lt_range'
    rw [List.pairwise_map] at this
    refine this.imp ?_
    intro x y hxy a ha b hb
    rw [hreg x a ha, hreg y b hb]
    omega

theorem sides_renumbered {f g : Nat → Nat} {t u : Topology δ} (h : Renumbered f g t u) (ht : BackPointersExact t) {i : Nat}
    (hi : i < t.edges.length) : sides u (f i) = pairLabel (extended t.regions.length g) (sides t i) := by
  have hp := ringsUsing_renumbered h.reorders_regions h.regions h.region h.reorders_edges ht.2.2 hi
  have hs := ringsUsing_pairwise t i
  have hs' := ringsUsing_pairwise u (f i)
  obtain ⟨e, he⟩ : ∃ e, t.edges[i]? = some e := ⟨t.edges[i], List.getElem?_eq_getElem hi⟩
  have hle := (ht.1 i e he).1
  have hlt : ∀ rp ∈ ringsUsing t i, extended t.regions.length g rp.region = g rp.region := by
    intro rp hrp
    obtain ⟨ring, h1, _⟩ := ringAt_of_using ht hrp
    unfold extended
    rw [if_pos]
    unfold Topology.ringAt at h1
    by_contra hc
    rw [List.getElem?_eq_none (by omega)] at h1
    cases h1
  have hl := hp.length_eq
  rw [List.length_map] at hl
  unfold sides
  generalize ringsUsing t i = x at *
  generalize ringsUsing u (f i) = y at *
  match x, y with
  | [], [] => rfl
  | [a], [b] =>
    have := List.perm_singleton.mp hp
    obtain rfl : b = renumberPtr g a := by simpa using this
    simp [pairLabel, renumberPtr, hlt a (by simp)]
  | [a, b], [c, d] =>
    have ha := hlt a (by simp)
    have hb := hlt b (by simp)
    have hab : a.region ≤ b.region := by simpa using hs
    have hcd : c.region ≤ d.region := by simpa using hs'
    simp only [List.getElem?_cons_zero, List.getElem?_cons_succ, Option.map_some, pairLabel, ha, hb]
    have : (c = renumberPtr g a ∧ d = renumberPtr g b) ∨ (c = renumberPtr g b ∧ d = renumberPtr g a) := by
      simp only [List.map_cons, List.map_nil] at hp
      have hc : c = renumberPtr g a ∨ c = renumberPtr g b := by
        have := hp.mem_iff.mp (List.mem_cons_self (a := c) (l := [d]))
        simpa using this
      rcases hc with rfl | rfl
      · left
        have := List.perm_singleton.mp (List.Perm.cons_inv hp)
        exact ⟨rfl, by simpa using this⟩
      · right
        have := List.perm_singleton.mp (List.Perm.cons_inv (hp.trans (List.Perm.swap _ _ _)))
        exact ⟨rfl, by simpa using this⟩
    rcases this with ⟨rfl, rfl⟩ | ⟨rfl, rfl⟩
    · simp only [renumberPtr] at hcd ⊢
      rw [if_pos (by simp [hab, hcd])]
    · simp only [renumberPtr] at hcd ⊢
      split
      · rename_i hiff
        have := hiff.mp hab
        have : g a.region = g b.region := by omega
        rw [this]
      · rfl
  | [], _ :: _ => simp at hl
  | [_], [] => simp at hl
  | [_], _ :: _ :: _ => simp at hl
  | [_, _], [] => simp at hl
  | [_, _], [_] => simp at hl
  | [_, _], _ :: _ :: _ :: _ => simp at hl
  | _ :: _ :: _ :: _, _ => simp at hle

theorem allDirectedEdges_renumbered {f g : Nat → Nat} {t u : Topology δ} (h : Renumbered f g t u) {de : DirectedEdge}
    (hde : de ∈ allDirectedEdges t) : (⟨f de.edge, de.direction⟩ : DirectedEdge) ∈ allDirectedEdges u := by
  obtain ⟨ring, hring, hde⟩ := List.mem_flatMap.mp hde
  obtain ⟨r, hr, hring⟩ := List.mem_flatMap.mp hring
  have hr' : renumberRegion f g r ∈ u.regions := h.regions_perm.mem_iff.mpr (List.mem_map_of_mem hr)
  refine List.mem_flatMap.mpr ⟨renumberRing f g ring, List.mem_flatMap.mpr ⟨_, hr', ?_⟩, ?_⟩
  · simp only [renumberRegion, ← List.map_append]
    exact List.mem_map_of_mem hring
  · exact List.mem_map_of_mem (f := fun de => (⟨f de.edge, de.direction⟩ : DirectedEdge)) hde

theorem nedge_renumbered {f g : Nat → Nat} {t u : Topology δ} (h : Renumbered f g t u) (ht : BackPointersExact t)
    {de : DirectedEdge} (hde : de ∈ allDirectedEdges t) :
    nedge u ⟨f de.edge, de.direction⟩ = relabel (pairLabel (extended t.regions.length g)) (nedge t de) := by
  have hi := ht.2.2 de hde
  unfold nedge relabel
  rw [sides_renumbered h ht hi]
  congr 1
  obtain ⟨e, he⟩ : ∃ e, t.edges[de.edge]? = some e := ⟨t.edges[de.edge], List.getElem?_eq_getElem hi⟩
  obtain ⟨e', h1, h2, _⟩ := h.edge _ _ he
  unfold pathOf
  rw [walk_eq, walk_eq, List.getElem?_map, List.getElem?_map, he, h1]
  simp [h2]

theorem normalizeRegion_renumbered {m : Build} {f g : Nat → Nat} {t u : Topology δ} (h : Renumbered f g t u)
    (ht : BackPointersExact t) (hu : BackPointersExact u) {r : TopoRegion δ} (hr : r ∈ t.regions) :
    normalizeRegion m u (renumberRegion f g r) = normalizeRegion m t r := by
  have hlab := pairLabel_relabels (extended_injective h.reorders_regions)
  have key : ∀ ring ∈ r.outerRings ++ r.innerRings, withDirectedEdges u (renumberRing f g ring).directedEdges =
      (withDirectedEdges t ring.directedEdges).map (List.map (relabel (pairLabel (extended t.regions.length g)))) := by
    intro ring hring
    have hall : ∀ de ∈ ring.directedEdges, de ∈ allDirectedEdges t :=
      mem_allDirectedEdges_of_ring (List.mem_flatMap.mpr ⟨r, hr, hring⟩)
    rw [withDirectedEdges_eq ht hall, withDirectedEdges_eq hu]
    · simp only [Except.map, renumberRing, List.map_map]
      congr 1
      exact List.map_congr_left fun de hde => nedge_renumbered h ht (hall de hde)
    · intro de hde
      obtain ⟨d, hd, rfl⟩ := List.mem_map.mp hde
      exact allDirectedEdges_renumbered h (hall d hd)
  unfold normalizeRegion
  simp only [renumberRegion]
  rw [normalizeRegionRings_relabel hlab fun ring hring => key ring (List.mem_append_left _ hring),
    normalizeRegionRings_relabel hlab fun ring hring => key ring (List.mem_append_right _ hring)]

theorem forall₂_reorder {α β α' : Type} {S : α → β → Prop} {S' : α' → β → Prop} {l : List α} {k : List β} {l' : List α'}
    {ρ : α → α'} (h : List.Forall₂ S l k) (hp : l'.Perm (l.map ρ)) (hS : ∀ a ∈ l, ∀ b, S a b → S' (ρ a) b) :
    ∃ k', List.Forall₂ S' l' k' ∧ k.Perm k' := by
  have h1 : List.Forall₂ S' (l.map ρ) k := by
    rw [List.forall₂_map_left_iff]
    clear hp
    induction h with
    | nil => exact .nil
    | cons h1 _ ih => exact .cons (hS _ (by simp) _ h1) (ih fun a ha => hS a (by simp [ha]))
  obtain ⟨k', h2, h3⟩ := List.perm_comp_forall₂ hp h1
  exact ⟨k', h2, h3.symm⟩

theorem normalize_renumbered {m : Build} {f g : Nat → Nat} {t u t' : Topology δ} (h : Renumbered f g t u)
    (ht : BackPointersExact t) (hu : BackPointersExact u) (hn : normalize m t = .ok t') :
    ∃ u' f' g', normalize m u = .ok u' ∧ Renumbered f' g' t' u' := by
  obtain ⟨rs, h1, h2⟩ := normalize_ok.mp hn
  obtain ⟨qs, h3, h4⟩ := forall₂_reorder (S' := fun r r' => normalizeRegion m u r = .ok r') h1 h.regions_perm fun r hr b hb =>
    (normalizeRegion_renumbered h ht hu hr).trans hb
  obtain ⟨u', f', g', h5, h6⟩ := build_renumbered h4 h2
  exact ⟨u', f', g', normalize_ok.mpr ⟨qs, h3, h5⟩, h6⟩

end TopoGeo
