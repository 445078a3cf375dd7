import Verif.Spec.Sizes
import Verif.Proofs.ClipTopology
import Verif.Proofs.Normalize
/-!
# Proofs about sizes
-/

namespace TopoGeo

open Spec

/-! ## Clipping -/

theorem clipRest_length {m : Build} {mask : ClipMask} {pts : List Point} {prev : Point}
    {last : Option Point} {l : List Point} (h : clipRest m mask prev last pts = .ok l) :
    2 * l.length ≤ 3 * pts.length + if 0 < depth mask prev then 0 else 1 := by
  induction pts generalizing prev last l with
  | nil => obtain rfl := Except.ok.inj h; simp
  | cons q rest ih =>
    simp only [clipRest] at h
    by_cases q0 : depth mask q = 0
    · rw [if_pos q0] at h
      have hq : ¬ 0 < depth mask q := by omega
      by_cases p1 : 0 < depth mask prev
      · rw [if_pos p1, bind_ok] at h
        obtain ⟨l', h1, h⟩ := h
        obtain rfl := Except.ok.inj h
        have := ih h1
        rw [if_neg hq] at this
        simp only [List.length_cons, if_pos p1]
        omega
      · rw [if_neg p1] at h
        have := ih h
        rw [if_neg hq] at this
        simp only [List.length_cons, if_neg p1]
        omega
    · rw [if_neg q0] at h
      by_cases q1 : 0 < depth mask q
      · rw [if_pos q1] at h
        by_cases p1 : depth mask prev < 0
        · rw [if_pos p1, bind_ok] at h
          obtain ⟨x, _, h⟩ := h
          rw [bind_ok] at h
          obtain ⟨l', h1, h⟩ := h
          obtain rfl := Except.ok.inj h
          have := ih h1
          rw [if_pos q1] at this
          simp only [List.length_cons, if_neg (show ¬ 0 < depth mask prev by omega)]
          omega
        · rw [if_neg p1] at h
          by_cases p0 : depth mask prev = 0 ∧ last ≠ some prev
          · rw [if_pos p0, bind_ok] at h
            obtain ⟨l', h1, h⟩ := h
            obtain rfl := Except.ok.inj h
            have := ih h1
            rw [if_pos q1] at this
            simp only [List.length_cons, if_neg (show ¬ 0 < depth mask prev by omega)]
            omega
          · rw [if_neg p0, bind_ok] at h
            obtain ⟨l', h1, h⟩ := h
            obtain rfl := Except.ok.inj h
            have := ih h1
            rw [if_pos q1] at this
            simp only [List.length_cons]
            split <;> omega
      · rw [if_neg q1] at h
        by_cases p1 : 0 < depth mask prev
        · rw [if_pos p1, bind_ok] at h
          obtain ⟨x, _, h⟩ := h
          rw [bind_ok] at h
          obtain ⟨l', h1, h⟩ := h
          obtain rfl := Except.ok.inj h
          have := ih h1
          rw [if_neg q1] at this
          simp only [List.length_cons, if_pos p1]
          omega
        · rw [if_neg p1] at h
          have := ih h
          rw [if_neg q1] at this
          simp only [List.length_cons, if_neg p1]
          omega

theorem clipEdge_length {m : Build} {mask : ClipMask} {pts out : List Point} (h : clipEdge m mask pts = .ok out) :
    2 * out.length ≤ 3 * pts.length - 1 := by
  match pts, h with
  | [], h => obtain rfl := Except.ok.inj h; simp
  | [p], h => obtain rfl := Except.ok.inj h; simp
  | p :: q :: rest, h =>
    rw [clipEdge_eq] at h
    by_cases hp : 0 < depth mask p
    · rw [if_pos hp, bind_ok] at h
      obtain ⟨l, h1, h⟩ := h
      obtain rfl := Except.ok.inj h
      have := clipRest_length h1
      rw [if_pos hp] at this
      simp only [List.length_cons] at this ⊢
      omega
    · rw [if_neg hp] at h
      have := clipRest_length h
      rw [if_neg hp] at this
      simp only [List.length_cons] at this ⊢
      omega

theorem gap_length (a b : Option Point) : (gap a b).length ≤ 1 := by
  unfold gap
  split
  · split <;> simp
  · simp

theorem plugKeys_length (ps : List Piece) : (plugKeys ps).length ≤ ps.length := List.length_filterMap_le _ _

theorem bridge_length (cs : List (List Point)) (prev : Option Point) (ps : List Piece) :
    (bridge cs prev ps).length ≤ 2 * ps.length := by
  induction ps generalizing prev with
  | nil => simp [bridge]
  | cons e rest ih =>
    have := ih (e.path cs).getLast?
    have := gap_length prev (e.path cs).head?
    simp only [bridge, List.length_append, List.length_cons]
    omega

theorem closeUp_length (cs : List (List Point)) (ps : List Piece) : (closeUp cs ps).length ≤ 2 * ps.length := by
  cases ps with
  | nil => simp [closeUp, bridge, endOf, gap]
  | cons e rest =>
    have h1 := bridge_length cs (e.path cs).getLast? rest
    have h2 := gap_length (endOf cs (e :: rest)) (startOf cs (e :: rest))
    have h3 : gap none (e.path cs).head? = [] := rfl
    simp only [closeUp, bridge, h3, List.nil_append, List.length_append, List.length_cons]
    omega

theorem clippedPieces_length (cs : List (List Point)) (ring : TopoRing) :
    (clippedPieces cs ring).length ≤ 2 * ring.directedEdges.length := by
  have := closeUp_length cs (ring.directedEdges.filterMap (visiblePiece cs))
  have := List.length_filterMap_le (visiblePiece cs) ring.directedEdges
  unfold clippedPieces
  omega

theorem bridge_plugs (cs : List (List Point)) (prev : Option Point) (ps : List Piece) (hk : ∀ pc ∈ ps, pc.isKept) :
    (plugKeys (bridge cs prev ps)).length ≤ ps.length := by
  induction ps generalizing prev with
  | nil => simp [bridge, plugKeys]
  | cons e rest ih =>
    have h1 := ih (e.path cs).getLast? fun pc h => hk pc (List.mem_cons_of_mem _ h)
    have h2 := gap_length prev (e.path cs).head?
    have h3 := plugKeys_length (gap prev (e.path cs).head?)
    have h4 : plugKeys (e :: bridge cs (e.path cs).getLast? rest) = plugKeys (bridge cs (e.path cs).getLast? rest) := by
      have := hk e List.mem_cons_self
      rcases e with ⟨e | ⟨p, q⟩, d⟩
      · rfl
      · simp [Piece.isKept] at this
    simp only [bridge, plugKeys_append, h4, List.length_append, List.length_cons]
    omega

theorem clippedPieces_plugs (cs : List (List Point)) (ring : TopoRing) :
    (plugKeys (clippedPieces cs ring)).length ≤ ring.directedEdges.length := by
  have hk : ∀ pc ∈ ring.directedEdges.filterMap (visiblePiece cs), pc.isKept := by
    intro pc h
    obtain ⟨de, _, h⟩ := List.mem_filterMap.mp h
    unfold visiblePiece at h
    split at h
    · cases h
    · obtain rfl := Option.some.inj h; rfl
  have hl := List.length_filterMap_le (visiblePiece cs) ring.directedEdges
  unfold clippedPieces
  generalize ring.directedEdges.filterMap (visiblePiece cs) = ps at hk hl
  cases ps with
  | nil => simp [closeUp, bridge, endOf, gap, plugKeys]
  | cons e rest =>
    have h1 := bridge_plugs cs (e.path cs).getLast? rest fun pc h => hk pc (List.mem_cons_of_mem _ h)
    have h2 := gap_length (endOf cs (e :: rest)) (startOf cs (e :: rest))
    have h3 := plugKeys_length (gap (endOf cs (e :: rest)) (startOf cs (e :: rest)))
    have h4 : plugKeys (e :: bridge cs (e.path cs).getLast? rest) = plugKeys (bridge cs (e.path cs).getLast? rest) := by
      have := hk e List.mem_cons_self
      rcases e with ⟨e | ⟨p, q⟩, d⟩
      · rfl
      · simp [Piece.isKept] at this
    have h5 : gap none (e.path cs).head? = [] := rfl
    simp only [closeUp, bridge, h5, List.nil_append, plugKeys_append, h4, List.length_append, List.length_cons] at hl ⊢
    omega

theorem firstOccurrences_sublist {α : Type} [DecidableEq α] (l : List α) : (firstOccurrences l).Sublist l := by
  induction l with
  | nil => exact .slnil
  | cons a rest ih => exact .cons₂ a (List.filter_sublist.trans ih)

/-- How many directed edges some regions have. -/
def edgeUses {δ : Type} (rs : List (TopoRegion δ)) : Nat :=
  ((rs.flatMap fun r => r.outerRings ++ r.innerRings).flatMap (·.directedEdges)).length

theorem edgeUses_cons {δ : Type} (r : TopoRegion δ) (rs : List (TopoRegion δ)) :
    edgeUses (r :: rs) = (r.outerRings.flatMap (·.directedEdges)).length +
      (r.innerRings.flatMap (·.directedEdges)).length + edgeUses rs := by
  simp only [edgeUses, List.flatMap_cons, List.flatMap_append, List.length_append]

theorem ringPlugs_length (cs : List (List Point)) (rings : List TopoRing) :
    (plugKeys (rings.map (clippedPieces cs)).flatten).length ≤ (rings.flatMap (·.directedEdges)).length := by
  induction rings with
  | nil => simp [plugKeys]
  | cons ring rest ih =>
    have := clippedPieces_plugs cs ring
    simp only [List.map_cons, List.flatten_cons, plugKeys_append, List.flatMap_cons, List.length_append]
    omega

theorem triedPlugs_length {δ : Type} (cs : List (List Point)) (rs : List (TopoRegion δ)) :
    (plugKeys (triedPieces cs rs)).length ≤ edgeUses rs := by
  induction rs with
  | nil => simp [plugKeys, triedPieces]
  | cons r rest ih =>
    rw [edgeUses_cons]
    unfold triedPieces at ih ⊢
    have h1 := ringPlugs_length cs r.outerRings
    have h2 := ringPlugs_length cs r.innerRings
    simp only [List.flatMap_cons, plugKeys_append, List.length_append]
    by_cases h : keptClipped cs r.outerRings = []
    · rw [if_pos h]
      have : (plugKeys []).length = 0 := rfl
      omega
    · rw [if_neg h]
      omega

theorem newKeys_length {δ : Type} (cs : List (List Point)) (t : Topology δ) :
    (newKeys cs t).length ≤ (allDirectedEdges t).length := by
  have h1 := triedPlugs_length cs t.regions
  have h2 : (newKeys cs t).length ≤ (plugKeys (triedPieces cs t.regions)).length := by
    unfold newKeys
    rw [addKeys_eq]
    simpa using (firstOccurrences_sublist _).length_le
  exact h2.trans h1

/-! ## Normalizing -/

/-- A size of edges that depends on the number of points. -/
def edgeSize (g : Nat → Nat) (es : List NormEdge) : Nat := (es.map fun e => g e.points.length).sum

theorem edgeSize_append (g : Nat → Nat) (a b : List NormEdge) : edgeSize g (a ++ b) = edgeSize g a + edgeSize g b := by
  simp [edgeSize]

theorem edgeSize_cons (g : Nat → Nat) (e : NormEdge) (b : List NormEdge) :
    edgeSize g (e :: b) = g e.points.length + edgeSize g b := by
  simp [edgeSize]

theorem edgeSize_perm (g : Nat → Nat) {a b : List NormEdge} (h : a.Perm b) : edgeSize g a = edgeSize g b :=
  (h.map _).sum_nat

theorem edgeSize_sublist (g : Nat → Nat) {a b : List NormEdge} (h : a.Sublist b) : edgeSize g a ≤ edgeSize g b := by
  induction h with
  | slnil => simp
  | cons e _ ih => rw [edgeSize_cons]; omega
  | cons_cons e _ ih => rw [edgeSize_cons, edgeSize_cons]; omega

/-- Joining two edges does not make them larger. -/
structure Subadditive (g : Nat → Nat) : Prop where
  mono : ∀ a b, a ≤ b → g a ≤ g b
  join : ∀ a b, g (a + b) ≤ g a + g (b + 1)

theorem joinStep_size {g : Nat → Nat} (hg : Subadditive g) {ret out : List NormEdge} {e : NormEdge}
    (h : joinStep ret e = .ok out) : edgeSize g out ≤ edgeSize g ret + g e.points.length := by
  rcases snoc_cases ret with rfl | ⟨init, last, rfl⟩
  · obtain rfl := Except.ok.inj h
    simp [edgeSize]
  · simp only [joinStep, List.getLast?_append, List.getLast?_singleton, Option.some_or] at h
    by_cases hr : last.regions = e.regions
    · rw [if_pos hr, bind_ok] at h
      obtain ⟨t, h1, h⟩ := h
      obtain rfl := Except.ok.inj h
      obtain ⟨p, hp⟩ : ∃ p, e.points = p :: t := by
        unfold sliceFrom1 at h1
        split at h1
        · cases h1
        · rename_i p t' he
          obtain rfl := Except.ok.inj h1
          exact ⟨p, he⟩
      have := hg.join last.points.length t.length
      simp only [List.dropLast_concat, edgeSize_append, hp, List.length_cons]
      simp only [edgeSize, List.map_cons, List.map_nil, List.sum_cons, List.sum_nil, List.length_append]
      omega
    · rw [if_neg hr] at h
      obtain rfl := Except.ok.inj h
      rw [edgeSize_append g (init ++ [last])]
      simp [edgeSize]

theorem joinLoop_size {g : Nat → Nat} (hg : Subadditive g) {es ret out : List NormEdge}
    (h : joinLoop ret es = .ok out) : edgeSize g out ≤ edgeSize g ret + edgeSize g es := by
  induction es generalizing ret with
  | nil => obtain rfl := Except.ok.inj h; omega
  | cons e rest ih =>
    simp only [joinLoop, bind_ok] at h
    obtain ⟨r, h1, h2⟩ := h
    have := joinStep_size hg h1
    have := ih h2
    rw [edgeSize_cons]
    omega

theorem joinWrap_size {g : Nat → Nat} (hg : Subadditive g) {es out : List NormEdge} (h : joinWrap es = .ok out) :
    edgeSize g out ≤ edgeSize g es := by
  match es, h with
  | [], h => obtain rfl := Except.ok.inj h; exact Nat.le_refl _
  | [e], h => obtain rfl := Except.ok.inj h; exact Nat.le_refl _
  | first :: second :: rest, h =>
    simp only [joinWrap] at h
    split at h
    · rw [bind_ok] at h
      obtain ⟨t, h1, h⟩ := h
      obtain rfl := Except.ok.inj h
      obtain ⟨p, hp⟩ : ∃ p, first.points = p :: t := by
        unfold sliceFrom1 at h1
        split at h1
        · cases h1
        · rename_i p t' he
          obtain rfl := Except.ok.inj h1
          exact ⟨p, he⟩
      obtain ⟨init, last, hs⟩ : ∃ init last, second :: rest = init ++ [last] := by
        rcases snoc_cases (second :: rest) with h | h
        · cases h
        · exact h
      simp only [hs, List.getLast_append_singleton, List.dropLast_concat]
      have := hg.join last.points.length t.length
      rw [edgeSize_cons, edgeSize_cons, edgeSize_append, hp, List.length_append, List.length_cons, edgeSize_cons]
      simp only [edgeSize, List.map_nil, List.sum_nil]
      omega
    · obtain rfl := Except.ok.inj h; exact Nat.le_refl _

theorem joinRelatedEdges_size {g : Nat → Nat} (hg : Subadditive g) {es out : List NormEdge}
    (h : joinRelatedEdges es = .ok out) : edgeSize g out ≤ edgeSize g es := by
  simp only [joinRelatedEdges, bind_ok] at h
  obtain ⟨r, h1, h2⟩ := h
  have := joinLoop_size hg h1
  have := joinWrap_size hg h2
  have : edgeSize g [] = 0 := rfl
  omega

theorem windEdges_size {g : Nat → Nat} {m : Build} {es out : List NormEdge} {order : WindingOrder}
    (h : windEdges m es order = .ok out) : edgeSize g out = edgeSize g es := by
  simp only [windEdges, bind_ok] at h
  obtain ⟨w, _, h⟩ := h
  split at h
  · obtain rfl := Except.ok.inj h; rfl
  · obtain rfl := Except.ok.inj h
    rw [edgeSize_perm g (List.reverse_perm _)]
    simp [edgeSize, Function.comp_def]

theorem rotateIslandEdge_size {g : Nat → Nat} (hg : Subadditive g) {e out : NormEdge} (h : rotateIslandEdge e = .ok out) :
    g out.points.length ≤ g e.points.length := by
  unfold rotateIslandEdge at h
  split at h
  · obtain rfl := Except.ok.inj h; exact Nat.le_refl _
  · obtain rfl := Except.ok.inj h; exact Nat.le_refl _
  · rename_i index _ hi
    split at h
    · obtain rfl := Except.ok.inj h
      refine hg.mono _ _ ?_
      simp only [List.length_append, List.length_drop, List.length_take]
      omega
    · cases h

theorem rotateEdges_size {g : Nat → Nat} (hg : Subadditive g) {es out : List NormEdge} (h : rotateEdges es = .ok out) :
    edgeSize g out ≤ edgeSize g es := by
  unfold rotateEdges at h
  split at h
  · rename_i e
    rw [bind_ok] at h
    obtain ⟨e', h1, h⟩ := h
    obtain rfl := Except.ok.inj h
    have := rotateIslandEdge_size hg h1
    simpa [edgeSize] using this
  · rw [bind_ok] at h
    obtain ⟨ps, _, h⟩ := h
    split at h
    · obtain rfl := Except.ok.inj h; exact Nat.le_refl _
    · obtain rfl := Except.ok.inj h; exact Nat.le_refl _
    · rename_i index _ _
      obtain rfl := Except.ok.inj h
      rw [edgeSize_append]
      conv_rhs => rw [← List.take_append_drop index es, edgeSize_append]
      omega

/-- The size of rings. -/
def ringsSize (g : Nat → Nat) (rs : List NormRing) : Nat := (rs.map (edgeSize g)).sum

theorem ringsSize_append (g : Nat → Nat) (a b : List NormRing) : ringsSize g (a ++ b) = ringsSize g a + ringsSize g b := by
  simp [ringsSize]

theorem ringsSize_cons (g : Nat → Nat) (a : NormRing) (b : List NormRing) :
    ringsSize g (a :: b) = edgeSize g a + ringsSize g b := by
  simp [ringsSize]

theorem mergeMap_insert_size {g : Nat → Nat} {k : Point} {e : NormEdge} {map map' : MergeMap}
    (h : map.insert k e = .ok map') : edgeSize g (mapEdges map') = g e.points.length + edgeSize g (mapEdges map) := by
  induction map generalizing map' with
  | nil => obtain rfl := Except.ok.inj h; simp [mapEdges, edgeSize]
  | cons x rest ih =>
    obtain ⟨k', e'⟩ := x
    simp only [MergeMap.insert] at h
    by_cases h1 : k = k'
    · rw [if_pos h1] at h; cases h
    · rw [if_neg h1] at h
      by_cases h2 : k < k'
      · rw [if_pos h2] at h
        obtain rfl := Except.ok.inj h
        simp [mapEdges, edgeSize]
      · rw [if_neg h2, bind_ok] at h
        obtain ⟨r, h3, h⟩ := h
        obtain rfl := Except.ok.inj h
        have := ih h3
        simp only [mapEdges, List.map_cons, edgeSize_cons] at this ⊢
        omega

theorem mergeMap_remove_size {g : Nat → Nat} {k : Point} {e : NormEdge} {map map' : MergeMap}
    (h : map.remove k = some (e, map')) : edgeSize g (mapEdges map) = g e.points.length + edgeSize g (mapEdges map') := by
  induction map generalizing map' with
  | nil => cases h
  | cons x rest ih =>
    obtain ⟨k', e'⟩ := x
    simp only [MergeMap.remove] at h
    by_cases h1 : k = k'
    · rw [if_pos h1] at h
      obtain ⟨rfl, rfl⟩ := Prod.mk.inj (Option.some.inj h)
      simp [mapEdges, edgeSize]
    · rw [if_neg h1] at h
      split at h
      · cases h
      · rename_i e1 r1 h2
        obtain ⟨rfl, rfl⟩ := Prod.mk.inj (Option.some.inj h)
        have := ih h2
        simp only [mapEdges, List.map_cons, edgeSize_cons] at this ⊢
        omega

theorem indexEdges_size {g : Nat → Nat} {es : List NormEdge} {map map' : MergeMap} (h : indexEdges map es = .ok map') :
    edgeSize g (mapEdges map') = edgeSize g es + edgeSize g (mapEdges map) := by
  induction es generalizing map with
  | nil => obtain rfl := Except.ok.inj h; simp [edgeSize]
  | cons e rest ih =>
    unfold indexEdges at h
    split at h
    · cases h
    · rw [bind_ok] at h
      obtain ⟨map1, h1, h2⟩ := h
      have := mergeMap_insert_size (g := g) h1
      have := ih h2
      rw [edgeSize_cons]
      omega

theorem splitRings_size {g : Nat → Nat} {rings ret ret' : List NormRing} {map map' : MergeMap}
    (h : splitRings ret map rings = .ok (ret', map')) :
    ringsSize g ret' + edgeSize g (mapEdges map') ≤ ringsSize g ret + edgeSize g (mapEdges map) + ringsSize g rings := by
  induction rings generalizing ret map with
  | nil =>
    obtain ⟨rfl, rfl⟩ := Prod.mk.inj (Except.ok.inj h)
    omega
  | cons ring rest ih =>
    have hu := edgeSize_sublist g (List.filter_sublist (l := ring) (p := fun e => !e.isRedundant))
    rw [ringsSize_cons]
    simp only [splitRings] at h
    split at h
    · have := ih h
      rw [ringsSize_append, ringsSize_cons] at this
      have : ringsSize g [] = 0 := rfl
      omega
    · split at h
      · have := ih h
        omega
      · rw [bind_ok] at h
        obtain ⟨map1, h1, h2⟩ := h
        have := ih h2
        have := indexEdges_size (g := g) h1
        omega

theorem follow_size {g : Nat → Nat} {start current : Point} {fuel : Nat} {map map' : MergeMap} {edges out : List NormEdge}
    (h : follow start fuel current map edges = .ok (out, map')) :
    edgeSize g out + edgeSize g (mapEdges map') = edgeSize g edges + edgeSize g (mapEdges map) := by
  induction fuel generalizing current map edges with
  | zero => cases h
  | succ fuel ih =>
    simp only [follow] at h
    split at h
    · cases h
    · rename_i edge map1 h1
      have h2 := mergeMap_remove_size (g := g) h1
      have h3 : edgeSize g (edges ++ [edge]) = edgeSize g edges + g edge.points.length := by simp [edgeSize]
      split at h
      · cases h
      · split at h
        · obtain ⟨rfl, rfl⟩ := Prod.mk.inj (Except.ok.inj h)
          omega
        · have := ih h
          omega

theorem mergeLoop_size {g : Nat → Nat} (hg : Subadditive g) {fuel : Nat} {map : MergeMap} {ret out : List NormRing}
    (h : mergeLoop fuel map ret = .ok out) : ringsSize g out ≤ ringsSize g ret + edgeSize g (mapEdges map) := by
  induction fuel generalizing map ret with
  | zero =>
    cases map with
    | nil => obtain rfl := Except.ok.inj h; omega
    | cons x rest => cases h
  | succ fuel ih =>
    cases map with
    | nil => obtain rfl := Except.ok.inj h; omega
    | cons x rest =>
      obtain ⟨start, e0⟩ := x
      simp only [mergeLoop, bind_ok] at h
      obtain ⟨⟨edges, map1⟩, h1, joined, h2, rotated, h3, h4⟩ := h
      have e1 := follow_size (g := g) h1
      have e2 := joinRelatedEdges_size hg h2
      have e3 := rotateEdges_size hg h3
      have e4 := ih h4
      rw [ringsSize_append, ringsSize_cons] at e4
      have : ringsSize g [] = 0 := rfl
      have : edgeSize g [] = 0 := rfl
      dsimp only at *
      omega

theorem sortRings_size {g : Nat → Nat} {rings out : List NormRing} (h : sortRings rings = .ok out) :
    ringsSize g out = ringsSize g rings :=
  ((sortRings_ok h).1.map _).sum_nat

theorem joinAdjacentRings_size {g : Nat → Nat} (hg : Subadditive g) {rings out : List NormRing}
    (h : joinAdjacentRings rings = .ok out) : ringsSize g out ≤ ringsSize g rings := by
  simp only [joinAdjacentRings, bind_ok] at h
  obtain ⟨⟨ret, map⟩, h1, h⟩ := h
  have e1 := splitRings_size (g := g) h1
  have e2 : ringsSize g [] = 0 := rfl
  have e3 : edgeSize g (mapEdges []) = 0 := rfl
  dsimp only at h
  split at h
  · obtain rfl := Except.ok.inj h
    omega
  · rw [bind_ok] at h
    obtain ⟨r, h2, h3⟩ := h
    have e4 := mergeLoop_size hg h2
    have e5 := sortRings_size (g := g) h3
    omega

theorem withDirectedEdge_points {δ : Type} {t : Topology δ} {de : DirectedEdge} {e : NormEdge}
    (h : withDirectedEdge t de = .ok e) : e.points.length = (pathOf t de).length := by
  unfold withDirectedEdge at h
  split at h
  · cases h
  · rename_i edge he
    simp only [bind_ok] at h
    obtain ⟨r0, _, h⟩ := h
    have hp : e.points = if de.direction = .backward then edge.points.reverse else edge.points := by
      split at h
      · obtain rfl := Except.ok.inj h; rfl
      · rw [bind_ok] at h
        obtain ⟨r1, _, h⟩ := h
        obtain rfl := Except.ok.inj h; rfl
    rw [hp]
    simp only [pathOf, walk, he, Option.map_some, Option.getD_some]
    rcases de with ⟨i, _ | _⟩ <;> simp

/-- The size of the edges of a ring. -/
def ringSize {δ : Type} (g : Nat → Nat) (t : Topology δ) (ring : TopoRing) : Nat :=
  ((pathsOf t ring).map fun p => g p.length).sum

theorem withDirectedEdges_size {δ : Type} {g : Nat → Nat} {t : Topology δ} {des : List DirectedEdge} {es : List NormEdge}
    (h : withDirectedEdges t des = .ok es) : edgeSize g es = (des.map fun de => g (pathOf t de).length).sum := by
  induction des generalizing es with
  | nil => obtain rfl := Except.ok.inj h; rfl
  | cons de rest ih =>
    simp only [withDirectedEdges, bind_ok] at h
    obtain ⟨e, h1, es1, h2, h⟩ := h
    obtain rfl := Except.ok.inj h
    rw [edgeSize_cons, ih h2, withDirectedEdge_points h1]
    simp

theorem normalizeRing_size {δ : Type} {g : Nat → Nat} (hg : Subadditive g) {m : Build} {t : Topology δ}
    {order : WindingOrder} {ring : TopoRing} {out : NormRing} (h : normalizeRing m t order ring = .ok out) :
    edgeSize g out ≤ ringSize g t ring := by
  simp only [normalizeRing, bind_ok] at h
  obtain ⟨es, h1, joined, h2, wound, h3, h4⟩ := h
  have e1 := withDirectedEdges_size (g := g) h1
  have e2 := joinRelatedEdges_size hg h2
  have e3 := windEdges_size (g := g) h3
  have e4 := rotateEdges_size hg h4
  have e5 : ringSize g t ring = (ring.directedEdges.map fun de => g (pathOf t de).length).sum := by
    simp [ringSize, pathsOf, Function.comp_def]
  omega

theorem normalizeRings_size {δ : Type} {g : Nat → Nat} (hg : Subadditive g) {m : Build} {t : Topology δ}
    {order : WindingOrder} {rings : List TopoRing} {out : List NormRing} (h : normalizeRings m t order rings = .ok out) :
    ringsSize g out ≤ (rings.map (ringSize g t)).sum := by
  induction rings generalizing out with
  | nil => obtain rfl := Except.ok.inj h; simp [ringsSize]
  | cons ring rest ih =>
    simp only [normalizeRings, bind_ok] at h
    obtain ⟨n, h1, ns, h2, h⟩ := h
    obtain rfl := Except.ok.inj h
    have := normalizeRing_size hg h1
    have := ih h2
    rw [ringsSize_cons, List.map_cons, List.sum_cons]
    omega

theorem normalizeRegionNormRings_size {δ : Type} {g : Nat → Nat} (hg : Subadditive g) {m : Build} {t : Topology δ}
    {order : WindingOrder} {rings : List TopoRing} {out : List NormRing}
    (h : normalizeRegionNormRings m t rings order = .ok out) :
    ringsSize g out ≤ (rings.map (ringSize g t)).sum := by
  simp only [normalizeRegionNormRings, bind_ok] at h
  obtain ⟨ns, h1, joined, h2, h3⟩ := h
  have := normalizeRings_size hg h1
  have := joinAdjacentRings_size hg h2
  have := sortRings_size (g := g) h3
  omega

end TopoGeo
