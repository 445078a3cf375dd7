import Verif.Proofs.Library
/-!
# Rings that were put together from others do not pass the start of an edge twice
-/

namespace TopoGeo

open Spec

/-- The start points of edges. -/
def startsOf (es : List NormEdge) : List (Option Point) := es.map fun e => e.points.head?

/-- No edge is closed, unless the ring is a single edge. -/
def NoLoops (n : NormRing) : Prop := n.length ≤ 1 ∨ ∀ e ∈ n, e.points.head? ≠ e.points.getLast?

theorem noLoops_of_starts {n : NormRing} (hc : ClosedRing (npts n)) (hs : (startsOf n).Nodup) : NoLoops n := by
  by_cases hl : n.length ≤ 1
  · exact Or.inl hl
  right
  intro e he heq
  obtain ⟨l1, l2, rfl⟩ := List.append_of_mem he
  obtain ⟨_, a, ha⟩ := hc
  rw [npts, List.map_append, List.map_cons, leads_append_iff] at ha
  obtain ⟨b, h1, h2, c, h3, h4⟩ := ha
  rw [h2, h3] at heq
  obtain rfl := Option.some.inj heq
  rw [startsOf, List.map_append, List.map_cons, h2] at hs
  cases l2 with
  | cons y l2 =>
    rw [List.map_cons, h4.1] at hs
    have := (List.nodup_append.mp hs).2.1
    simp at this
  | nil =>
    have hba : b = a := h4
    cases l1 with
    | nil => simp at hl
    | cons x l1 =>
      have hx : x.points.head? = some a := h1.1
      rw [List.map_cons, hx, hba] at hs
      simp at hs

theorem joinLoop_starts {es ret out : List NormEdge} (hne : ∀ e ∈ ret, e.points ≠ []) (hne' : ∀ e ∈ es, e.points ≠ [])
    (h : joinLoop ret es = .ok out) :
    (startsOf out).Sublist (startsOf ret ++ startsOf es) ∧ ∀ e ∈ out, e.points ≠ [] := by
  induction es generalizing ret with
  | nil => obtain rfl := Except.ok.inj h; exact ⟨by simp [startsOf], hne⟩
  | cons e es ih =>
    simp only [joinLoop, bind_ok] at h
    obtain ⟨ret', h1, h⟩ := h
    have hes := fun x hx => hne' x (List.mem_cons_of_mem _ hx)
    have happ : ∀ x ∈ ret ++ [e], x.points ≠ [] := by
      intro x hx
      rcases List.mem_append.mp hx with hx | hx
      · exact hne x hx
      · obtain rfl := List.mem_singleton.mp hx; exact hne' x (by simp)
    have hplain : joinLoop (ret ++ [e]) es = .ok out →
        (startsOf out).Sublist (startsOf ret ++ startsOf (e :: es)) ∧ ∀ e ∈ out, e.points ≠ [] := by
      intro h
      obtain ⟨i1, i2⟩ := ih happ hes h
      refine ⟨i1.trans ?_, i2⟩
      simp [startsOf]
    unfold joinStep at h1
    split at h1
    · rename_i last hlast
      obtain ⟨init, rfl⟩ := List.getLast?_eq_some_iff.mp hlast
      have hlne := hne last (by simp)
      split at h1
      · rw [bind_ok] at h1
        obtain ⟨t, _, h1⟩ := h1
        obtain rfl := Except.ok.inj h1
        rw [List.dropLast_concat] at h
        have hhead : (last.points ++ t).head? = last.points.head? := by
          cases hp : last.points with
          | nil => exact absurd hp hlne
          | cons _ _ => rfl
        obtain ⟨i1, i2⟩ := ih (ret := init ++ [{ last with points := last.points ++ t }]) (by
          intro x hx
          rcases List.mem_append.mp hx with hx | hx
          · exact hne x (by simp [hx])
          · obtain rfl := List.mem_singleton.mp hx
            simp [hlne]) hes h
        refine ⟨i1.trans ?_, i2⟩
        simp only [startsOf, List.map_append, List.map_cons, List.map_nil, hhead, List.append_assoc, List.cons_append,
          List.nil_append]
        exact (List.Sublist.refl _).append ((List.sublist_cons_self _ _).cons_cons _)
      · obtain rfl := Except.ok.inj h1
        exact hplain h
    · obtain rfl := Except.ok.inj h1
      exact hplain h

theorem joinRelatedEdges_starts {es out : List NormEdge} (hne : ∀ e ∈ es, e.points ≠ [])
    (h : joinRelatedEdges es = .ok out) (hs : (startsOf es).Nodup) : (startsOf out).Nodup := by
  simp only [joinRelatedEdges, bind_ok] at h
  obtain ⟨ret, h1, h⟩ := h
  obtain ⟨i1, i2⟩ := joinLoop_starts (ret := []) (by simp) hne h1
  have hr : (startsOf ret).Nodup := hs.sublist (by simpa [startsOf] using i1)
  unfold joinWrap at h
  split at h
  · rename_i first second rest
    simp only at h
    split at h
    · rw [bind_ok] at h
      obtain ⟨t, _, h⟩ := h
      obtain rfl := Except.ok.inj h
      have hlast : (second :: rest).getLast (by simp) ∈ first :: second :: rest :=
        List.mem_cons_of_mem _ (List.getLast_mem _)
      have hhead : ((second :: rest).getLast (by simp)).points.head? =
          (((second :: rest).getLast (by simp)).points ++ t).head? := by
        cases hp : ((second :: rest).getLast (by simp)).points with
        | nil => exact absurd hp (i2 _ hlast)
        | cons _ _ => rfl
      have hsplit := List.dropLast_append_getLast (l := second :: rest) (by simp)
      have hr2 : (startsOf (second :: rest)).Nodup := (List.nodup_cons.mp hr).2
      rw [← hsplit, startsOf, List.map_append, List.map_cons, List.map_nil, hhead] at hr2
      show (_ :: startsOf (second :: rest).dropLast).Nodup
      rw [List.nodup_append_comm] at hr2
      exact hr2
    · obtain rfl := Except.ok.inj h
      exact hr
  · obtain rfl := Except.ok.inj h
    exact hr

theorem rotateEdges_perm {es out : List NormEdge} (h : rotateEdges es = .ok out) :
    (es.length = 1 ∧ out.length = 1) ∨ out.Perm es := by
  match es, h with
  | [], h =>
    obtain rfl := Except.ok.inj (show Except.ok [] = Except.ok out from h)
    exact Or.inr (List.Perm.refl _)
  | [f], h =>
    simp only [rotateEdges, bind_ok] at h
    obtain ⟨e, _, h⟩ := h
    obtain rfl := Except.ok.inj h
    exact Or.inl ⟨rfl, rfl⟩
  | f :: g :: l, h =>
    simp only [rotateEdges, bind_ok] at h
    obtain ⟨ps, _, h⟩ := h
    right
    split at h
    · obtain rfl := Except.ok.inj h; exact List.Perm.refl _
    · obtain rfl := Except.ok.inj h; exact List.Perm.refl _
    · obtain rfl := Except.ok.inj h
      refine List.perm_append_comm.trans ?_
      rw [List.take_append_drop]

theorem starts_mapEdges {map : MergeMap} (hf : Filed map) : startsOf (mapEdges map) = map.map fun x => some x.1 := by
  unfold startsOf mapEdges
  rw [List.map_map]
  exact List.map_congr_left fun x hx => hf x hx

theorem keysIncrease_starts {map : MergeMap} (hf : Filed map) (h : KeysIncrease map) : (startsOf (mapEdges map)).Nodup := by
  rw [starts_mapEdges hf, List.Nodup, List.pairwise_map]
  refine List.Pairwise.imp ?_ h
  intro a b hab he
  rw [Option.some.inj he] at hab
  exact Point.lt_irrefl _ hab

theorem follow_sublist {start current : Point} {fuel : Nat} {map map' : MergeMap} {edges out : List NormEdge}
    (h : follow start fuel current map edges = .ok (out, map')) : map'.Sublist map := by
  induction fuel generalizing current map edges with
  | zero => cases h
  | succ fuel ih =>
    simp only [follow] at h
    split at h
    · cases h
    · rename_i edge m1 hr
      have h1 := mergeMap_remove_sublist hr
      split at h
      · cases h
      · split at h
        · obtain ⟨_, rfl⟩ := Prod.mk.inj (Except.ok.inj h)
          exact h1
        · exact (ih h).trans h1

theorem mergeLoop_loops {fuel : Nat} {map : MergeMap} {ret out : List NormRing} (hf : Filed map) (hk : KeysIncrease map)
    (h : mergeLoop fuel map ret = .ok out) : ∃ merged, out = ret ++ merged ∧ ∀ r ∈ merged, NoLoops r := by
  induction fuel generalizing map ret with
  | zero =>
    cases map with
    | nil =>
      obtain rfl := Except.ok.inj (show Except.ok ret = Except.ok out from h)
      exact ⟨[], by simp, by simp⟩
    | cons x rest => cases h
  | succ fuel ih =>
    cases map with
    | nil =>
      obtain rfl := Except.ok.inj (show Except.ok ret = Except.ok out from h)
      exact ⟨[], by simp, by simp⟩
    | cons x rest =>
      obtain ⟨start, e0⟩ := x
      simp only [mergeLoop, bind_ok] at h
      obtain ⟨⟨edges, m1⟩, h1, joined, h2, rotated, h3, h⟩ := h
      have hsub := follow_sublist h1
      obtain ⟨new, g1, g2, g3, g4, g5⟩ := follow_ok hf h1
      rw [List.nil_append] at g1
      subst g1
      have hcl : ClosedRing (npts edges) := ⟨by simpa [npts] using g2, start, g3⟩
      obtain ⟨j, hj, j1, j2, j3, j4⟩ := joinRelatedEdges_closed hcl
      obtain rfl := Except.ok.inj (h2.symm.trans hj)
      obtain ⟨r, hr, hr'⟩ := rotateEdges_ok j1
      obtain rfl := Except.ok.inj (h3.symm.trans hr)
      obtain ⟨merged, k1, k2⟩ := ih g4 (hk.sublist hsub) h
      refine ⟨rotated :: merged, by rw [k1]; simp, ?_⟩
      intro r hr
      rcases List.mem_cons.mp hr with rfl | hr
      · have hs1 : (startsOf edges).Nodup := by
          have := keysIncrease_starts hf hk
          have hp : (startsOf (mapEdges ((start, e0) :: rest))).Perm (startsOf edges ++ startsOf (mapEdges m1)) := by
            unfold startsOf
            rw [← List.map_append]
            exact g5.map _
          exact (List.nodup_append.mp (hp.nodup_iff.mp this)).1
        have hs2 := joinRelatedEdges_starts (fun e he => leads_ne_nil g3 _ (List.mem_map_of_mem he)) h2 hs1
        rcases rotateEdges_perm h3 with ⟨_, h1⟩ | hp
        · exact Or.inl (Nat.le_of_eq h1)
        · exact noLoops_of_starts hr'.closed ((hp.map _).nodup_iff.mpr hs2)
      · exact k2 r hr

theorem indexEdges_increase {map map' : MergeMap} {es : List NormEdge} (hk : KeysIncrease map)
    (h : indexEdges map es = .ok map') : KeysIncrease map' := by
  induction es generalizing map with
  | nil => obtain rfl := Except.ok.inj h; exact hk
  | cons e es ih =>
    simp only [indexEdges] at h
    split at h
    · cases h
    · rw [bind_ok] at h
      obtain ⟨m1, h1, h⟩ := h
      exact ih (mergeMap_insert_increase hk h1) h

theorem splitRings_increase {ret ret' : List NormRing} {map map' : MergeMap} {rings : List NormRing}
    (hk : KeysIncrease map) (h : splitRings ret map rings = .ok (ret', map')) : KeysIncrease map' := by
  induction rings generalizing ret map with
  | nil =>
    obtain ⟨rfl, rfl⟩ := Prod.mk.inj (Except.ok.inj h)
    exact hk
  | cons ring rest ih =>
    simp only [splitRings] at h
    split at h
    · exact ih hk h
    · split at h
      · exact ih hk h
      · rw [bind_ok] at h
        obtain ⟨m1, h0, h⟩ := h
        exact ih (indexEdges_increase hk h0) h

/-- Rings that were put together have no closed edges. -/
theorem joinAdjacentRings_loops {rings out : List NormRing} (h : joinAdjacentRings rings = .ok out) :
    ∃ merged, Adjoined rings out merged ∧ ∀ r ∈ merged, NoLoops r := by
  obtain ⟨merged, had⟩ := joinAdjacentRings_ok h
  simp only [joinAdjacentRings, bind_ok] at h
  obtain ⟨⟨ret, map⟩, h1, h⟩ := h
  obtain ⟨g1, g2, g3⟩ := splitRings_ok (by simp [Filed]) h1
  rw [List.nil_append] at g1
  replace g3 : (mapEdges map).Perm (looseEdges rings) := g3
  subst g1
  simp only at h
  split at h
  · rename_i hm
    have : looseEdges rings = [] := by
      have := List.length_eq_zero_iff.mp hm
      subst this
      exact g3.nil_eq.symm
    refine ⟨merged, had, ?_⟩
    rw [had.none this]
    simp
  · rw [bind_ok] at h
    obtain ⟨ret', h2, h⟩ := h
    obtain ⟨merged', k1, k2⟩ := mergeLoop_loops g2 (splitRings_increase List.Pairwise.nil h1) h2
    obtain ⟨s1, _⟩ := sortRings_ok h
    refine ⟨merged, had, ?_⟩
    have : merged.Perm merged' := by
      have := had.parts.symm.trans s1
      rw [k1] at this
      exact (List.perm_append_left_iff _).mp this
    exact fun r hr => k2 r (this.mem_iff.mp hr)

end TopoGeo
