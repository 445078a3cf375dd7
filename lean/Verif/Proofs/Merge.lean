import Mathlib.Algebra.BigOperators.Group.List.Basic
import Verif.Spec.Merge
import Verif.Proofs.Normalize
/-!
# Lemmas for C86
-/

namespace TopoGeo

open Spec
open scoped List

/-! ## Counting starts and ends -/

/-- How many more segments start at a point than end there. -/
def net (p : Point) (l : List (Point × Point)) : Int := (l.countP (·.1 = p) : Int) - l.countP (·.2 = p)

/-- 1 if the condition holds. -/
def unit (b : Prop) [Decidable b] : Int := if b then 1 else 0

theorem balanced_iff {l : List (Point × Point)} : Balanced l ↔ ∀ p, net p l = 0 := by
  unfold Balanced net
  constructor
  · intro h p; rw [h p]; omega
  · intro h p; have := h p; omega

theorem net_append (p : Point) (a b : List (Point × Point)) : net p (a ++ b) = net p a + net p b := by
  unfold net
  rw [List.countP_append, List.countP_append]
  omega

theorem net_perm {a b : List (Point × Point)} (h : a.Perm b) (p : Point) : net p a = net p b := by
  unfold net
  rw [h.countP_eq, h.countP_eq]

theorem net_cons (p : Point) (s : Point × Point) (l : List (Point × Point)) :
    net p (s :: l) = unit (s.1 = p) - unit (s.2 = p) + net p l := by
  unfold net unit
  rw [List.countP_cons, List.countP_cons]
  by_cases h1 : s.1 = p <;> by_cases h2 : s.2 = p <;> simp [h1, h2] <;> omega

theorem net_swap (p : Point) (l : List (Point × Point)) : net p (l.map Prod.swap) = -net p l := by
  induction l with
  | nil => rfl
  | cons s l ih =>
    rw [List.map_cons, net_cons, net_cons, ih]
    simp only [Prod.fst_swap, Prod.snd_swap]
    omega

theorem net_segs {l : List Point} {a c : Point} (ha : l.head? = some a) (hc : l.getLast? = some c) (p : Point) :
    net p (segs l) = unit (a = p) - unit (c = p) := by
  induction l generalizing a with
  | nil => cases ha
  | cons x l ih =>
    obtain rfl := Option.some.inj ha
    cases l with
    | nil =>
      obtain rfl : x = c := by simpa using hc
      simp [segs, net]
    | cons y l =>
      rw [segs, net_cons, ih rfl (by simpa using hc)]
      simp only
      omega

/-- How many more edges start at a point than end there. -/
def netE (p : Point) (es : List NormEdge) : Int :=
  (es.countP (·.points.head? = some p) : Int) - es.countP (·.points.getLast? = some p)

theorem netE_perm {a b : List NormEdge} (h : a.Perm b) (p : Point) : netE p a = netE p b := by
  unfold netE
  rw [h.countP_eq, h.countP_eq]

theorem netE_append (p : Point) (a b : List NormEdge) : netE p (a ++ b) = netE p a + netE p b := by
  unfold netE
  rw [List.countP_append, List.countP_append]
  omega

theorem netE_cons {e : NormEdge} {a c : Point} (ha : e.points.head? = some a) (hc : e.points.getLast? = some c)
    (p : Point) (es : List NormEdge) : netE p (e :: es) = unit (a = p) - unit (c = p) + netE p es := by
  unfold netE unit
  rw [List.countP_cons, List.countP_cons, ha, hc]
  by_cases h1 : a = p <;> by_cases h2 : c = p <;> simp [h1, h2] <;> omega

theorem netE_segs {es : List NormEdge} (h : ∀ e ∈ es, e.points ≠ []) (p : Point) :
    net p ((nsegs es).map (·.1)) = netE p es := by
  induction es with
  | nil => rfl
  | cons e es ih =>
    obtain ⟨a, ha⟩ : ∃ a, e.points.head? = some a := ⟨_, List.head?_eq_some_head (h e (by simp))⟩
    obtain ⟨c, hc⟩ : ∃ c, e.points.getLast? = some c := ⟨_, List.getLast?_eq_some_getLast (h e (by simp))⟩
    rw [nsegs_cons, List.map_append, net_append, ih fun e he => h e (by simp [he]), netE_cons ha hc, List.map_map]
    have : ((·.1) ∘ fun s => (s, e.regions)) = (id : Point × Point → Point × Point) := rfl
    rw [this, List.map_id, net_segs ha hc]

theorem netE_leads {es : List NormEdge} {a c : Point} (h : Leads a (npts es) c) (p : Point) :
    netE p es = unit (a = p) - unit (c = p) := by
  induction es generalizing a with
  | nil =>
    obtain rfl : a = c := h
    simp [netE]
  | cons e es ih =>
    obtain ⟨h1, b, h2, h3⟩ := h
    rw [netE_cons h1 h2, ih h3]
    omega

theorem net_closed {r : NormRing} (h : ClosedRing (npts r)) (p : Point) : net p ((nsegs r).map (·.1)) = 0 := by
  obtain ⟨_, a, ha⟩ := h
  rw [netE_segs (fun e he => leads_ne_nil ha _ (List.mem_map_of_mem he)), netE_leads ha]
  omega

theorem net_flatMap_closed {rings : List NormRing} (h : ∀ r ∈ rings, ClosedRing (npts r)) (p : Point) :
    net p ((rings.flatMap nsegs).map (·.1)) = 0 := by
  induction rings with
  | nil => rfl
  | cons r rings ih =>
    rw [List.flatMap_cons, List.map_append, net_append, net_closed (h r (by simp)), ih fun r hr => h r (by simp [hr])]
    rfl

/-! ## Following edges -/

theorem mem_of_netE_pos {p : Point} {map : MergeMap} (hf : Filed map) (h : 0 < netE p (mapEdges map)) :
    ∃ x ∈ map, x.1 = p := by
  unfold netE at h
  have h1 : 0 < (mapEdges map).countP (·.points.head? = some p) := by omega
  obtain ⟨e, he, hp⟩ := List.countP_pos_iff.mp h1
  obtain ⟨x, hx, rfl⟩ := List.mem_map.mp he
  have hp : x.2.points.head? = some p := by simpa using hp
  exact ⟨x, hx, Option.some.inj ((hf x hx).symm.trans hp)⟩

theorem follow_total {start current : Point} {fuel : Nat} {map : MergeMap} {edges : List NormEdge}
    (hf : Filed map) (hfuel : map.length < fuel) (hex : ∃ x ∈ map, x.1 = current)
    (hbal : ∀ p, netE p (mapEdges map) = unit (current = p) - unit (start = p)) :
    ∃ out, follow start fuel current map edges = .ok out := by
  induction fuel generalizing current map edges with
  | zero => omega
  | succ fuel ih =>
    simp only [follow]
    cases hr : map.remove current with
    | none =>
      obtain ⟨x, hx, hk⟩ := hex
      exact absurd hk (mergeMap_remove_none hr x hx)
    | some v =>
      obtain ⟨edge, m1⟩ := v
      have hperm := mergeMap_remove_some hr
      obtain ⟨hhead, hf1⟩ := filed_cons.mp ((filed_perm hperm).mp hf)
      have hpe : (mapEdges map).Perm (edge :: mapEdges m1) := hperm.map _
      have hl := hperm.length_eq
      simp only [List.length_cons] at hl
      have hne : edge.points ≠ [] := by
        intro h; rw [h] at hhead; cases hhead
      obtain ⟨c, hc⟩ : ∃ c, edge.points.getLast? = some c := ⟨_, List.getLast?_eq_some_getLast hne⟩
      simp only [hc]
      by_cases hs : c = start
      · exact ⟨_, if_pos hs⟩
      · rw [if_neg hs]
        have hbal' : ∀ p, netE p (mapEdges m1) = unit (c = p) - unit (start = p) := by
          intro p
          have h1 := hbal p
          rw [netE_perm hpe, netE_cons hhead hc] at h1
          omega
        refine ih hf1 (by omega) (mem_of_netE_pos hf1 ?_) hbal'
        rw [hbal' c]
        unfold unit
        rw [if_pos rfl, if_neg fun h => hs h.symm]
        decide

theorem mergeLoop_total {fuel : Nat} {map : MergeMap} {ret : List NormRing} (hf : Filed map)
    (hfuel : map.length ≤ fuel) (hbal : ∀ p, netE p (mapEdges map) = 0) : ∃ out, mergeLoop fuel map ret = .ok out := by
  induction fuel generalizing map ret with
  | zero =>
    cases map with
    | nil => exact ⟨_, rfl⟩
    | cons x rest => simp at hfuel
  | succ fuel ih =>
    cases map with
    | nil => exact ⟨_, rfl⟩
    | cons x rest =>
      obtain ⟨start, e0⟩ := x
      obtain ⟨⟨edges, m1⟩, h1⟩ := follow_total (start := start) (current := start)
        (fuel := ((start, e0) :: rest).length + 1) (edges := []) hf (by simp) ⟨(start, e0), by simp, rfl⟩ fun p => by
          rw [hbal p]; omega
      obtain ⟨new, g1, g2, g3, g4, g5⟩ := follow_ok hf h1
      rw [List.nil_append] at g1
      subst g1
      have hcl : ClosedRing (npts edges) := ⟨by simpa [npts] using g2, start, g3⟩
      obtain ⟨j, hj, j1, _⟩ := joinRelatedEdges_closed hcl
      obtain ⟨r, hr, _⟩ := rotateEdges_ok j1
      have hlen : m1.length ≤ fuel := by
        have := g5.length_eq
        simp only [mapEdges, List.length_map, List.length_append, List.length_cons] at this hfuel
        have h2 : edges.length ≠ 0 := by simpa using g2
        omega
      obtain ⟨out, ho⟩ := ih (ret := ret ++ [r]) g4 hlen fun p => by
        have := hbal p
        rw [netE_perm g5, netE_append, netE_leads g3] at this
        omega
      refine ⟨out, ?_⟩
      simp only [mergeLoop, h1, ok_bind, hj, hr]
      exact ho

/-! ## Filing edges -/

theorem indexEdges_total {map : MergeMap} {es : List NormEdge} (hf : Filed map) (hne : ∀ e ∈ es, e.points ≠ [])
    (hn : ((mapEdges map ++ es).map (·.points.head?)).Nodup) : ∃ map', indexEdges map es = .ok map' := by
  induction es generalizing map with
  | nil => exact ⟨_, rfl⟩
  | cons e es ih =>
    obtain ⟨a, ha⟩ : ∃ a, e.points.head? = some a := ⟨_, List.head?_eq_some_head (hne e (by simp))⟩
    simp only [indexEdges, ha]
    cases h1 : map.insert a e with
    | error err =>
      obtain ⟨_, f, hfm⟩ := mergeMap_insert_error h1
      exfalso
      rw [List.map_append, List.nodup_append] at hn
      refine hn.2.2 (some a) (List.mem_map.mpr ⟨f, List.mem_map.mpr ⟨_, hfm, rfl⟩, hf _ hfm⟩) (some a) ?_ rfl
      exact List.mem_map.mpr ⟨e, by simp, ha⟩
    | ok m1 =>
      rw [ok_bind]
      have hperm := mergeMap_insert_ok h1
      have hm : (mapEdges m1).Perm (e :: mapEdges map) := hperm.map _
      refine ih ((filed_perm hperm).mpr (filed_cons.mpr ⟨ha, hf⟩)) (fun e he => hne e (by simp [he])) ?_
      refine (List.Perm.nodup_iff (List.Perm.map _ ?_)).mpr hn
      exact (hm.append_right es).trans List.perm_middle.symm

theorem splitRings_total {ret : List NormRing} {map : MergeMap} {rings : List NormRing} (hf : Filed map)
    (hne : ∀ r ∈ rings, ∀ e ∈ r, e.points ≠ [])
    (hn : ((mapEdges map ++ looseEdges rings).map (·.points.head?)).Nodup) :
    ∃ out, splitRings ret map rings = .ok out := by
  induction rings generalizing ret map with
  | nil => exact ⟨_, rfl⟩
  | cons ring rest ih =>
    have hne' : ∀ r ∈ rest, ∀ e ∈ r, e.points ≠ [] := fun r hr => hne r (by simp [hr])
    simp only [splitRings]
    by_cases hr : (ring.filter (fun e => e.isRedundant)).length = 0
    · rw [if_pos hr]
      rw [redundant_length] at hr
      rw [looseEdges_cons_plain hr] at hn
      exact ih hf hne' hn
    · rw [if_neg hr]
      rw [redundant_length] at hr
      simp only [Bool.not_eq_true] at hr
      rw [looseEdges_cons_loose hr] at hn
      by_cases hu : (ring.filter (fun e => !e.isRedundant)).length = 0
      · rw [if_pos hu]
        have : ring.filter (fun e => !e.isRedundant) = [] := List.length_eq_zero_iff.mp hu
        rw [this, List.nil_append] at hn
        exact ih hf hne' hn
      · rw [if_neg hu]
        rw [← List.append_assoc] at hn
        obtain ⟨m1, h1⟩ := indexEdges_total hf (es := ring.filter (fun e => !e.isRedundant))
          (fun e he => hne ring (by simp) e (List.mem_of_mem_filter he))
          (hn.sublist ((List.sublist_append_left _ _).map _))
        obtain ⟨g1, g2⟩ := indexEdges_ok hf h1
        rw [h1, ok_bind]
        refine ih g1 hne' ((List.Perm.nodup_iff (List.Perm.map _ ?_)).mpr hn)
        exact g2.append_right _

/-- Edges of some length whose segments start at different points start at
different points. -/
theorem heads_nodup {es : List NormEdge} (hx : Extended es) (hn : ((nsegs es).map (·.1.1)).Nodup) :
    (es.map (·.points.head?)).Nodup := by
  have hsub : (es.map (·.points.head?)).Sublist (((nsegs es).map (·.1.1)).map some) := by
    clear hn
    induction es with
    | nil => exact List.Sublist.refl _
    | cons e es ih =>
      have hz := hx e (by simp)
      rw [nsegs_cons, List.map_append, List.map_append, List.map_cons]
      have h1 : [e.points.head?].Sublist ((((segs e.points).map fun s => (s, e.regions)).map (·.1.1)).map some) := by
        rw [List.singleton_sublist]
        match hp : e.points with
        | [] => exact absurd (Or.inl (by simp [hp])) hz
        | [p] => exact absurd (Or.inl (by simp [hp])) hz
        | p :: q :: l => simp [segs]
      exact h1.append (ih fun e he => hx e (by simp [he]))
  refine List.Nodup.sublist hsub (hn.map ?_)
  exact Option.some_injective _

theorem joinAdjacentRings_total {rings : List NormRing} (hc : ∀ r ∈ rings, ClosedRing (npts r))
    (hx : ∀ r ∈ rings, Extended r) (hn : ((rings.flatMap fun r => (nsegs r).filter keepSeg).map (·.1.1)).Nodup)
    (hb : ∀ p, net p ((rings.flatMap fun r => (nsegs r).filter keepSeg).map (·.1)) = 0) :
    ∃ out, joinAdjacentRings rings = .ok out := by
  have hperm := plain_loose_segs rings
  have hne : ∀ r ∈ rings, ∀ e ∈ r, e.points ≠ [] := by
    intro r hr e he
    obtain ⟨a, ha⟩ := (hc r hr).2
    exact leads_ne_nil ha _ (List.mem_map_of_mem he)
  have hxl : Extended (looseEdges rings) := by
    intro e he
    unfold looseEdges at he
    obtain ⟨n, hn, he⟩ := List.mem_flatMap.mp he
    split at he
    · simp at he
    · exact hx n hn e (List.mem_of_mem_filter he)
  have hnl : ((nsegs (looseEdges rings)).map (·.1.1)).Nodup := by
    refine List.Nodup.sublist ?_ (((hperm.map (·.1.1)).nodup_iff).mpr hn)
    rw [List.map_append]
    exact List.sublist_append_right _ _
  obtain ⟨⟨ret, map⟩, h1⟩ := splitRings_total (ret := []) (map := []) (rings := rings) (by simp [Filed]) hne
    (heads_nodup hxl hnl)
  obtain ⟨g1, g2, g3⟩ := splitRings_ok (by simp [Filed]) h1
  rw [List.nil_append] at g1
  replace g3 : (mapEdges map).Perm (looseEdges rings) := g3
  subst g1
  rw [joinAdjacentRings, h1, ok_bind]
  simp only
  split
  · exact ⟨_, rfl⟩
  · have hbal : ∀ p, netE p (mapEdges map) = 0 := by
      intro p
      rw [netE_perm g3, ← netE_segs (fun e he hnil => hxl e he (Or.inl (by simp [hnil])))]
      have h := hb p
      rw [← net_perm (hperm.map (·.1)), List.map_append, net_append,
        net_flatMap_closed (rings := plainRings rings) fun r hr => hc r (List.mem_of_mem_filter hr)] at h
      omega
    obtain ⟨ret', h2⟩ := mergeLoop_total (ret := plainRings rings) g2 (Nat.le_refl _) hbal
    obtain ⟨merged, k1, k2, _⟩ := mergeLoop_ok g2 h2
    obtain ⟨out, ho⟩ := sortRings_total (rings := ret') (by
      intro r hr
      rw [k1] at hr
      rcases List.mem_append.mp hr with hr | hr
      · exact hc r (List.mem_of_mem_filter hr)
      · exact (k2 r hr).closed)
    exact ⟨out, by rw [h2, ok_bind, ho]⟩

/-! ## The two parts of rings -/

theorem sidedSegs_self (bs : List Bound) :
    sidedSegs (bs.filter fun b => !b.separates) = (sidedSegs bs).filter fun s => !keepSeg s := by
  induction bs with
  | nil => rfl
  | cons b bs ih =>
    have hc : ∀ (b : Bound) (bs : List Bound), sidedSegs (b :: bs) = ((segs b.path).map fun s => (s, b.sides)) ++ sidedSegs bs := by
      intro b bs; simp [sidedSegs]
    rw [hc, List.filter_append, ← ih, List.filter_cons]
    unfold Bound.separates
    by_cases h : b.sides.1 = b.sides.2
    · rw [if_pos (by simp [h]), hc]
      congr 1
      symm
      rw [List.filter_eq_self]
      intro x hx
      obtain ⟨s, _, rfl⟩ := List.mem_map.mp hx
      simp [keepSeg, h]
    · rw [if_neg (by simp [h])]
      have : ((segs b.path).map fun s => (s, b.sides)).filter (fun s => !keepSeg s) = [] := by
        rw [List.filter_eq_nil_iff]
        intro x hx
        obtain ⟨s, _, rfl⟩ := List.mem_map.mp hx
        simp [keepSeg, h]
      rw [this, List.nil_append]

/-- What remains of closed rings is balanced exactly if what is removed is. -/
theorem net_parts {δ : Type} {t : Topology δ} {order : WindingOrder} {rings : List TopoRing} {ns : List NormRing}
    (h : List.Forall₂ (NormalizedRing t order) rings ns) (p : Point) :
    net p ((boundary t order rings).map (·.1)) + net p (selfSegs t order rings) = 0 := by
  rw [← net_flatMap_closed (rings := ns) (p := p) fun n hn => by
    obtain ⟨_, _, hx⟩ := forall₂_exists_left h hn
    exact hx.nice.closed]
  unfold boundary selfSegs
  induction h with
  | nil => rfl
  | @cons ring n rings ns h1 _ ih =>
    simp only [List.flatMap_cons, List.map_append, net_append] at ih ⊢
    rw [← ih, sidedSegs_filter, sidedSegs_self, net_perm (h1.segs.perm.map (·.1))]
    have hp := (List.filter_append_perm keepSeg (sidedSegs (wound t order ring))).map (·.1)
    rw [← net_perm hp, List.map_append, net_append]
    omega

theorem boundary_perm {δ : Type} {t : Topology δ} {order : WindingOrder} {rings : List TopoRing} {ns : List NormRing}
    (h : List.Forall₂ (NormalizedRing t order) rings ns) :
    (ns.flatMap fun r => (nsegs r).filter keepSeg).Perm (boundary t order rings) := by
  unfold boundary
  induction h with
  | nil => exact List.Perm.refl _
  | cons h1 _ ih =>
    rw [List.flatMap_cons, List.flatMap_cons, sidedSegs_filter]
    exact (h1.segs.perm.filter _).append ih

end TopoGeo
