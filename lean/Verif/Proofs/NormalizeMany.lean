import Verif.Proofs.NormalizeOnce
import Verif.Proofs.AreaRings
import Verif.Proofs.Canonical
import Verif.Spec.NormalizeMany
/-!
# How many edges the rings pass before and after normalizing
-/

namespace TopoGeo

open Spec

theorem joinLoop_count {es ret out : List NormEdge} (h : joinLoop ret es = .ok out) :
    out.length ≤ ret.length + es.length ∧ (out.length = ret.length + es.length → out = ret ++ es) ∧
      ∀ e ∈ ret ++ es, ∃ o ∈ out, o.regions = e.regions := by
  induction es generalizing ret with
  | nil =>
    obtain rfl := Except.ok.inj h
    exact ⟨by simp, by simp, fun e he => ⟨e, by simpa using he, rfl⟩⟩
  | cons e es ih =>
    simp only [joinLoop, bind_ok] at h
    obtain ⟨ret', h1, h⟩ := h
    obtain ⟨i1, i2, i3⟩ := ih h
    have hplain : ret' = ret ++ [e] → out.length ≤ ret.length + (e :: es).length ∧
        (out.length = ret.length + (e :: es).length → out = ret ++ e :: es) ∧
        ∀ x ∈ ret ++ e :: es, ∃ o ∈ out, o.regions = x.regions := by
      rintro rfl
      simp only [List.length_append, List.length_cons, List.length_nil, List.append_assoc, List.cons_append,
        List.nil_append] at i1 i2 i3 ⊢
      exact ⟨by omega, fun hl => i2 (by omega), i3⟩
    unfold joinStep at h1
    split at h1
    · rename_i last hlast
      split at h1
      · rename_i hreg
        rw [bind_ok] at h1
        obtain ⟨t, _, h1⟩ := h1
        obtain rfl := Except.ok.inj h1
        obtain ⟨init, rfl⟩ := List.getLast?_eq_some_iff.mp hlast
        rw [List.dropLast_concat] at i1 i2 i3
        simp only [List.length_append, List.length_cons, List.length_nil] at i1 ⊢
        refine ⟨by omega, fun hl => by omega, ?_⟩
        intro x hx
        simp only [List.append_assoc, List.cons_append, List.nil_append, List.mem_append, List.mem_cons] at hx i3
        rcases hx with hx | rfl | rfl | hx
        · exact i3 x (Or.inl hx)
        · obtain ⟨o, ho, hr⟩ := i3 { x with points := x.points ++ t } (Or.inr (Or.inl rfl))
          exact ⟨o, ho, hr⟩
        · obtain ⟨o, ho, hr⟩ := i3 { last with points := last.points ++ t } (Or.inr (Or.inl rfl))
          exact ⟨o, ho, hr.trans hreg⟩
        · exact i3 x (Or.inr (Or.inr hx))
      · exact hplain (Except.ok.inj h1).symm
    · exact hplain (Except.ok.inj h1).symm

theorem joinRelatedEdges_count {es out : List NormEdge} (h : joinRelatedEdges es = .ok out) :
    out.length ≤ es.length ∧ (out.length = es.length → out = es) ∧ ∀ e ∈ es, ∃ o ∈ out, o.regions = e.regions := by
  simp only [joinRelatedEdges, bind_ok] at h
  obtain ⟨ret, h1, h⟩ := h
  obtain ⟨i1, i2, i3⟩ := joinLoop_count h1
  simp only [List.length_nil, Nat.zero_add, List.nil_append] at i1 i2 i3
  unfold joinWrap at h
  split at h
  · rename_i first second rest
    simp only at h
    split at h
    · rename_i hreg
      rw [bind_ok] at h
      obtain ⟨t, _, h⟩ := h
      obtain rfl := Except.ok.inj h
      simp only [List.length_cons, List.length_dropLast] at i1 ⊢
      refine ⟨by omega, fun hl => by omega, ?_⟩
      intro e he
      obtain ⟨o, ho, hr⟩ := i3 e he
      rcases List.mem_cons.mp ho with rfl | ho
      · exact ⟨_, List.mem_cons_self, hr⟩
      · rw [← List.dropLast_append_getLast (l := second :: rest) (by simp)] at ho
        rcases List.mem_append.mp ho with ho | ho
        · exact ⟨o, List.mem_cons_of_mem _ ho, hr⟩
        · obtain rfl := List.mem_singleton.mp ho
          exact ⟨_, List.mem_cons_self, hreg.trans hr⟩
    · obtain rfl := Except.ok.inj h; exact ⟨i1, i2, i3⟩
  · obtain rfl := Except.ok.inj h; exact ⟨i1, i2, i3⟩

theorem windEdges_sides {m : Build} {order : WindingOrder} {es out : List NormEdge} (h : windEdges m es order = .ok out) :
    (nsides out).Perm (nsides es) := by
  simp only [windEdges, bind_ok] at h
  obtain ⟨w, _, h⟩ := h
  split at h
  · obtain rfl := Except.ok.inj h; exact List.Perm.refl _
  · obtain rfl := Except.ok.inj h
    unfold nsides
    rw [List.map_reverse, List.map_map]
    exact List.reverse_perm _

theorem rotateEdges_sides {es out : List NormEdge} (h : rotateEdges es = .ok out) : (nsides out).Perm (nsides es) := by
  match es, h with
  | [], h =>
    obtain rfl := Except.ok.inj (show Except.ok [] = Except.ok out from h)
    exact List.Perm.refl _
  | [f], h =>
    simp only [rotateEdges, bind_ok] at h
    obtain ⟨e, he, h⟩ := h
    obtain rfl := Except.ok.inj h
    unfold rotateIslandEdge at he
    split at he
    · obtain rfl := Except.ok.inj he; exact List.Perm.refl _
    · obtain rfl := Except.ok.inj he; exact List.Perm.refl _
    · split at he
      · obtain rfl := Except.ok.inj he; exact List.Perm.refl _
      · cases he
  | f :: g :: l, h =>
    rcases rotateEdges_perm h with ⟨h1, _⟩ | h1
    · simp at h1
    · exact h1.map _

/-- The edges of a ring that separate different regions are not more than the
edges it had; and fewer, if an edge did not, or if neighbouring edges separated
the same regions. -/
theorem normalizeRing_count {δ : Type} {m : Build} {t : Topology δ} (hb : BackPointersExact t) (hc : RingsClosed t)
    {order : WindingOrder} {ring : TopoRing} (hr : ring ∈ allRings t) {out : NormRing}
    (h : normalizeRing m t order ring = .ok out) :
    (out.filter fun e => !e.isRedundant).length ≤ ring.directedEdges.length ∧
    ((out.filter fun e => !e.isRedundant).length = ring.directedEdges.length → NoSelfEdges t [ring] ∧
      CyclicallyDistinct (ring.directedEdges.map fun de => sides t de.edge)) := by
  have hclosed := closed_pathsOf hc hr
  rw [← npts_nedges] at hclosed
  obtain ⟨j, hj, j1, j2, j3, j4⟩ := joinRelatedEdges_closed hclosed
  rw [normalizeRing, withDirectedEdges_eq hb (mem_allDirectedEdges_of_ring hr), ok_bind,
    show ring.directedEdges.map (nedge t) = nedges t ring from rfl, hj, ok_bind, bind_ok] at h
  obtain ⟨w, hw, h⟩ := h
  obtain ⟨c1, c2, c3⟩ := joinRelatedEdges_count hj
  have hp : (nsides out).Perm (nsides j) := (rotateEdges_sides h).trans (windEdges_sides hw)
  have hlen : out.length = j.length := by simpa [nsides] using hp.length_eq
  have hn : (nedges t ring).length = ring.directedEdges.length := by simp [nedges]
  have hf := List.length_filter_le (fun e : NormEdge => !e.isRedundant) out
  refine ⟨by omega, ?_⟩
  intro heq
  have hj2 := c2 (by omega)
  subst hj2
  refine ⟨?_, ?_⟩
  · intro x hx de hde
    obtain rfl := List.mem_singleton.mp hx
    have hall := List.length_filter_eq_length_iff.mp (show (out.filter fun e => !e.isRedundant).length = out.length by omega)
    have : sides t de.edge ∈ nsides out := hp.mem_iff.mpr (by
      rw [nsides, nedges, List.map_map]
      exact List.mem_map.mpr ⟨de, hde, rfl⟩)
    obtain ⟨e, he, hes⟩ := List.mem_map.mp this
    have := hall e he
    rw [← hes]
    simpa [NormEdge.isRedundant] using this
  · have : nsides (nedges t ring) = ring.directedEdges.map fun de => sides t de.edge := by
      rw [nsides, nedges, List.map_map]; rfl
    rwa [this] at j3

/-- How many edges some rings have. -/
def normEdgeCount (rings : List NormRing) : Nat := (rings.map List.length).sum

theorem normEdgeCount_append (a b : List NormRing) : normEdgeCount (a ++ b) = normEdgeCount a + normEdgeCount b := by
  simp [normEdgeCount]

theorem normEdgeCount_perm {a b : List NormRing} (h : a.Perm b) : normEdgeCount a = normEdgeCount b :=
  (h.map _).sum_nat

theorem mergeLoop_edgeCount {fuel : Nat} {map : MergeMap} {ret out : List NormRing} (hf : Filed map)
    (h : mergeLoop fuel map ret = .ok out) : normEdgeCount out ≤ normEdgeCount ret + map.length := by
  induction fuel generalizing map ret with
  | zero =>
    cases map with
    | nil => obtain rfl := Except.ok.inj (show Except.ok ret = Except.ok out from h); simp
    | cons x rest => cases h
  | succ fuel ih =>
    cases map with
    | nil => obtain rfl := Except.ok.inj (show Except.ok ret = Except.ok out from h); simp
    | cons x rest =>
      obtain ⟨start, e⟩ := x
      simp only [mergeLoop, bind_ok] at h
      obtain ⟨⟨edges, map'⟩, h1, joined, h2, rotated, h3, h⟩ := h
      obtain ⟨new, rfl, _, _, hf', hp⟩ := follow_ok hf h1
      have hl := hp.length_eq
      simp only [mapEdges, List.length_map, List.length_append, List.length_cons] at hl
      have c1 := (joinRelatedEdges_count h2).1
      have c2 := (rotateEdges_sides h3).length_eq
      simp only [nsides, List.length_map] at c2
      have := ih hf' h
      rw [normEdgeCount_append] at this
      simp only [normEdgeCount, List.map_cons, List.map_nil, List.sum_cons, List.sum_nil, List.length_cons] at this c1 ⊢
      omega

theorem plain_loose_count (rings : List NormRing) : normEdgeCount (plainRings rings) + (looseEdges rings).length =
    (rings.map fun r => (r.filter fun e => !e.isRedundant).length).sum := by
  induction rings with
  | nil => rfl
  | cons r rest ih =>
    unfold plainRings looseEdges at ih ⊢
    rw [List.filter_cons, List.flatMap_cons]
    by_cases hr : (r.all fun e => !e.isRedundant) = true
    · have : (r.filter fun e => !e.isRedundant) = r := List.filter_eq_self.mpr (List.all_eq_true.mp hr)
      rw [if_pos hr, if_pos hr, List.map_cons, List.sum_cons, this, ← ih]
      simp [normEdgeCount]
      omega
    · rw [if_neg hr, if_neg hr, List.map_cons, List.sum_cons, ← ih]
      simp
      omega

theorem joinAdjacentRings_count {rings out : List NormRing} (h : joinAdjacentRings rings = .ok out) :
    normEdgeCount out ≤ (rings.map fun r => (r.filter fun e => !e.isRedundant).length).sum := by
  simp only [joinAdjacentRings, bind_ok] at h
  obtain ⟨⟨ret, map⟩, h1, h⟩ := h
  obtain ⟨g1, g2, g3⟩ := splitRings_ok (by simp [Filed]) h1
  rw [List.nil_append] at g1
  have hl := g3.length_eq
  simp only [mapEdges, List.length_map, List.map_nil, List.nil_append] at hl
  rw [← plain_loose_count, ← g1]
  simp only at h
  split at h
  · obtain rfl := Except.ok.inj h; omega
  · rw [bind_ok] at h
    obtain ⟨ret', h2, h⟩ := h
    have := mergeLoop_edgeCount g2 h2
    rw [normEdgeCount_perm (sortRings_ok h).1]
    omega

/-- How many edges some rings pass. -/
def countDirected (rings : List TopoRing) : Nat := (rings.map fun ring => ring.directedEdges.length).sum

/-- The rules on the sides of edges. -/
def Fewest {δ : Type} (t : Topology δ) (rings : List TopoRing) : Prop :=
  NoSelfEdges t rings ∧ ∀ ring ∈ rings, CyclicallyDistinct (ring.directedEdges.map fun de => sides t de.edge)

theorem fewest_append {δ : Type} {t : Topology δ} {a b : List TopoRing} (h1 : Fewest t a) (h2 : Fewest t b) :
    Fewest t (a ++ b) := by
  refine ⟨fun ring hr => ?_, fun ring hr => ?_⟩
  · rcases List.mem_append.mp hr with hr | hr
    · exact h1.1 ring hr
    · exact h2.1 ring hr
  · rcases List.mem_append.mp hr with hr | hr
    · exact h1.2 ring hr
    · exact h2.2 ring hr

theorem normalizeRegionNormRings_count {δ : Type} {m : Build} {t : Topology δ} (hb : BackPointersExact t)
    (hc : RingsClosed t) {order : WindingOrder} {rings : List TopoRing} (hr : ∀ ring ∈ rings, ring ∈ allRings t)
    {out : List NormRing} (h : normalizeRegionNormRings m t rings order = .ok out) :
    normEdgeCount out ≤ countDirected rings ∧ (normEdgeCount out = countDirected rings → Fewest t rings) := by
  simp only [normalizeRegionNormRings, bind_ok] at h
  obtain ⟨ns, h1, joined, h2, h⟩ := h
  have hj := joinAdjacentRings_count h2
  rw [normEdgeCount_perm (sortRings_ok h).1]
  suffices hs : (ns.map fun r => (r.filter fun e => !e.isRedundant).length).sum ≤ countDirected rings ∧
      ((ns.map fun r => (r.filter fun e => !e.isRedundant).length).sum = countDirected rings → Fewest t rings) from
    ⟨by omega, fun heq => hs.2 (by omega)⟩
  clear h2 h hj
  induction rings generalizing ns with
  | nil =>
    obtain rfl := Except.ok.inj h1
    exact ⟨by simp [countDirected], fun _ => ⟨fun _ h => by simp at h, fun _ h => by simp at h⟩⟩
  | cons r rest ih =>
    simp only [normalizeRings, bind_ok] at h1
    obtain ⟨n, h1, ns, h2, h⟩ := h1
    obtain rfl := Except.ok.inj h
    obtain ⟨i1, i2⟩ := ih (fun ring h => hr ring (List.mem_cons_of_mem _ h)) _ h2
    obtain ⟨c1, c2⟩ := normalizeRing_count hb hc (hr r (by simp)) h1
    unfold countDirected at i1 i2 ⊢
    simp only [List.map_cons, List.sum_cons]
    refine ⟨by omega, fun heq => ?_⟩
    obtain ⟨d1, d2⟩ := c2 (by omega)
    exact fewest_append (a := [r]) ⟨d1, fun x hx => by obtain rfl := List.mem_singleton.mp hx; exact d2⟩ (i2 (by omega))

theorem countPaths_le (rings : List NormRing) : (((keptRings (rings.map normRingToRing)).map ringPaths).map List.length).sum ≤
    normEdgeCount rings := by
  unfold normEdgeCount
  induction rings with
  | nil => exact Nat.le_refl _
  | cons r rest ih =>
    have hle : (ringPaths (normRingToRing r)).length ≤ r.length := by
      unfold ringPaths normRingToRing
      refine (List.length_filter_le _ _).trans ?_
      simp
    unfold keptRings at ih ⊢
    rw [List.map_cons, List.filter_cons]
    split
    · simp only [List.map_cons, List.sum_cons] at ih ⊢
      omega
    · simp only [List.map_cons, List.sum_cons]
      omega

theorem countDirected_reads {δ : Type} {t : Topology δ} {ps : List (List (List Point))} {rings : List TopoRing}
    (h : List.Forall₂ (ReadsAs t.edges) ps rings) : countDirected rings = (ps.map List.length).sum := by
  rw [← pathsOf_forall₂ h, List.map_map]
  unfold countDirected
  congr 1
  exact List.map_congr_left fun ring _ => by simp [pathsOf]

/-- How many edges the rings of a region pass. -/
def regionCount {δ : Type} (r : TopoRegion δ) : Nat := countDirected r.outerRings + countDirected r.innerRings

theorem directed_count {δ : Type} (t : Topology δ) : (allDirectedEdges t).length = (t.regions.map regionCount).sum := by
  unfold allDirectedEdges allRings
  rw [List.flatMap_assoc, List.length_flatMap]
  congr 1
  refine List.map_congr_left fun r _ => ?_
  simp [regionCount, countDirected, List.length_flatMap]

/-- Normalizing leaves no more edges to pass, and fewer unless the sides of the
edges already follow the rules. -/
theorem normalize_count {δ : Type} {m : Build} {t t' : Topology δ} (hw : WellFormed t) (h : normalize m t = .ok t') :
    (allDirectedEdges t').length ≤ (allDirectedEdges t).length ∧
    ((allDirectedEdges t').length = (allDirectedEdges t).length → Fewest t (allRings t)) := by
  obtain ⟨rs, h1, h2⟩ := normalize_ok.mp h
  have h7 := C07_round_trip m rs t' h2
  -- the built topology against the regions it is built of
  have hsum : (t'.regions.map regionCount).sum ≤ (rs.map fun r =>
      (((keptRings r.outerRings).map ringPaths).map List.length).sum +
      (((keptRings r.innerRings).map ringPaths).map List.length).sum).sum := by
    have hk : t'.regions.map regionCount = (keptRegions rs).map fun k =>
        (k.outer.map List.length).sum + (k.inner.map List.length).sum := by
      clear h1 h2 h
      generalize keptRegions rs = ks at h7
      generalize t'.regions = regs at h7
      induction h7 with
      | nil => rfl
      | cons hx _ ih => rw [List.map_cons, List.map_cons, ih, regionCount, countDirected_reads hx.2.1, countDirected_reads hx.2.2]
    rw [hk, keptRegions, List.map_map]
    exact sum_sublist_le _ List.filter_sublist
  rw [directed_count, directed_count]
  suffices hs : ∀ regs : List (TopoRegion δ), (∀ r ∈ regs, r ∈ t.regions) →
      List.Forall₂ (fun r r' => normalizeRegion m t r = .ok r') regs rs →
      (rs.map fun r => (((keptRings r.outerRings).map ringPaths).map List.length).sum +
        (((keptRings r.innerRings).map ringPaths).map List.length).sum).sum ≤ (regs.map regionCount).sum ∧
      ((rs.map fun r => (((keptRings r.outerRings).map ringPaths).map List.length).sum +
        (((keptRings r.innerRings).map ringPaths).map List.length).sum).sum = (regs.map regionCount).sum →
        Fewest t (regs.flatMap fun r => r.outerRings ++ r.innerRings)) by
    obtain ⟨s1, s2⟩ := hs t.regions (fun r h => h) h1
    exact ⟨by omega, fun heq => s2 (by omega)⟩
  clear hsum h7 h2 h h1 t'
  intro regs hregs h1
  induction h1 with
  | nil => exact ⟨by simp, fun _ => ⟨fun _ h => by simp at h, fun _ h => by simp at h⟩⟩
  | @cons r x regs rs hx _ ih =>
    obtain ⟨i1, i2⟩ := ih fun r h => hregs r (List.mem_cons_of_mem _ h)
    have hr := hregs r (by simp)
    simp only [normalizeRegion, bind_ok] at hx
    obtain ⟨o, h3, i, h4, hx⟩ := hx
    obtain rfl := Except.ok.inj hx
    obtain ⟨outer, h5, rfl⟩ := normalizeRegionRings_ok h3
    obtain ⟨inner, h6, rfl⟩ := normalizeRegionRings_ok h4
    obtain ⟨a1, a2⟩ := normalizeRegionNormRings_count hw.pointers hw.closed (mem_allRings_outer hr) h5
    obtain ⟨b1, b2⟩ := normalizeRegionNormRings_count hw.pointers hw.closed (mem_allRings_inner hr) h6
    have p1 := countPaths_le outer
    have p2 := countPaths_le inner
    simp only [List.map_cons, List.sum_cons, List.flatMap_cons]
    rw [regionCount] at *
    refine ⟨by omega, fun heq => ?_⟩
    exact fewest_append (fewest_append (a2 (by omega)) (b2 (by omega))) (i2 (by omega))

/-! ## The segments -/

/-- A segment, from its smaller end. -/
def upward (s : Point × Point) : Point × Point := if s.2 < s.1 then s.swap else s

theorem upward_eq {s u : Point × Point} : upward s = upward u ↔ s = u ∨ s = u.swap := by
  obtain ⟨a, b⟩ := s
  obtain ⟨c, d⟩ := u
  unfold upward
  simp only [Prod.swap_prod_mk]
  constructor
  · intro h
    split at h <;> split at h <;> simp_all
  · rintro (h | h)
    · rw [Prod.mk.injEq] at h
      obtain ⟨rfl, rfl⟩ := h
      rfl
    · rw [Prod.mk.injEq] at h
      obtain ⟨rfl, rfl⟩ := h
      by_cases h1 : a < b
      · rw [if_neg (Point.lt_asymm h1), if_pos h1]
      · by_cases h2 : b < a
        · rw [if_pos h2, if_neg h1]
        · have := Point.eq_of_not_lt h1 h2
          subst this
          rfl

theorem crossSize_upward (l : List (Point × Point)) :
    (l.map fun s => (cross s.1 s.2).natAbs).sum = ((l.map upward).map fun s => (cross s.1 s.2).natAbs).sum := by
  rw [List.map_map]
  congr 1
  refine List.map_congr_left fun s _ => ?_
  simp only [Function.comp, upward]
  split
  · rw [Prod.fst_swap, Prod.snd_swap, cross_swap, Int.natAbs_neg]
  · rfl

theorem sum_of_counts {l k : List (Point × Point)}
    (h : ∀ p q, l.countP (fun s => s = (p, q) ∨ s = (q, p)) ≤ k.countP (fun s => s = (p, q) ∨ s = (q, p))) :
    (l.map fun s => (cross s.1 s.2).natAbs).sum ≤ (k.map fun s => (cross s.1 s.2).natAbs).sum := by
  rw [crossSize_upward, crossSize_upward k]
  have hcount : ∀ (l : List (Point × Point)) (u : Point × Point), (l.map upward).count (upward u) =
      l.countP fun s => s = (u.1, u.2) ∨ s = (u.2, u.1) := by
    intro l u
    rw [List.count, List.countP_map]
    congr 1
    funext s
    simp only [Function.comp, beq_eq_decide, upward_eq]
    congr 1
  have hs : (l.map upward).Subperm (k.map upward) := by
    rw [List.subperm_ext_iff]
    intro x hx
    obtain ⟨u, _, rfl⟩ := List.mem_map.mp hx
    rw [hcount, hcount]
    exact h u.1 u.2
  obtain ⟨j, hj, hsub⟩ := hs
  rw [← (hj.map _).sum_nat]
  exact sum_sublist_le _ hsub

theorem crossSize_le {δ : Type} {m : Build} {t t' : Topology δ} (hw : WellFormed t) (h : normalize m t = .ok t') :
    crossSize t' ≤ crossSize t := sum_of_counts (passes_le hw h)

theorem natAbs_cross_sum_le (l : List (Point × Point)) :
    ((l.map fun s => cross s.1 s.2).sum).natAbs ≤ (l.map fun s => (cross s.1 s.2).natAbs).sum := by
  induction l with
  | nil => simp
  | cons s l ih =>
    simp only [List.map_cons, List.sum_cons]
    have := Int.natAbs_add_le (cross s.1 s.2) (l.map fun s => cross s.1 s.2).sum
    omega

theorem areasBounded_of_size {δ : Type} {t : Topology δ} (h : crossSize t < 2 ^ 63) : AreasBounded t := by
  intro ring hr
  have h1 : (shoelaceEdges (pathsOf t ring)).natAbs ≤ crossSize t := by
    rw [shoelaceEdges_eq_sum]
    refine Nat.le_trans (natAbs_cross_sum_le _) ?_
    unfold crossSize
    obtain ⟨l1, l2, hl⟩ := List.append_of_mem hr
    rw [hl, List.flatMap_append, List.flatMap_cons, List.map_append, List.map_append, List.sum_append, List.sum_append]
    omega
  have h2 : InI64 (shoelaceEdges (pathsOf t ring)) := by unfold InI64; omega
  rw [wrap64_of_inI64 h2]
  omega

end TopoGeo
