import Verif.Proofs.OrderNormalize
import Verif.Props.Simplify
/-!
# C107: the order in which regions are given does not matter
-/

namespace TopoGeo

open Spec

variable {δ : Type} {m : Build}

/-! ## The other direction -/

theorem Spec.Renumbered.symm {f g : Nat → Nat} {t u : Topology δ} (h : Renumbered f g t u) (ht : BackPointersExact t)
    (hu : BackPointersExact u) : ∃ f' g', Renumbered f' g' u t := by
  have inverse : ∀ {n : Nat} {f : Nat → Nat}, Reorders n f → ∃ f', Reorders n f' ∧ (∀ i < n, f' (f i) = i) ∧ ∀ k < n, f (f' k) = k := by
    intro n f hf
    have hc : ∀ k, ∃ i, k < n → i < n ∧ f i = k := by
      intro k
      by_cases hk : k < n
      · obtain ⟨i, hi⟩ := hf.surj hk
        exact ⟨i, fun _ => hi⟩
      · exact ⟨0, fun h => absurd h hk⟩
    choose f' hf' using hc
    refine ⟨f', ⟨fun k hk => (hf' k hk).1, fun a ha b hb hab => ?_⟩, fun i hi => ?_, fun k hk => (hf' k hk).2⟩
    · rw [← (hf' a ha).2, ← (hf' b hb).2, hab]
    · exact hf.inj _ (hf' _ (hf.lt i hi)).1 _ hi (hf' _ (hf.lt i hi)).2
  obtain ⟨f', hf', hff, hff'⟩ := inverse h.reorders_edges
  obtain ⟨g', hg', hgg, hgg'⟩ := inverse h.reorders_regions
  refine ⟨f', g', renumbered_of hu ht h.edges.symm h.regions.symm (by rw [h.edges]; exact hf') (by rw [h.regions]; exact hg') ?_ ?_⟩
  · intro k e he
    have hk := (List.getElem?_eq_some_iff.mp he).1
    rw [h.edges] at hk
    have hi := hf'.lt k hk
    obtain ⟨e0, he0⟩ : ∃ e0, t.edges[f' k]? = some e0 := ⟨t.edges[f' k], List.getElem?_eq_getElem hi⟩
    obtain ⟨e', h1, h2, _⟩ := h.edge _ _ he0
    rw [hff' k hk, he] at h1
    exact ⟨e0, he0, by rw [Option.some.inj h1, h2]⟩
  · intro k r hr
    have hk := (List.getElem?_eq_some_iff.mp hr).1
    rw [h.regions] at hk
    have hi := hg'.lt k hk
    obtain ⟨r0, hr0⟩ : ∃ r0, t.regions[g' k]? = some r0 := ⟨t.regions[g' k], List.getElem?_eq_getElem hi⟩
    have h1 := h.region _ _ hr0
    rw [hgg' k hk, hr] at h1
    obtain rfl := Option.some.inj h1
    rw [hr0]
    have hring : ∀ ring ∈ r0.outerRings ++ r0.innerRings, renumberRing f' g' (renumberRing f g ring) = ring := by
      intro ring hring
      have h2 := ht.2.1 _ _ hr0 ring hring
      have h3 := regionIn_of_backPointers ht r0 (List.mem_of_getElem? hr0) ring hring
      obtain ⟨des, reg⟩ := ring
      simp only at h2 h3
      simp only [renumberRing, List.map_map, h2, Option.map_some, TopoRing.mk.injEq, Option.some.injEq]
      refine ⟨?_, by rw [hgg _ hi]⟩
      conv_rhs => rw [← List.map_id des]
      apply List.map_congr_left
      intro de hde
      simp [hff _ (h3 de hde)]
    have hmap : ∀ rings : List TopoRing, (∀ ring ∈ rings, ring ∈ r0.outerRings ++ r0.innerRings) →
        (rings.map (renumberRing f g)).map (renumberRing f' g') = rings := by
      intro rings hrings
      rw [List.map_map]
      conv_rhs => rw [← List.map_id rings]
      exact List.map_congr_left fun ring hr => hring ring (hrings ring hr)
    simp only [renumberRegion]
    rw [hmap _ fun ring hr => List.mem_append_left _ hr, hmap _ fun ring hr => List.mem_append_right _ hr]

/-! ## Simplifying -/

theorem simplifyEdges_ok_iff {s : Nat} {es : List TopoEdge} :
    (∃ es', simplifyEdges m s es = .ok es') ↔ ∀ e ∈ es, ∃ ps, simplifyEdge m e.points s = .ok ps := by
  induction es with
  | nil => exact ⟨fun _ => by simp, fun _ => ⟨_, rfl⟩⟩
  | cons e rest ih =>
    simp only [simplifyEdges, bind_ok, List.forall_mem_cons]
    constructor
    · rintro ⟨es', ps, h1, es1, h2, _⟩
      exact ⟨⟨ps, h1⟩, ih.mp ⟨es1, h2⟩⟩
    · rintro ⟨⟨ps, h1⟩, h2⟩
      obtain ⟨es1, h3⟩ := ih.mpr h2
      exact ⟨_, ps, h1, es1, h3, rfl⟩

theorem simplify_renumbered {f g : Nat → Nat} {t u t' : Topology δ} {s : Nat} (h : Renumbered f g t u)
    (hn : simplify m t s = .ok t') : ∃ u', simplify m u s = .ok u' ∧ Renumbered f g t' u' := by
  have hall : ∀ e ∈ t.edges, ∃ ps, simplifyEdge m e.points s = .ok ps := by
    simp only [simplify, bind_ok] at hn
    obtain ⟨es, h1, _⟩ := hn
    exact simplifyEdges_ok_iff.mp ⟨es, h1⟩
  have hall' : ∃ es', simplifyEdges m s u.edges = .ok es' := by
    rw [simplifyEdges_ok_iff]
    intro e he
    obtain ⟨e0, h5, h6⟩ := List.mem_map.mp (h.edges_perm.mem_iff.mp (List.mem_map_of_mem he))
    rw [← h6]
    exact hall e0 h5
  obtain ⟨es', hes'⟩ := hall'
  have hu : simplify m u s = .ok { u with edges := es' } := by
    unfold simplify
    rw [hes', ok_bind]
  refine ⟨_, hu, ?_⟩
  obtain ⟨h1, h2⟩ := C45_frame m t t' s hn
  obtain ⟨-, h2'⟩ := C45_frame m u _ s hu
  dsimp only at h2'
  refine ⟨?_, by rw [h1]; exact h.regions, by rw [← h2.length_eq]; exact h.reorders_edges, by rw [h1]; exact h.reorders_regions, ?_,
    by rw [h1]; exact h.region⟩
  · dsimp only
    rw [← h2.length_eq, ← h2'.length_eq, h.edges]
  · intro i e he
    have at_ : ∀ {es es' : List TopoEdge} {i : Nat} {e' : TopoEdge}, List.Forall₂ (SimplifiedTo m s) es es' → es'[i]? = some e' →
        ∃ e, es[i]? = some e ∧ SimplifiedTo m s e e' := by
      intro es es' i e' hes he
      induction hes generalizing i with
      | nil => simp at he
      | cons a _ ih =>
        cases i with
        | zero =>
          simp only [List.getElem?_cons_zero, Option.some.injEq] at he ⊢
          exact ⟨_, rfl, he ▸ a⟩
        | succ i => simpa using ih (by simpa using he)
    obtain ⟨e0, h3, h4⟩ := at_ h2 he
    obtain ⟨e1, h5, h6, h7⟩ := h.edge i e0 h3
    have hi := (List.getElem?_eq_some_iff.mp h5).1
    rw [h2'.length_eq] at hi
    refine ⟨es'[f i], List.getElem?_eq_getElem hi, ?_⟩
    obtain ⟨e2, h8, h9⟩ := at_ h2' (List.getElem?_eq_getElem hi)
    rw [h5] at h8
    obtain rfl := Option.some.inj h8
    obtain ⟨a1, a2, a3⟩ := h4
    obtain ⟨b1, b2, b3⟩ := h9
    rw [h6, a1] at b1
    refine ⟨(Except.ok.inj b1).symm, ?_⟩
    rw [a2, a3, b2, b3]
    exact h7

/-! ## The theorems -/

/-- C107: building from the same regions in another order panics in the same cases, and
otherwise gives the same topology with other numbers. -/
theorem C107_build (m : Build) (rs qs : List (Region δ)) (h : rs.Perm qs) :
    SameButNumbers (buildTopology m rs) (buildTopology m qs) :=
  build_sameButNumbers h

theorem apply_renumbered {f g : Nat → Nat} {t u t' : Topology δ} (h : Renumbered f g t u) (ht : BackPointersExact t)
    (hu : BackPointersExact u) (op : Operation) (hn : op.apply m t = .ok t') :
    ∃ u' f' g', op.apply m u = .ok u' ∧ Renumbered f' g' t' u' := by
  cases op with
  | normalize => exact normalize_renumbered h ht hu hn
  | clip mask => exact clip_renumbered h ht hn
  | simplify s =>
    obtain ⟨u', h1, h2⟩ := simplify_renumbered h hn
    exact ⟨u', f, g, h1, h2⟩

/-- C107: no operation depends on the numbers of edges and regions. -/
theorem C107_operation (m : Build) (t u : Topology δ) (f g : Nat → Nat) (h : Renumbered f g t u) (ht : BackPointersExact t)
    (hu : BackPointersExact u) (op : Operation) : SameButNumbers (op.apply m t) (op.apply m u) := by
  cases hx : op.apply m t with
  | ok t' =>
    obtain ⟨u', f', g', h1, h2⟩ := apply_renumbered h ht hu op hx
    exact Or.inr ⟨t', u', f', g', rfl, h1, h2⟩
  | error e =>
    cases hy : op.apply m u with
    | error e' => exact Or.inl ⟨e, e', rfl, rfl⟩
    | ok u' =>
      obtain ⟨f', g', hs⟩ := h.symm ht hu
      obtain ⟨t', _, _, h1, _⟩ := apply_renumbered hs hu ht op hy
      rw [hx] at h1
      cases h1

theorem apply_backPointers {t t' : Topology δ} (op : Operation) (ht : BackPointersExact t) (h : op.apply m t = .ok t') :
    BackPointersExact t' := by
  cases op with
  | normalize =>
    obtain ⟨rs, _, h2⟩ := normalize_ok.mp h
    exact (buildTopology_facts h2).1
  | clip mask =>
    obtain ⟨cs, _, h2⟩ := clipTopology_ok h
    exact (finishTopology_backPointers h2).1
  | simplify s => exact C45_back_pointers m t t' s h ht

/-- C107: whatever is done after building, the order of the regions does not matter. -/
theorem C107_pipeline (m : Build) (rs qs : List (Region δ)) (h : rs.Perm qs) (ops : List Operation) :
    SameButNumbers (ops.foldlM (Operation.apply m) =<< buildTopology m rs) (ops.foldlM (Operation.apply m) =<< buildTopology m qs) := by
  have key : ∀ (ops : List Operation) (t u : Topology δ) (f g : Nat → Nat), Renumbered f g t u → BackPointersExact t →
      BackPointersExact u → SameButNumbers (ops.foldlM (Operation.apply m) t) (ops.foldlM (Operation.apply m) u) := by
    intro ops
    induction ops with
    | nil => exact fun t u f g h _ _ => Or.inr ⟨t, u, f, g, rfl, rfl, h⟩
    | cons op ops ih =>
      intro t u f g h ht hu
      rw [List.foldlM_cons, List.foldlM_cons]
      rcases C107_operation m t u f g h ht hu op with ⟨e, e', h1, h2⟩ | ⟨t', u', f', g', h1, h2, h3⟩
      · rw [h1, h2]
        exact Or.inl ⟨e, e', rfl, rfl⟩
      · have ht' := apply_backPointers op ht h1
        have hu' := apply_backPointers op hu h2
        rw [h1, h2, ok_bind, ok_bind]
        exact ih t' u' f' g' h3 ht' hu'
  simp only [Bind.bindLeft]
  rcases C107_build m rs qs h with ⟨e, e', h1, h2⟩ | ⟨t, u, f, g, h1, h2, h3⟩
  · rw [h1, h2]
    exact Or.inl ⟨e, e', rfl, rfl⟩
  · have ht := (buildTopology_facts h1).1
    have hu := (buildTopology_facts h2).1
    rw [h1, h2, ok_bind, ok_bind]
    exact key ops t u f g h3 ht hu

/-- C107: what a ring of a renumbered topology reads. -/
theorem C107_read (t u : Topology δ) (f g : Nat → Nat) (h : Renumbered f g t u) (ht : BackPointersExact t) :
    (u.regions.map fun r => (r.data, r.outerRings.map fun ring => ring.directedEdges.map (walk u.edges),
      r.innerRings.map fun ring => ring.directedEdges.map (walk u.edges))).Perm
    (t.regions.map fun r => (r.data, r.outerRings.map fun ring => ring.directedEdges.map (walk t.edges),
      r.innerRings.map fun ring => ring.directedEdges.map (walk t.edges))) := by
  refine (h.regions_perm.map _).trans (List.Perm.of_eq ?_)
  rw [List.map_map]
  apply List.map_congr_left
  intro r hr
  have hring : ∀ ring ∈ r.outerRings ++ r.innerRings,
      (renumberRing f g ring).directedEdges.map (walk u.edges) = ring.directedEdges.map (walk t.edges) := by
    intro ring hring
    simp only [renumberRing, List.map_map]
    apply List.map_congr_left
    intro de hde
    have hi := regionIn_of_backPointers ht r hr ring hring de hde
    obtain ⟨e, he⟩ : ∃ e, t.edges[de.edge]? = some e := ⟨t.edges[de.edge], List.getElem?_eq_getElem hi⟩
    obtain ⟨e', h1, h2, _⟩ := h.edge _ _ he
    simp only [Function.comp]
    rw [walk_eq, walk_eq, List.getElem?_map, List.getElem?_map, he, h1]
    simp [h2]
  simp only [Function.comp, renumberRegion, List.map_map]
  congr 2
  · exact List.map_congr_left fun ring hr' => hring ring (List.mem_append_left _ hr')
  · exact List.map_congr_left fun ring hr' => hring ring (List.mem_append_right _ hr')

/-! ## Examples -/

/-- Two squares that share a side, and one that touches neither. -/
def exThree : List (Region Nat) :=
  [⟨1, [.points [⟨0, 0⟩, ⟨10, 0⟩, ⟨10, 10⟩, ⟨0, 10⟩, ⟨0, 0⟩]], []⟩,
   ⟨2, [.points [⟨10, 0⟩, ⟨20, 0⟩, ⟨20, 10⟩, ⟨10, 10⟩, ⟨10, 0⟩]], []⟩,
   ⟨3, [.points [⟨5, 30⟩, ⟨15, 30⟩, ⟨15, 40⟩, ⟨5, 40⟩, ⟨5, 30⟩]], []⟩]

/-- Normalize, clip and simplify. -/
def exSteps : List Operation := [.normalize, .clip (.minX 5), .simplify 3]

-- non-vacuity: all of it succeeds, the other order of regions gives another topology
example : exThree.Perm exThree.reverse ∧
    (∃ t u, (exSteps.foldlM (Operation.apply .debug) =<< buildTopology .debug exThree) = .ok t ∧
      (exSteps.foldlM (Operation.apply .debug) =<< buildTopology .debug exThree.reverse) = .ok u ∧ t ≠ u ∧
      t.regions.map (·.data) = [1, 2, 3] ∧ u.regions.map (·.data) = [3, 2, 1]) := by
  refine ⟨(List.reverse_perm _).symm, ?_⟩
  let t := (exSteps.foldlM (Operation.apply .debug) =<< buildTopology .debug exThree).toOption.getD ⟨[], []⟩
  let u := (exSteps.foldlM (Operation.apply .debug) =<< buildTopology .debug exThree.reverse).toOption.getD ⟨[], []⟩
  exact ⟨t, u, by decide +kernel, by decide +kernel, by decide +kernel, by decide +kernel, by decide +kernel⟩

-- the order of points in a ring does matter: not all that looks alike is the same but for numbers
example : ¬ SameButNumbers
    (buildTopology .debug ([⟨1, [.edges [[⟨0, 0⟩, ⟨9, 0⟩, ⟨9, 9⟩, ⟨0, 0⟩]]], []⟩] : List (Region Nat)))
    (buildTopology .debug [⟨1, [.edges [[⟨9, 0⟩, ⟨9, 9⟩, ⟨0, 0⟩, ⟨9, 0⟩]]], []⟩]) := by
  have h1 : (buildTopology .debug ([⟨1, [.edges [[⟨0, 0⟩, ⟨9, 0⟩, ⟨9, 9⟩, ⟨0, 0⟩]]], []⟩] : List (Region Nat))).toOption.map
      (·.edges.map (·.points)) = some [[⟨0, 0⟩, ⟨9, 0⟩, ⟨9, 9⟩, ⟨0, 0⟩]] := by decide +kernel
  have h2 : (buildTopology .debug ([⟨1, [.edges [[⟨9, 0⟩, ⟨9, 9⟩, ⟨0, 0⟩, ⟨9, 0⟩]]], []⟩] : List (Region Nat))).toOption.map
      (·.edges.map (·.points)) = some [[⟨9, 0⟩, ⟨9, 9⟩, ⟨0, 0⟩, ⟨9, 0⟩]] := by decide +kernel
  rintro (⟨e, e', h3, _⟩ | ⟨t, u, f, g, h3, h4, h5⟩)
  · rw [h3] at h1
    cases h1
  · rw [h3] at h1
    rw [h4] at h2
    have h1 : t.edges.map (·.points) = _ := Option.some.inj h1
    have h2 : u.edges.map (·.points) = _ := Option.some.inj h2
    have := h5.edges_perm
    rw [h1, h2] at this
    exact absurd this (by decide)

end TopoGeo
