import Verif.Proofs.Topology
/-!
# Properties C07-C14: the topology builder (`src/topology/build.rs`)
-/

namespace TopoGeo

open Spec

/-- Two squares side by side, sharing the edge (2,1)-(2,2); plus a region of
zero area. -/
def exRegions : List (Region String) :=
  [⟨"A", [.points [⟨1, 1⟩, ⟨2, 1⟩, ⟨2, 2⟩, ⟨1, 2⟩, ⟨1, 1⟩]], []⟩,
   ⟨"flat", [.points [⟨1, 1⟩, ⟨2, 1⟩, ⟨1, 1⟩]], []⟩,
   ⟨"B", [.points [⟨2, 1⟩, ⟨3, 1⟩, ⟨3, 2⟩, ⟨2, 2⟩, ⟨2, 1⟩]], []⟩]

/-- The topology built from `exRegions`. -/
def exTopology : Topology String :=
  match buildTopology .debug exRegions with
  | .ok t => t
  | .error _ => ⟨[], []⟩

theorem exTopology_built : buildTopology .debug exRegions = .ok exTopology := by decide +kernel

example : exTopology.edges.length = 7 ∧ exTopology.regions.length = 2 := by decide +kernel

/-! ## C07 -/

/-- C07: the topology lists the kept regions, in order, with their data, and
each ring reads back as the paths of the input ring. -/
theorem C07_round_trip {δ : Type} (m : Build) (rs : List (Region δ)) (t : Topology δ)
    (h : buildTopology m rs = .ok t) :
    List.Forall₂ (fun (k : KeptRegion δ) (r : TopoRegion δ) =>
      r.data = k.data ∧ List.Forall₂ (ReadsAs t.edges) k.outer r.outerRings ∧
      List.Forall₂ (ReadsAs t.edges) k.inner r.innerRings) (keptRegions rs) t.regions := by
  obtain ⟨_, h2, h3⟩ := buildTopology_facts h
  rw [h3, setRegionPtrs_eq]
  rw [List.forall₂_map_right_iff]
  have hz : List.Forall₂ (fun (k : KeptRegion δ) (x : TopoRegion δ × Nat) =>
      k ∈ keptRegions rs ∧ x.1 = toTopoRegion (toBuildRegion (keysOf rs) k)) (keptRegions rs)
      ((((keptRegions rs).map (toBuildRegion (keysOf rs))).map toTopoRegion).zipIdx) := by
    rw [List.map_map]
    generalize hn : (0 : Nat) = n
    clear hn
    have aux : ∀ (l : List (KeptRegion δ)) (n : Nat), (∀ k ∈ l, k ∈ keptRegions rs) →
        List.Forall₂ (fun (k : KeptRegion δ) (x : TopoRegion δ × Nat) =>
          k ∈ keptRegions rs ∧ x.1 = toTopoRegion (toBuildRegion (keysOf rs) k)) l
          ((l.map (toTopoRegion ∘ toBuildRegion (keysOf rs))).zipIdx n) := by
      intro l
      induction l with
      | nil => intro _ _; exact List.Forall₂.nil
      | cons k l ih =>
        intro n hl
        rw [List.map_cons, List.zipIdx_cons]
        exact List.Forall₂.cons ⟨hl k (by simp), rfl⟩ (ih (n + 1) (fun k hk => hl k (by simp [hk])))
    exact aux _ n (fun _ hk => hk)
  refine hz.imp ?_
  rintro k ⟨r, n⟩ ⟨hk, hr⟩
  simp only at hr
  subst hr
  have hreads : ∀ rings : List (List (List Point)), (∀ p ∈ rings, ∀ e ∈ p, e ∈ allPaths rs) →
      List.Forall₂ (ReadsAs t.edges) rings
        (((rings.map fun p => p.map (directedFor (keysOf rs))).map
          (fun ds => (⟨ds, none⟩ : TopoRing))).map (fun t => { t with region := some n })) := by
    intro rings
    induction rings with
    | nil => intro _; exact List.Forall₂.nil
    | cons p rings ih =>
      intro hp
      refine List.Forall₂.cons ?_ (ih fun p' hp' => hp p' (by simp [hp']))
      unfold ReadsAs
      simp only [List.map_map]
      apply List.map_congr_left
      intro e he
      exact walk_directedFor h2 (stored_mem_keysOf (hp p (by simp) e he))
  refine ⟨rfl, hreads k.outer ?_, hreads k.inner ?_⟩ <;>
  · intro p hp e he
    refine mem_allPaths hk ?_
    rw [List.mem_append, List.mem_flatten, List.mem_flatten]
    first
    | exact Or.inl ⟨p, hp, he⟩
    | exact Or.inr ⟨p, hp, he⟩

-- non-vacuity: the example topology has a backward edge, and reads back
example : buildTopology .debug exRegions = .ok exTopology ∧
    (allDirectedEdges exTopology).map (·.direction) =
      [.forward, .forward, .backward, .backward, .forward, .forward, .backward, .backward] ∧
    (keptRegions exRegions).map (·.data) = ["A", "B"] := by decide +kernel

/-! ## C08 -/

/-- C08: the kept rings are precisely those of non-zero area in regions with
some outer ring of non-zero area, and every stored edge is, in one direction
or the other, a non-degenerate path of a kept ring: nothing else gets in. -/
theorem C08_only_degenerate_dropped {δ : Type} (m : Build) (rs : List (Region δ)) (t : Topology δ)
    (h : buildTopology m rs = .ok t) :
    (t.regions.map fun r => (r.outerRings.length, r.innerRings.length)) =
      ((rs.filter fun r => r.outerRings.any fun ring => ringArea ring ≠ 0).map fun r =>
        (r.outerRings.countP (fun ring => ringArea ring ≠ 0),
         r.innerRings.countP (fun ring => ringArea ring ≠ 0))) ∧
    ∀ e ∈ t.edges, ∃ r ∈ rs, (∃ o ∈ r.outerRings, ringArea o ≠ 0) ∧
      ∃ ring ∈ r.outerRings ++ r.innerRings, ringArea ring ≠ 0 ∧
        ∃ f ∈ ring.getEdges, ¬ ZeroLength f ∧ (e.points = f ∨ e.points = f.reverse) := by
  constructor
  · have h7 := C07_round_trip m rs t h
    have hlen : t.regions.map (fun r => (r.outerRings.length, r.innerRings.length)) =
        (keptRegions rs).map fun k => (k.outer.length, k.inner.length) := by
      generalize keptRegions rs = ks at h7
      generalize t.regions = ts at h7
      clear h
      induction h7 with
      | nil => rfl
      | cons hkr _ ih => simp only [List.map_cons, ih, hkr.2.1.length_eq, hkr.2.2.length_eq]
    rw [hlen]
    unfold keptRegions
    rw [List.map_map]
    have : (fun r : Region δ => decide (keptRings r.outerRings ≠ [])) =
        fun r : Region δ => r.outerRings.any fun ring => ringArea ring ≠ 0 := by
      funext r
      rw [Bool.eq_iff_iff]
      simp [keptRings]
    rw [this]
    apply List.map_congr_left
    intro r _
    simp [keptRings, List.countP_eq_length_filter]
  · intro e he
    obtain ⟨_, h2, _⟩ := buildTopology_facts h
    have hk : e.points ∈ keysOf rs := by rw [← h2]; exact List.mem_map_of_mem he
    obtain ⟨f, hf, hs⟩ := mem_keysOf.mp hk
    have hz := not_zeroLength_of_mem_allPaths hf
    obtain ⟨k, hk, hf⟩ := List.mem_flatMap.mp hf
    obtain ⟨r, hr, rfl⟩ := List.mem_map.mp hk
    obtain ⟨hr, hne⟩ := List.mem_filter.mp hr
    have hmemring : ∀ rings : List Ring, f ∈ ((keptRings rings).map ringPaths).flatten →
        ∃ ring ∈ rings, ringArea ring ≠ 0 ∧ f ∈ ring.getEdges := by
      intro rings hf
      simp only [List.mem_flatten, List.mem_map] at hf
      obtain ⟨_, ⟨ring, hring, rfl⟩, hf⟩ := hf
      obtain ⟨hring, ha⟩ := List.mem_filter.mp hring
      rw [ringPaths_eq] at hf
      exact ⟨ring, hring, by simpa using ha, (List.mem_filter.mp hf).1⟩
    refine ⟨r, hr, ?_, ?_⟩
    · obtain ⟨o, ho⟩ := List.exists_mem_of_ne_nil _ (by simpa using hne : keptRings r.outerRings ≠ [])
      obtain ⟨ho, ha⟩ := List.mem_filter.mp ho
      exact ⟨o, ho, by simpa using ha⟩
    · rw [List.mem_append] at hf
      have hs' : e.points = f ∨ e.points = f.reverse := by rw [← hs]; exact stored_cases f
      rcases hf with hf | hf
      · obtain ⟨ring, h4, h5, h6⟩ := hmemring _ hf
        exact ⟨ring, by simp [h4], h5, f, h6, hz, hs'⟩
      · obtain ⟨ring, h4, h5, h6⟩ := hmemring _ hf
        exact ⟨ring, by simp [h4], h5, f, h6, hz, hs'⟩

-- non-vacuity: the flat region of `exRegions` is dropped
example : (exRegions.filter fun r => r.outerRings.any fun ring => ringArea ring ≠ 0).map (·.data) =
    ["A", "B"] ∧ exRegions.length = 3 := by decide +kernel

/-! ## C09 -/

/-- C09: each stored edge has at least two points, is not a pair of equal
points, and runs from its smaller to its larger end, or is closed and
clockwise (or has the unnegatable area -2^63). -/
theorem C09_canonical {δ : Type} (m : Build) (rs : List (Region δ)) (t : Topology δ)
    (h : buildTopology m rs = .ok t) :
    ∀ e ∈ t.edges, ¬ ZeroLength e.points ∧
      ∃ p q, e.points.head? = some p ∧ e.points.getLast? = some q ∧
        (p < q ∨ (p = q ∧ (0 ≤ pathArea e.points ∨ pathArea e.points = -2 ^ 63))) := by
  intro e he
  obtain ⟨_, h2, _⟩ := buildTopology_facts h
  have hk : e.points ∈ keysOf rs := by rw [← h2]; exact List.mem_map_of_mem he
  obtain ⟨f, hf, hs⟩ := mem_keysOf.mp hk
  have hz := not_zeroLength_of_mem_allPaths hf
  have hne : f ≠ [] := by rintro rfl; exact hz (Or.inl (by simp))
  rw [← hs]
  refine ⟨?_, stored_canonical hne⟩
  rcases stored_cases f with h' | h' <;> rw [h']
  · exact hz
  · rintro (hl | ⟨p, hp⟩)
    · exact hz (Or.inl (by simpa using hl))
    · exact hz (Or.inr ⟨p, by rw [← List.reverse_reverse f, hp]; rfl⟩)

/-- C09: no two edges have the same points, and none is the reverse of
another, unless it is closed with an area that has no sign. -/
theorem C09_unique {δ : Type} (m : Build) (rs : List (Region δ)) (t : Topology δ)
    (h : buildTopology m rs = .ok t) :
    (t.edges.map (·.points)).Nodup ∧
    ∀ (i j : Nat) (e f : TopoEdge), t.edges[i]? = some e → t.edges[j]? = some f →
      (e.points.head? ≠ e.points.getLast? ∨ (pathArea e.points ≠ 0 ∧ pathArea e.points ≠ -2 ^ 63)) →
      f.points ≠ e.points.reverse := by
  obtain ⟨_, h2, _⟩ := buildTopology_facts h
  refine ⟨by rw [h2]; exact nodup_keysOf rs, ?_⟩
  intro i j e f he hf ho heq
  obtain ⟨_, p, q, hp, hq, hc⟩ := C09_canonical m rs t h e (List.mem_of_getElem? he)
  obtain ⟨_, p', q', hp', hq', hc'⟩ := C09_canonical m rs t h f (List.mem_of_getElem? hf)
  rw [heq, List.head?_reverse, hq] at hp'
  rw [heq, List.getLast?_reverse, hp] at hq'
  obtain rfl := Option.some.inj hp'
  obtain rfl := Option.some.inj hq'
  rw [heq, pathArea_reverse] at hc'
  rw [hp, hq] at ho
  rcases hc with hc | ⟨rfl, hc⟩
  · rcases hc' with hc' | ⟨hc', _⟩
    · exact Point.lt_asymm hc hc'
    · rw [hc'] at hc; exact Point.lt_irrefl _ hc
  · rcases ho with ho | ⟨ho1, ho2⟩
    · exact ho rfl
    · rcases hc' with hc' | ⟨_, hc'⟩
      · exact Point.lt_irrefl _ hc'
      · rw [if_neg ho2] at hc'
        rcases hc with hc | hc
        · rcases hc' with hc' | hc'
          · omega
          · have : pathArea e.points < 2 ^ 63 := (inI64_wrap64 _).2
            omega
        · exact ho2 hc

-- the exception for closed edges is real: a closed edge of zero area is stored
-- twice, in both directions (a figure of eight, listed both ways)
example : (buildTopology .debug
    [(⟨(), [.edges [[⟨1, 1⟩, ⟨2, 2⟩, ⟨2, 1⟩, ⟨1, 2⟩, ⟨1, 1⟩], [⟨1, 1⟩, ⟨3, 1⟩, ⟨3, 3⟩, ⟨1, 1⟩]],
      .edges [[⟨1, 1⟩, ⟨1, 2⟩, ⟨2, 1⟩, ⟨2, 2⟩, ⟨1, 1⟩], [⟨1, 1⟩, ⟨3, 1⟩, ⟨3, 3⟩, ⟨1, 1⟩]]], []⟩ : Region Unit)]).toOption.map
    (fun t => t.edges.map (·.points)) =
    some [[⟨1, 1⟩, ⟨2, 2⟩, ⟨2, 1⟩, ⟨1, 2⟩, ⟨1, 1⟩], [⟨1, 1⟩, ⟨3, 1⟩, ⟨3, 3⟩, ⟨1, 1⟩],
      [⟨1, 1⟩, ⟨1, 2⟩, ⟨2, 1⟩, ⟨2, 2⟩, ⟨1, 1⟩]] := by decide +kernel

/-! ## C10 -/

/-- C10: two ring positions with the same path have the same directed edge;
two with opposite paths share the edge in opposite directions (for closed
paths: if the area has a sign). -/
theorem C10_sharing {δ : Type} (m : Build) (rs : List (Region δ)) (t : Topology δ)
    (h : buildTopology m rs = .ok t) (d1 d2 : DirectedEdge)
    (h1 : d1 ∈ allDirectedEdges t) (h2 : d2 ∈ allDirectedEdges t)
    (e f : List Point) (he : walk t.edges d1 = some e) (hf : walk t.edges d2 = some f) :
    (f = e → d1 = d2) ∧
    (f = e.reverse → (e.head? ≠ e.getLast? ∨ (pathArea e ≠ 0 ∧ pathArea e ≠ -2 ^ 63)) →
      d1.edge = d2.edge ∧ d1.direction = opposite d2.direction) ∧
    (d1.edge = d2.edge → f = e ∨ f = e.reverse) := by
  obtain ⟨_, hk, _⟩ := buildTopology_facts h
  obtain ⟨e', he', rfl⟩ := mem_allDirectedEdges h h1
  obtain ⟨f', hf', rfl⟩ := mem_allDirectedEdges h h2
  rw [walk_directedFor hk (stored_mem_keysOf he')] at he
  rw [walk_directedFor hk (stored_mem_keysOf hf')] at hf
  obtain rfl := Option.some.inj he
  obtain rfl := Option.some.inj hf
  refine ⟨fun h => by rw [h], ?_, ?_⟩
  · intro hrev ho
    obtain ⟨hs, hd⟩ := stored_reverse ho
    subst hrev
    simp only [directedFor, hs, true_and]
    by_cases hfw : storedForward e'
    · rw [if_pos hfw, if_neg (fun h' => hd.mp h' hfw)]; rfl
    · rw [if_neg hfw, if_pos (hd.mpr hfw)]; rfl
  · intro heq
    have := keyIdx_inj (stored_mem_keysOf he') (stored_mem_keysOf hf') heq
    rcases stored_cases e' with a | a <;> rcases stored_cases f' with b | b <;> rw [a, b] at this
    · left; exact this.symm
    · right; rw [this, List.reverse_reverse]
    · right; exact this.symm
    · left; rw [List.reverse_inj] at this; exact this.symm

-- non-vacuity: in `exTopology` the two squares share an edge in opposite directions
example : (⟨1, .forward⟩ : DirectedEdge) ∈ allDirectedEdges exTopology ∧
    ⟨1, .backward⟩ ∈ allDirectedEdges exTopology ∧
    walk exTopology.edges ⟨1, .forward⟩ = some [⟨2, 1⟩, ⟨2, 2⟩] := by decide +kernel

/-! ## C11 -/

/-- C11: the ring slots of each edge list precisely its users, in traversal
order; rings point to their regions; every edge has a user. -/
theorem C11_back_pointers {δ : Type} (m : Build) (rs : List (Region δ)) (t : Topology δ)
    (h : buildTopology m rs = .ok t) :
    BackPointersExact t ∧ ∀ (i : Nat) (e : TopoEdge), t.edges[i]? = some e →
      e.ring0 ≠ none ∧ ringsUsing t i ≠ [] := by
  obtain ⟨h1, h2, h3⟩ := buildTopology_facts h
  refine ⟨h1, ?_⟩
  intro i e he
  have hus : ringsUsing t i ≠ [] := by
    have ht : t = ⟨t.regions, t.edges⟩ := rfl
    rw [ht, h3, ringsUsing_finish]
    intro hnil
    have hl := congrArg List.length hnil
    rw [usersOf_built] at hl
    have hk : (keysOf rs)[i]? = some e.points := by
      rw [← h2, List.getElem?_map, he]; rfl
    rw [hk] at hl
    simp only [List.length_nil, List.length_eq_zero_iff, List.filter_eq_nil_iff] at hl
    obtain ⟨f, hf, hs⟩ := mem_keysOf.mp (List.mem_of_getElem? hk)
    exact hl f hf (by simpa using hs)
  refine ⟨?_, hus⟩
  rw [(h1.1 i e he).2.1]
  cases hr : ringsUsing t i with
  | nil => exact absurd hr hus
  | cons a l => simp

-- non-vacuity: edge 1 of the example is shared, edge 0 is not
example : (exTopology.edges.map fun e => (e.ring0, e.ring1)).take 2 =
    [(some ⟨0, false, 0⟩, none), (some ⟨0, false, 0⟩, some ⟨1, false, 0⟩)] := by decide +kernel

/-! ## C12 -/

/-- C12: in a release build `add_region` never panics. -/
theorem C12_add_region_total {δ : Type} (rs : List (Region δ)) :
    ∃ b, TopologyBuilder.new.addRegions .release rs = .ok b :=
  (addRegions_onlyOverflow .release rs _).release

/-- C12: in a checked build `add_region` panics only with an arithmetic
overflow. -/
theorem C12_add_region_debug {δ : Type} (rs : List (Region δ)) (e : Panic)
    (h : TopologyBuilder.new.addRegions .debug rs = .error e) : e = .overflow :=
  (addRegions_onlyOverflow .debug rs _ e h).2

/-- C12: `into_topology` panics exactly when some path is used three times,
and then with the assertion; otherwise it returns a topology. -/
theorem C12_into_topology {δ : Type} (m : Build) (rs : List (Region δ)) (b : TopologyBuilder δ)
    (h : TopologyBuilder.new.addRegions m rs = .ok b) :
    ((∃ p, 3 ≤ ((allPaths rs).filter fun e => stored e = p).length) →
      b.intoTopology = .error .assert) ∧
    ((∀ p, ((allPaths rs).filter fun e => stored e = p).length ≤ 2) →
      ∃ t, b.intoTopology = .ok t) := by
  rw [intoTopology_eq h, finishTopology_eq (toBuildRegion_inBounds rs)]
  constructor
  · rintro ⟨p, hp⟩
    rw [if_neg]
    intro hall
    have hmem : p ∈ keysOf rs := by
      cases hf : (allPaths rs).filter fun e => stored e = p with
      | nil => rw [hf] at hp; simp at hp
      | cons a l =>
        have : a ∈ (allPaths rs).filter fun e => stored e = p := by rw [hf]; simp
        obtain ⟨h1, h2⟩ := List.mem_filter.mp this
        exact mem_keysOf.mpr ⟨a, h1, by simpa using h2⟩
    have := hall (keyIdx (keysOf rs) p)
    rw [usersOf_built, getElem?_keyIdx hmem] at this
    simp only at this
    omega
  · intro hall
    rw [if_pos]
    · exact ⟨_, rfl⟩
    · intro i
      rw [usersOf_built]
      split
      · omega
      · exact hall _

-- non-vacuity: both cases occur
example : ((allPaths exRegions).map fun p =>
    ((allPaths exRegions).filter fun e => stored e = stored p).length).all (· ≤ 2) = true := by
  decide +kernel
example : buildTopology .release (exRegions ++ exRegions) = .error .assert := by decide +kernel

/-! ## C13 -/

/-- C13: the order in which the hash map is iterated does not matter. -/
theorem C13_hash_order {δ : Type} (m : Build) (rs : List (Region δ)) (b : TopologyBuilder δ)
    (h : TopologyBuilder.new.addRegions m rs = .ok b) (order : EdgeMap) (ho : order.Perm b.edges) :
    b.intoTopologyWith order = b.intoTopology := by
  rw [intoTopologyWith_eq h ho, intoTopology_eq h]

-- non-vacuity: the map of the example has several entries
example : (TopologyBuilder.new.addRegions .debug exRegions).toOption.map
    (fun b => (b.edges.length, decide (b.edges.reverse = b.edges), decide (b.edges.reverse.Perm b.edges))) =
    some (7, false, true) := by decide +kernel

/-! ## C14 -/

/-- C14: the stored edges are the distinct stored forms of all kept paths, in
order of first use. -/
theorem C14_first_use {δ : Type} (m : Build) (rs : List (Region δ)) (t : Topology δ)
    (h : buildTopology m rs = .ok t) :
    t.edges.map (·.points) = firstOccurrences ((allPaths rs).map stored) :=
  (buildTopology_facts h).2.1

theorem setRegionPtrs_append {δ : Type} (a b : List (TopoRegion δ)) (n : Nat) :
    setRegionPtrs n (a ++ b) = setRegionPtrs n a ++ setRegionPtrs (n + a.length) b := by
  induction a generalizing n with
  | nil => simp [setRegionPtrs]
  | cons r a ih =>
    simp only [List.cons_append, setRegionPtrs, ih, List.length_cons]
    congr 3; omega

/-- C14: adding regions leaves earlier edges (their points and numbers) and
earlier regions (all rings and directed edges) as they were. -/
theorem C14_stable {δ : Type} (m : Build) (rs more : List (Region δ)) (t t' : Topology δ)
    (h : buildTopology m rs = .ok t) (h' : buildTopology m (rs ++ more) = .ok t') :
    t.edges.map (·.points) <+: t'.edges.map (·.points) ∧ t.regions <+: t'.regions := by
  obtain ⟨_, h2, h3⟩ := buildTopology_facts h
  obtain ⟨_, h2', h3'⟩ := buildTopology_facts h'
  have ek : ∀ l : List (Region δ), addKeys [] ((allPaths l).map stored) = keysOf l := by
    intro l; rw [addKeys_eq]; simp [keysOf]
  have hpre : keysOf rs <+: keysOf (rs ++ more) := by
    rw [← ek, ← ek]
    have : allPaths (rs ++ more) = allPaths rs ++ allPaths more := by
      simp [allPaths, keptRegions]
    rw [this, List.map_append, addKeys_append]
    exact addKeys_prefix _ _
  refine ⟨by rw [h2, h2']; exact hpre, ?_⟩
  have hk : keptRegions (rs ++ more) = keptRegions rs ++ keptRegions more := by
    simp [keptRegions]
  rw [h3, h3', hk, List.map_append, List.map_append, setRegionPtrs_append]
  have : (keptRegions rs).map (toBuildRegion (keysOf (rs ++ more))) =
      (keptRegions rs).map (toBuildRegion (keysOf rs)) := by
    apply List.map_congr_left
    intro k hkm
    apply toBuildRegion_prefix hpre
    intro e he
    exact stored_mem_keysOf (mem_allPaths hkm he)
  rw [this]
  exact List.prefix_append _ _

-- non-vacuity: a proper extension
example : (buildTopology .debug (exRegions.take 1)).toOption.map (fun t => t.edges.length) = some 4 ∧
    exRegions = exRegions.take 1 ++ exRegions.drop 1 := by decide +kernel

end TopoGeo
