import Verif.Proofs.NormalizeClean
/-!
# Property C74: normalizing maps without overlaps

On maps without overlaps whose rings do not touch themselves, `normalize`
(`src/normalize.rs`) does what C20 and C23 ask for.
-/

namespace TopoGeo

open Spec

theorem forall₂_of_map_eq {α β γ : Type} {f : α → γ} {g : β → γ} {l : List α} {k : List β} (h : l.map f = k.map g) :
    List.Forall₂ (fun a b => a ∈ l ∧ b ∈ k ∧ f a = g b) l k := by
  have : ∀ (l : List α) (k : List β), l.map f = k.map g → List.Forall₂ (fun a b => f a = g b) l k := by
    intro l
    induction l with
    | nil =>
      intro k h
      cases k with
      | nil => exact .nil
      | cons b k => simp at h
    | cons a l ih =>
      intro k h
      cases k with
      | nil => simp at h
      | cons b k =>
        simp only [List.map_cons, List.cons.injEq] at h
        exact .cons h.1 (ih k h.2)
  have h1 := forall₂_imp_left (this l k h) (S := fun a b => a ∈ l ∧ f a = g b) fun a ha b hab => ⟨ha, hab⟩
  have h2 := forall₂_imp_left h1.flip (S := fun b a => b ∈ k ∧ a ∈ l ∧ f a = g b) fun b hb a hab => ⟨hb, hab⟩
  exact h2.flip.imp fun a b h => ⟨h.2.1, h.1, h.2.2⟩

/-- The sides along a ring of the normalized topology. -/
theorem ring_sides {δ : Type} {m : Build} {t t' : Topology δ} (hw : WellFormed t) (hs : NoSelfEdges t (allRings t))
    (ho : ∀ r ∈ t.regions, r.outerRings ≠ [])
    (hmin : ∀ ring ∈ allRings t, wrap64 (shoelaceEdges (pathsOf t ring)) ≠ -2 ^ 63) (hT : Tidy t)
    (h : normalize m t = .ok t') {ring' : TopoRing} (hring' : ring' ∈ allRings t') :
    ∃ A w n, (A, w) ∈ walks t ∧ Turns t' w ring' n ∧
      (ring'.directedEdges.map fun de => sides t' de.edge) = nsides n := by
  obtain ⟨r', hr', hm⟩ := List.mem_flatMap.mp hring'
  obtain ⟨A, hA⟩ := List.mem_iff_getElem?.mp hr'
  obtain ⟨w, n, hwA, ht⟩ := (kept_of_normalize hw hs ho hmin h).ring A r' ring' hA hm
  refine ⟨A, w, n, hwA, ht, ?_⟩
  have hf : List.Forall₂ (fun de e => sides t' de.edge = e.regions) ring'.directedEdges n :=
    (forall₂_of_map_eq (f := pathOf t') (g := fun e : NormEdge => e.points) ht.paths).imp
      fun de e hde => edge_sides hw hs ho hmin hT h hwA hA hm ht hde.2.1 hde.1 hde.2.2
  unfold nsides
  generalize ring'.directedEdges = des at hf ⊢
  clear * - hf
  induction hf with
  | nil => rfl
  | cons h1 _ ih => rw [List.map_cons, List.map_cons, h1, ih]

/-- A segment of two edges is passed by the users of both. -/
theorem users_add_le_passes {δ : Type} {t : Topology δ} {de d : DirectedEdge} (hlt : de.edge < t.edges.length)
    (hltd : d.edge < t.edges.length) (hne : de.edge ≠ d.edge) {p q : Point}
    (hseg : (p, q) ∈ segs (pathOf t de) ∨ (q, p) ∈ segs (pathOf t de))
    (hsg : (p, q) ∈ segs (pathOf t d) ∨ (q, p) ∈ segs (pathOf t d)) :
    (ringsUsing t de.edge).length + (ringsUsing t d.edge).length ≤ passes t p q := by
  rw [← allDirectedEdges_count, ← allDirectedEdges_count, passes_eq]
  have hor : ∀ l : List DirectedEdge, l.countP (fun x => decide (x.edge = de.edge)) +
      l.countP (fun x => decide (x.edge = d.edge)) =
      (l.filter fun x => decide (x.edge = de.edge ∨ x.edge = d.edge)).length := by
    intro l
    rw [← List.countP_eq_length_filter]
    induction l with
    | nil => rfl
    | cons x l ih =>
      rw [List.countP_cons, List.countP_cons, List.countP_cons, ← ih]
      by_cases h1 : x.edge = de.edge
      · simp [h1, hne]
        omega
      · by_cases h2 : x.edge = d.edge
        · simp [h2, hne.symm]
          omega
        · simp [h1, h2]
  rw [hor]
  refine length_filter_le_countP _ _ _ _ ?_
  have hpath : ∀ x y : DirectedEdge, x.edge = y.edge → y.edge < t.edges.length →
      pathOf t x = pathOf t y ∨ pathOf t x = (pathOf t y).reverse := by
    intro x y hxy hy
    unfold pathOf walk
    rw [hxy, List.getElem?_eq_getElem hy]
    simp only [Option.map_some, Option.getD_some]
    cases x.direction <;> cases y.direction <;> simp
  have hmem : ∀ x y : DirectedEdge, x.edge = y.edge → y.edge < t.edges.length →
      ((p, q) ∈ segs (pathOf t y) ∨ (q, p) ∈ segs (pathOf t y)) → ∃ s ∈ segs (pathOf t x), either p q s = true := by
    intro x y hxy hy hsy
    rcases hpath x y hxy hy with hp | hp
    · rw [hp]
      rcases hsy with h1 | h1
      · exact ⟨_, h1, by simp [either]⟩
      · exact ⟨_, h1, by simp [either]⟩
    · rw [hp, segs_reverse]
      rcases hsy with h1 | h1
      · exact ⟨_, List.mem_reverse.mpr (List.mem_map_of_mem h1), by simp [either]⟩
      · exact ⟨_, List.mem_reverse.mpr (List.mem_map_of_mem h1), by simp [either]⟩
  intro x _ hx
  have hx : x.edge = de.edge ∨ x.edge = d.edge := by simpa using hx
  rcases hx with hx | hx
  · exact hmem x de hx hlt hseg
  · exact hmem x d hx hltd hsg

/-- C74: what was a boundary of a region still is one, and whatever edge of the
normalized topology a stretch of boundary lies on has the same two regions on
its sides as the stretch had before. -/
theorem C74_sides {δ : Type} (m : Build) (t t' : Topology δ) (hw : WellFormed t) (hs : NoSelfEdges t (allRings t))
    (ho : ∀ r ∈ t.regions, r.outerRings ≠ [])
    (hmin : ∀ ring ∈ allRings t, wrap64 (shoelaceEdges (pathsOf t ring)) ≠ -2 ^ 63) (hT : Tidy t)
    (h : normalize m t = .ok t') :
    (∀ (n : Nat) (r : TopoRegion δ) (ring : TopoRing) (de : DirectedEdge) (s : Point × Point), t.regions[n]? = some r → ring ∈ r.outerRings ++ r.innerRings → de ∈ ring.directedEdges →
      s ∈ segs (pathOf t de) → ∃ (r' : TopoRegion δ) (ring' : TopoRing) (de' : DirectedEdge), t'.regions[n]? = some r' ∧ ring' ∈ r'.outerRings ++ r'.innerRings ∧
        de' ∈ ring'.directedEdges ∧ (s ∈ segs (pathOf t' de') ∨ s.swap ∈ segs (pathOf t' de'))) ∧
    ∀ de ∈ allDirectedEdges t, ∀ de' ∈ allDirectedEdges t', ∀ s ∈ segs (pathOf t de),
      s ∈ segs (pathOf t' de') ∨ s.swap ∈ segs (pathOf t' de') → sides t' de'.edge = sides t de.edge := by
  have hk := kept_of_normalize hw hs ho hmin h
  constructor
  · intro n r ring de s hr hring hde hseg
    obtain ⟨w, hwn, hin⟩ := segment_walks hr hring hde (Or.inl hseg)
    obtain ⟨r', ring', nr, hr', hring', ht⟩ := hk.walk n w hwn
    have key : ∀ s', (s', sides t de.edge) ∈ w → ∃ de' ∈ ring'.directedEdges, s' ∈ segs (pathOf t' de') := by
      intro s' hs'
      obtain ⟨e, he, hae⟩ := List.mem_flatMap.mp (ht.segs.mem_iff.mpr hs')
      obtain ⟨x, hx, hxe⟩ := List.mem_map.mp hae
      obtain ⟨rfl, _⟩ := Prod.mk.inj hxe
      have : e.points ∈ pathsOf t' ring' := by rw [ht.paths]; exact List.mem_map_of_mem he
      obtain ⟨de', hde', hp⟩ := List.mem_map.mp this
      exact ⟨de', hde', by rw [hp]; exact hx⟩
    rcases hin with hin | hin
    · obtain ⟨de', h1, h2⟩ := key _ hin
      exact ⟨r', ring', de', hr', hring', h1, Or.inl h2⟩
    · obtain ⟨de', h1, h2⟩ := key _ hin
      exact ⟨r', ring', de', hr', hring', h1, Or.inr h2⟩
  · intro de hde de' hde' s hseg hseg'
    obtain ⟨ring', hring', hd⟩ := List.mem_flatMap.mp hde'
    obtain ⟨r', hr', hm⟩ := List.mem_flatMap.mp hring'
    obtain ⟨A, hA⟩ := List.mem_iff_getElem?.mp hr'
    obtain ⟨w, n, hwA, ht⟩ := hk.ring A r' ring' hA hm
    have : pathOf t' de' ∈ npts n := by rw [← ht.paths]; exact List.mem_map_of_mem hd
    obtain ⟨e, he, hep⟩ := List.mem_map.mp this
    rw [edge_sides hw hs ho hmin hT h hwA hA hm ht he hd hep.symm]
    -- an edge of the old topology with that segment and these sides
    have key : ∀ s' : Point × Point, s' ∈ segs e.points → ∃ d ∈ allDirectedEdges t, e.regions = sides t d.edge ∧
        (s' ∈ segs (pathOf t d) ∨ s'.swap ∈ segs (pathOf t d)) := by
      intro s' hs'
      have haw : (s', e.regions) ∈ w := ht.segs.mem_iff.mp (List.mem_flatMap.mpr ⟨e, he, List.mem_map_of_mem hs'⟩)
      obtain ⟨r, ring, d, hr, hring, hd, hsd, hsg⟩ := walks_segment hwA haw
      exact ⟨d, List.mem_flatMap.mpr ⟨ring, List.mem_flatMap.mpr ⟨r, List.mem_of_getElem? hr, hring⟩, hd⟩, hsd, hsg⟩
    obtain ⟨d, hdall, hsd, hsg⟩ : ∃ d ∈ allDirectedEdges t, e.regions = sides t d.edge ∧
        (s ∈ segs (pathOf t d) ∨ s.swap ∈ segs (pathOf t d)) := by
      rcases hseg' with h' | h'
      · exact key s (by rw [hep]; exact h')
      · obtain ⟨d, h1, h2, h3⟩ := key s.swap (by rw [hep]; exact h')
        exact ⟨d, h1, h2, by simpa [or_comm] using h3⟩
    -- it is the same edge
    have hlt := hw.pointers.2.2 de hde
    have hltd := hw.pointers.2.2 d hdall
    rw [hsd]
    congr 1
    obtain ⟨p, q⟩ := s
    by_contra hne
    have hsum := passes_le_users hw.pointers hT.segments hlt (p := p) (q := q) (Or.inl hseg)
    -- otherwise the segment would be passed by users of two edges
    have hcount := users_add_le_passes hlt hltd (fun h => hne h.symm) (p := p) (q := q) (Or.inl hseg) hsg
    have hpos : 0 < (ringsUsing t d.edge).length := List.length_pos_iff.mpr (ringsUsing_of_mem hdall)
    omega

/-- C74: a stretch of boundary lies on one edge: it is stored once for the two
regions it separates. -/
theorem C74_one_edge {δ : Type} (m : Build) (t t' : Topology δ) (hw : WellFormed t) (hs : NoSelfEdges t (allRings t))
    (ho : ∀ r ∈ t.regions, r.outerRings ≠ [])
    (hmin : ∀ ring ∈ allRings t, wrap64 (shoelaceEdges (pathsOf t ring)) ≠ -2 ^ 63) (hT : Tidy t)
    (h : normalize m t = .ok t') :
    ∀ d ∈ allDirectedEdges t', ∀ d' ∈ allDirectedEdges t', ∀ s ∈ segs (pathOf t' d),
      s ∈ segs (pathOf t' d') ∨ s.swap ∈ segs (pathOf t' d') → d.edge = d'.edge := by
  intro d hd d' hd' s hseg hseg'
  have hw' := wellFormed_normalize hw h
  -- an old edge with that segment
  obtain ⟨de, hde, hold⟩ : ∃ de ∈ allDirectedEdges t, s ∈ segs (pathOf t de) ∨ s.swap ∈ segs (pathOf t de) := by
    obtain ⟨ring', hring', hdr⟩ := List.mem_flatMap.mp hd
    obtain ⟨r', hr', hm⟩ := List.mem_flatMap.mp hring'
    obtain ⟨A, hA⟩ := List.mem_iff_getElem?.mp hr'
    obtain ⟨w, n, hwA, ht⟩ := (kept_of_normalize hw hs ho hmin h).ring A r' ring' hA hm
    have : pathOf t' d ∈ npts n := by rw [← ht.paths]; exact List.mem_map_of_mem hdr
    obtain ⟨e, he, hep⟩ := List.mem_map.mp this
    have haw : (s, e.regions) ∈ w :=
      ht.segs.mem_iff.mp (List.mem_flatMap.mpr ⟨e, he, List.mem_map_of_mem (by rw [hep]; exact hseg)⟩)
    obtain ⟨r, ring, de, hr, hring, hde, _, hsg⟩ := walks_segment hwA haw
    exact ⟨de, List.mem_flatMap.mpr ⟨ring, List.mem_flatMap.mpr ⟨r, List.mem_of_getElem? hr, hring⟩, hde⟩, hsg⟩
  have hsides : ∀ x ∈ allDirectedEdges t', (s ∈ segs (pathOf t' x) ∨ s.swap ∈ segs (pathOf t' x)) →
      sides t' x.edge = sides t de.edge := by
    intro x hx hsx
    have := (C74_sides m t t' hw hs ho hmin hT h).2 de hde x hx
    rcases hold with h1 | h1
    · exact this s h1 hsx
    · exact this s.swap h1 (by simpa [or_comm] using hsx)
  -- the number of users follows from the sides
  have husers : ∀ x ∈ allDirectedEdges t', (s ∈ segs (pathOf t' x) ∨ s.swap ∈ segs (pathOf t' x)) →
      (ringsUsing t de.edge).length ≤ (ringsUsing t' x.edge).length := by
    intro x hx hsx
    have h1 := hsides x hx hsx
    have hle := (hw.pointers.1 de.edge _ (List.getElem?_eq_getElem (hw.pointers.2.2 de hde))).1
    have hpos : 0 < (ringsUsing t' x.edge).length := List.length_pos_iff.mpr (ringsUsing_of_mem hx)
    by_contra hc
    have h2 : (ringsUsing t' x.edge)[1]? = none := List.getElem?_eq_none_iff.mpr (by omega)
    have h3 : (ringsUsing t de.edge)[1]? ≠ none := by
      rw [ne_eq, List.getElem?_eq_none_iff]; omega
    have := congrArg Prod.snd h1
    unfold sides at this
    rw [h2, Option.map_none, eq_comm, Option.map_eq_none_iff] at this
    exact h3 this
  by_contra hne
  obtain ⟨p, q⟩ := s
  have l1 := users_add_le_passes (hw'.pointers.2.2 d hd) (hw'.pointers.2.2 d' hd') hne (p := p) (q := q) (Or.inl hseg) hseg'
  have l2 := husers d hd (Or.inl hseg)
  have l3 := husers d' hd' hseg'
  have l4 := passes_le_users hw.pointers hT.segments (hw.pointers.2.2 de hde) (p := p) (q := q) hold
  rw [passes_kept hw hs ho h] at l1
  have hpos : 0 < (ringsUsing t de.edge).length := List.length_pos_iff.mpr (ringsUsing_of_mem hde)
  omega

/-- C74: the edges along a normalized ring have different regions on their
sides from one edge to the next: no shared edge could be joined to another. -/
theorem C74_distinct {δ : Type} (m : Build) (t t' : Topology δ) (hw : WellFormed t) (hs : NoSelfEdges t (allRings t))
    (ho : ∀ r ∈ t.regions, r.outerRings ≠ [])
    (hmin : ∀ ring ∈ allRings t, wrap64 (shoelaceEdges (pathsOf t ring)) ≠ -2 ^ 63) (hT : Tidy t)
    (h : normalize m t = .ok t') :
    ∀ ring ∈ allRings t', CyclicallyDistinct (ring.directedEdges.map fun de => sides t' de.edge) := by
  intro ring' hring'
  obtain ⟨A, w, n, _, ht, hsd⟩ := ring_sides hw hs ho hmin hT h hring'
  rw [hsd]
  exact ht.nice.cyclic

/-- C74: normalizing once more changes nothing. -/
theorem C74_idempotent {δ : Type} (m : Build) (t t' : Topology δ) (hw : WellFormed t) (hs : NoSelfEdges t (allRings t))
    (ho : ∀ r ∈ t.regions, r.outerRings ≠ [])
    (hmin : ∀ ring ∈ allRings t, wrap64 (shoelaceEdges (pathsOf t ring)) ≠ -2 ^ 63) (hT : Tidy t)
    (h : normalize m t = .ok t') :
    NoSelfEdges t' (allRings t') ∧ (∀ m' t'', normalize m' t' = .ok t'' → t'' = t') ∧ normalize .release t' = .ok t' := by
  have hno : NoSelfEdges t' (allRings t') := by
    intro ring' hring' de' hde'
    obtain ⟨A, w, n, hA, ht, hsd⟩ := ring_sides hw hs ho hmin hT h hring'
    have : sides t' de'.edge ∈ nsides n := by rw [← hsd]; exact List.mem_map_of_mem hde'
    obtain ⟨e, he, hes⟩ := List.mem_map.mp this
    rw [← hes]
    obtain ⟨a, l, hal⟩ := List.exists_cons_of_ne_nil (edgeSegs_ne_nil (ht.extended e he))
    have hae : a ∈ edgeSegs e := by rw [hal]; simp
    have haw : a ∈ w := ht.segs.mem_iff.mp (List.mem_flatMap.mpr ⟨e, he, hae⟩)
    obtain ⟨r, ring, de, hr, hring, hde, hsd, _⟩ := walks_segment hA haw
    rw [← mem_edgeSegs hae, hsd]
    exact hs ring (List.mem_flatMap.mpr ⟨r, List.mem_of_getElem? hr, hring⟩) de hde
  refine ⟨hno, C20_idempotent_partial m t t' hw h hno (C74_distinct m t t' hw hs ho hmin hT h) ?_⟩
  intro r' hr'
  obtain ⟨h1, h2⟩ := C16_topology_partial m t t' hw hs hmin h r' hr'
  exact ⟨h1, h2⟩

/-- C74: a map of closed rings of points whose regions neither overlap nor touch
themselves is normalized without a panic in release builds. The result follows
all rules of normalized topologies, its edges have the regions on their sides
that their segments had, no two edges share a segment, and normalizing once more
changes nothing. -/
theorem C74_points {δ : Type} (m : Build) (rs : List (Region δ)) (t : Topology δ) (h : buildTopology m rs = .ok t)
    (hp : ∀ r ∈ rs, ∀ ring ∈ r.outerRings ++ r.innerRings, ∃ ps, ring = .points ps)
    (hclosed : ∀ r ∈ rs, ∀ ring ∈ r.outerRings ++ r.innerRings, ringArea ring ≠ 0 → ClosedRing (ringPaths ring))
    (hmin : ∀ ring ∈ allRings t, wrap64 (shoelaceEdges (pathsOf t ring)) ≠ -2 ^ 63) (hc : Clean t) :
    ∃ t', normalize .release t = .ok t' ∧ Normal t' ∧
      (∀ de ∈ allDirectedEdges t, ∀ s ∈ segs (pathOf t de), ∃ de' ∈ allDirectedEdges t',
        s ∈ segs (pathOf t' de') ∨ s.swap ∈ segs (pathOf t' de')) ∧
      (∀ de ∈ allDirectedEdges t, ∀ de' ∈ allDirectedEdges t', ∀ s ∈ segs (pathOf t de),
        s ∈ segs (pathOf t' de') ∨ s.swap ∈ segs (pathOf t' de') → sides t' de'.edge = sides t de.edge) ∧
      (∀ d ∈ allDirectedEdges t', ∀ d' ∈ allDirectedEdges t', ∀ s ∈ segs (pathOf t' d),
        s ∈ segs (pathOf t' d') ∨ s.swap ∈ segs (pathOf t' d') → d.edge = d'.edge) ∧
      normalize .release t' = .ok t' := by
  obtain ⟨hw, ho, ha⟩ := wellFormed_of_built h hclosed
  obtain ⟨hs, hT⟩ := tidy_of_clean hw (segments_of_points h hp) ha hc
  obtain ⟨t', ht'⟩ := C21_points m rs t h hp hclosed hs
  obtain ⟨s1, s2⟩ := C74_sides _ t t' hw hs ho hmin hT ht'
  obtain ⟨i1, _, i3⟩ := C74_idempotent _ t t' hw hs ho hmin hT ht'
  have h16 := C16_topology_partial _ t t' hw hs hmin ht'
  have h17 := C17_first _ t t' hw ht'
  refine ⟨t', ht', ⟨wellFormed_normalize hw ht', i1, C74_distinct _ t t' hw hs ho hmin hT ht', fun r hr => (h16 r hr).1,
    fun r hr => (h16 r hr).2, ?_, fun r hr => (h17 r hr).2⟩, ?_, s2, C74_one_edge _ t t' hw hs ho hmin hT ht', i3⟩
  · intro ring hring
    obtain ⟨r, hr, hring⟩ := List.mem_flatMap.mp hring
    exact (h17 r hr).1 ring hring
  · intro de hde s hsm
    obtain ⟨ring, hring, hdr⟩ := List.mem_flatMap.mp hde
    obtain ⟨r, hr, hm⟩ := List.mem_flatMap.mp hring
    obtain ⟨n, hn⟩ := List.mem_iff_getElem?.mp hr
    obtain ⟨r', ring', de', hr', hring', hde', hs'⟩ := s1 n r ring de s hn hm hdr hsm
    exact ⟨de', List.mem_flatMap.mpr ⟨ring', List.mem_flatMap.mpr ⟨r', List.mem_of_getElem? hr', hring'⟩, hde'⟩, hs'⟩

/-! ### A map -/

/-- Two regions with a bent border, and an island in a lake of the first. -/
def exMapRegions : List (Region String) :=
  [⟨"A", [.points [⟨0, 0⟩, ⟨0, 9⟩, ⟨5, 9⟩, ⟨6, 5⟩, ⟨5, 0⟩, ⟨0, 0⟩]], [.points [⟨1, 1⟩, ⟨3, 1⟩, ⟨3, 3⟩, ⟨1, 3⟩, ⟨1, 1⟩]]⟩,
   ⟨"B", [.points [⟨5, 0⟩, ⟨9, 0⟩, ⟨9, 9⟩, ⟨5, 9⟩, ⟨6, 5⟩, ⟨5, 0⟩]], []⟩,
   ⟨"C", [.points [⟨1, 1⟩, ⟨1, 3⟩, ⟨3, 3⟩, ⟨3, 1⟩, ⟨1, 1⟩]], []⟩]

/-- Its topology. -/
def exMap : Topology String := ((buildTopology .debug exMapRegions).toOption.getD ⟨[], []⟩)

theorem exMap_built : buildTopology .debug exMapRegions = .ok exMap := by decide +kernel

/-- Regions that do not exist have no rings. -/
theorem clean_of_lt {δ : Type} {t : Topology δ} (h1 : ((walks t).flatMap fun w => w.2.map (·.1)).Nodup)
    (h2 : ∀ n < t.regions.length, (((walks t).filter (·.1 = n)).flatMap fun w => w.2.map (·.1.1)).Nodup) : Clean t := by
  refine ⟨h1, fun n => ?_⟩
  by_cases hn : n < t.regions.length
  · exact h2 n hn
  · have : (walks t).filter (·.1 = n) = [] := by
      rw [List.filter_eq_nil_iff]
      rintro ⟨A, w⟩ hA hAn
      obtain ⟨r, hr, _⟩ := mem_walks.mp hA
      obtain rfl : A = n := by simpa using hAn
      exact hn (List.getElem?_eq_some_iff.mp hr).1
    rw [this]
    exact List.nodup_nil

theorem exMap_clean : Clean exMap := clean_of_lt (by decide +kernel) (by decide +kernel)

-- the map meets the conditions of all of C74, and is not normalized yet
example : ∃ t', normalize .release exMap = .ok t' ∧ Normal t' ∧ t' ≠ exMap := by
  obtain ⟨t', h1, h2, _⟩ := C74_points .debug exMapRegions exMap exMap_built
    (by
      intro r hr ring hring
      simp only [exMapRegions, List.mem_cons, List.not_mem_nil, or_false] at hr
      rcases hr with rfl | rfl | rfl <;> simp at hring
      · rcases hring with rfl | rfl <;> exact ⟨_, rfl⟩
      · exact ⟨_, hring⟩
      · exact ⟨_, hring⟩)
    (by decide +kernel) (by decide +kernel) exMap_clean
  refine ⟨t', h1, h2, ?_⟩
  rintro rfl
  revert h1
  decide +kernel

example : WellFormed exMap ∧ NoSelfEdges exMap (allRings exMap) ∧ Tidy exMap := by
  obtain ⟨hw, _, ha⟩ := wellFormed_of_built exMap_built (by decide +kernel)
  exact ⟨hw, tidy_of_clean hw (by decide +kernel) ha exMap_clean⟩

end TopoGeo
