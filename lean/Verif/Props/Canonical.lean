import Verif.Proofs.Canonical
import Verif.Proofs.SameMap
import Verif.Props.NormalizeShared
/-!
# Property C79: `normalize` gives the same map the same form (`src/normalize.rs`)
-/

namespace TopoGeo

open Spec
open scoped List

/-! ## C79 -/

/-- C79: topologies whose regions have the same boundaries, with the same
regions on both sides, and pass over each point once, are normalized to equal
topologies. The rings, edges, order of edges and back pointers are equal, and
so are the points each edge starts with. -/
theorem C79_canonical {δ : Type} (m m' : Build) (t t' u u' : Topology δ) (hw : WellFormed t) (hw' : WellFormed t')
    (hs : SameBoundaries t t') (ho : PassedOnce t) (h : normalize m t = .ok u) (h' : normalize m' t' = .ok u') :
    u = u' := by
  obtain ⟨rs, h1, h2⟩ := normalize_rebuilt hw.pointers hw.closed h
  obtain ⟨rs', h1', h2'⟩ := normalize_rebuilt hw'.pointers hw'.closed h'
  have hmem : ∀ {α β : Type} {R : α → β → Prop} {l : List α} {l' : List β}, List.Forall₂ R l l' →
      List.Forall₂ (fun a b => a ∈ l ∧ R a b) l l' := fun h => forall₂_imp_left h fun a ha b hab => ⟨ha, hab⟩
  have heq : List.Forall₂ (· = ·) rs rs' := by
    refine forall₂_comp (List.Forall₂.flip (hmem h2)) (forall₂_comp hs (hmem h2')
      (T := fun r k => ∃ r', (r.data = r'.data ∧
        (boundary t .clockwise r.outerRings).Perm (boundary t' .clockwise r'.outerRings) ∧
        (boundary t .counterClockwise r.innerRings).Perm (boundary t' .counterClockwise r'.innerRings)) ∧
        r' ∈ t'.regions ∧ k.data = r'.data ∧ ∃ outer inner : List NormRing, k.outerRings = outer.map normRingToRing ∧
          k.innerRings = inner.map normRingToRing ∧
          (∃ ns merged, NormalizedRings t' .clockwise r'.outerRings ns outer merged) ∧
          (∃ ns merged, NormalizedRings t' .counterClockwise r'.innerRings ns inner merged))
      fun r r' k h1 h2 => ⟨r', h1, h2⟩) ?_
    rintro k r k' ⟨hr, hd, outer, inner, e1, e2, ⟨n1, m1, g1⟩, ⟨n2, m2, g2⟩⟩
      ⟨r', ⟨sd, so, si⟩, hr', hd', outer', inner', e1', e2', ⟨n1', m1', g1'⟩, ⟨n2', m2', g2'⟩⟩
    have x1 := g1.extended fun ring hring => extended_nedges hw.pointers hw.extended (mem_allRings_outer hr ring hring)
    have x2 := g2.extended fun ring hring => extended_nedges hw.pointers hw.extended (mem_allRings_inner hr ring hring)
    have x1' := g1'.extended fun ring hring => extended_nedges hw'.pointers hw'.extended (mem_allRings_outer hr' ring hring)
    have x2' := g2'.extended fun ring hring => extended_nedges hw'.pointers hw'.extended (mem_allRings_inner hr' ring hring)
    have q1 : outer = outer' := rings_unique g1.nice x1 g1'.nice x1' g1.sorted g1'.sorted
      (g1.segs.trans (so.trans g1'.segs.symm)) ((g1.segs.map _).nodup_iff.mpr (ho r hr).1)
    have q2 : inner = inner' := rings_unique g2.nice x2 g2'.nice x2' g2.sorted g2'.sorted
      (g2.segs.trans (si.trans g2'.segs.symm)) ((g2.segs.map _).nodup_iff.mpr (ho r hr).2)
    obtain ⟨d, o, i⟩ := k
    obtain ⟨d', o', i'⟩ := k'
    simp only at hd hd' e1 e2 e1' e2'
    rw [hd, hd', e1, e2, e1', e2', sd, q1, q2]
  rw [List.forall₂_eq_eq_eq] at heq
  subst heq
  exact ((buildTopology_congr h1 rfl).1 u' h1').symm

/-- C79: the normalized topology of a map does not depend on how the map is
drawn: where rings start, which way they are walked, and the order in which
the rings of a region are listed. -/
theorem C79_same_map {δ : Type} (m1 m2 m3 m4 : Build) (rs rs' : List (Region δ)) (t t' u u' : Topology δ)
    (hb : buildTopology m1 rs = .ok t) (hb' : buildTopology m2 rs' = .ok t') (hs : SameMap rs rs')
    (hc : ∀ r ∈ rs, ∀ ring ∈ r.outerRings ++ r.innerRings, ringArea ring ≠ 0 → ClosedRing (ringPaths ring))
    (hc' : ∀ r ∈ rs', ∀ ring ∈ r.outerRings ++ r.innerRings, ringArea ring ≠ 0 → ClosedRing (ringPaths ring))
    (hopen : ∀ e ∈ allPaths rs, e.head? ≠ e.getLast?)
    (harea : ∀ r ∈ rs, ∀ ring ∈ r.outerRings ++ r.innerRings, ringArea ring ≠ -2 ^ 63) (ho : PassedOnce t)
    (h : normalize m3 t = .ok u) (h' : normalize m4 t' = .ok u') : u = u' := by
  refine C79_canonical m3 m4 t t' u u' (wellFormed_of_built hb hc).1 (wellFormed_of_built hb' hc').1 ?_ ho h h'
  refine sameBoundaries hb hb' hs (fun e he => Or.inl (hopen e he)) ?_
  intro k hk ps hps
  obtain ⟨r, hr, rfl⟩ := List.mem_map.mp hk
  have hr := List.mem_of_mem_filter hr
  have : ∃ ring ∈ r.outerRings ++ r.innerRings, ringArea ring ≠ 0 ∧ ringPaths ring = ps := by
    rcases List.mem_append.mp hps with hp | hp
    · obtain ⟨ring, h1, h2⟩ := List.mem_map.mp hp
      obtain ⟨h3, h4⟩ := List.mem_filter.mp h1
      exact ⟨ring, by simp [h3], by simpa using h4, h2⟩
    · obtain ⟨ring, h1, h2⟩ := List.mem_map.mp hp
      obtain ⟨h3, h4⟩ := List.mem_filter.mp h1
      exact ⟨ring, by simp [h3], by simpa using h4, h2⟩
  obtain ⟨ring, h1, h2, rfl⟩ := this
  rw [shoelaceEdges_ringPaths]
  exact ⟨h2, harea r hr ring h1⟩

/-! ## Examples -/

/-- Two regions side by side, the first with a second part and a hole. -/
def exDrawn : List (Region String) :=
  [⟨"A", [.points [⟨1, 1⟩, ⟨9, 1⟩, ⟨9, 9⟩, ⟨1, 9⟩, ⟨1, 1⟩], .points [⟨11, 1⟩, ⟨12, 1⟩, ⟨12, 2⟩, ⟨11, 1⟩]],
    [.points [⟨3, 3⟩, ⟨3, 5⟩, ⟨5, 5⟩, ⟨3, 3⟩]]⟩,
   ⟨"B", [.points [⟨9, 1⟩, ⟨10, 1⟩, ⟨10, 9⟩, ⟨9, 9⟩, ⟨9, 1⟩]], []⟩]

/-- The same regions: the parts in another order, rings started elsewhere, and
two of them walked the other way. -/
def exRedrawn : List (Region String) :=
  [⟨"A", [.points [⟨12, 2⟩, ⟨12, 1⟩, ⟨11, 1⟩, ⟨12, 2⟩], .points [⟨9, 9⟩, ⟨1, 9⟩, ⟨1, 1⟩, ⟨9, 1⟩, ⟨9, 9⟩]],
    [.points [⟨5, 5⟩, ⟨3, 3⟩, ⟨3, 5⟩, ⟨5, 5⟩]]⟩,
   ⟨"B", [.points [⟨10, 9⟩, ⟨10, 1⟩, ⟨9, 1⟩, ⟨9, 9⟩, ⟨10, 9⟩]], []⟩]

/-- Their topologies. -/
def exDrawnTopo : Topology String := (buildTopology .debug exDrawn).toOption.getD ⟨[], []⟩
def exRedrawnTopo : Topology String := (buildTopology .debug exRedrawn).toOption.getD ⟨[], []⟩

-- the hypotheses hold, the topologies differ, the normalized ones are equal
example : buildTopology .debug exDrawn = .ok exDrawnTopo ∧ buildTopology .debug exRedrawn = .ok exRedrawnTopo ∧
    exDrawnTopo ≠ exRedrawnTopo ∧ PassedOnce exDrawnTopo ∧
    (∀ e ∈ allPaths exDrawn, e.head? ≠ e.getLast?) ∧
    (∀ r ∈ exDrawn, ∀ ring ∈ r.outerRings ++ r.innerRings, ringArea ring ≠ -2 ^ 63) ∧
    (∀ r ∈ exDrawn, ∀ ring ∈ r.outerRings ++ r.innerRings, ringArea ring ≠ 0 → ClosedRing (ringPaths ring)) ∧
    (∀ r ∈ exRedrawn, ∀ ring ∈ r.outerRings ++ r.innerRings, ringArea ring ≠ 0 → ClosedRing (ringPaths ring)) ∧
    (normalize .debug exDrawnTopo).isOk ∧ normalize .debug exDrawnTopo = normalize .debug exRedrawnTopo := by
  decide +kernel

example : SameMap exDrawn exRedrawn := by
  have hk : keptRegions exDrawn = [⟨"A", [pairs [⟨1, 1⟩, ⟨9, 1⟩, ⟨9, 9⟩, ⟨1, 9⟩, ⟨1, 1⟩],
      pairs [⟨11, 1⟩, ⟨12, 1⟩, ⟨12, 2⟩, ⟨11, 1⟩]], [pairs [⟨3, 3⟩, ⟨3, 5⟩, ⟨5, 5⟩, ⟨3, 3⟩]]⟩,
      ⟨"B", [pairs [⟨9, 1⟩, ⟨10, 1⟩, ⟨10, 9⟩, ⟨9, 9⟩, ⟨9, 1⟩]], []⟩] := by rfl
  have hk' : keptRegions exRedrawn = [⟨"A", [pairs [⟨12, 2⟩, ⟨12, 1⟩, ⟨11, 1⟩, ⟨12, 2⟩],
      pairs [⟨9, 9⟩, ⟨1, 9⟩, ⟨1, 1⟩, ⟨9, 1⟩, ⟨9, 9⟩]], [pairs [⟨5, 5⟩, ⟨3, 3⟩, ⟨3, 5⟩, ⟨5, 5⟩]]⟩,
      ⟨"B", [pairs [⟨10, 9⟩, ⟨10, 1⟩, ⟨9, 1⟩, ⟨9, 9⟩, ⟨10, 9⟩]], []⟩] := by rfl
  unfold SameMap
  rw [hk, hk']
  refine .cons ⟨rfl, ⟨_, List.Perm.swap _ _ _, .cons (Or.inl ⟨2, rfl⟩) (.cons (Or.inr ⟨2, rfl⟩) .nil)⟩,
    ⟨_, List.Perm.refl _, .cons (Or.inl ⟨2, rfl⟩) .nil⟩⟩
    (.cons ⟨rfl, ⟨_, List.Perm.refl _, .cons (Or.inr ⟨2, rfl⟩) .nil⟩, ⟨_, List.Perm.refl _, .nil⟩⟩ .nil)

/-- A square, given as two halves, and in one piece. -/
def exHalves : Topology String := (buildTopology .debug
  [⟨"A", [.points [⟨1, 1⟩, ⟨2, 1⟩, ⟨2, 2⟩, ⟨1, 2⟩, ⟨1, 1⟩], .points [⟨1, 2⟩, ⟨2, 2⟩, ⟨2, 3⟩, ⟨1, 3⟩, ⟨1, 2⟩]], []⟩]).toOption.getD ⟨[], []⟩
def exWhole : Topology String := (buildTopology .debug
  [⟨"A", [.points [⟨2, 2⟩, ⟨2, 3⟩, ⟨1, 3⟩, ⟨1, 2⟩, ⟨1, 1⟩, ⟨2, 1⟩, ⟨2, 2⟩]], []⟩]).toOption.getD ⟨[], []⟩

-- regions that are given in parts that share edges: the boundaries are the
-- same, and so are the normalized topologies
example : exHalves ≠ exWhole ∧ PassedOnce exHalves ∧ (normalize .debug exHalves).isOk ∧
    normalize .debug exHalves = normalize .debug exWhole ∧
    exHalves.regions.map (fun r => (boundary exHalves .clockwise r.outerRings).length) = [6] := by decide +kernel

/-- Two triangles that touch in a point, as one ring, started at that point. -/
def exPinched : List (Region String) :=
  [⟨"A", [.points [⟨1, 5⟩, ⟨5, 1⟩, ⟨5, 4⟩, ⟨1, 5⟩, ⟨5, 6⟩, ⟨5, 9⟩, ⟨1, 5⟩]], []⟩]

/-- The same ring, with the other triangle first. -/
def exPinched' : List (Region String) :=
  [⟨"A", [.points [⟨1, 5⟩, ⟨5, 6⟩, ⟨5, 9⟩, ⟨1, 5⟩, ⟨5, 1⟩, ⟨5, 4⟩, ⟨1, 5⟩]], []⟩]

theorem exPinched_same : SameMap exPinched exPinched' := by
  have hk : keptRegions exPinched =
      [⟨"A", [pairs [⟨1, 5⟩, ⟨5, 1⟩, ⟨5, 4⟩, ⟨1, 5⟩, ⟨5, 6⟩, ⟨5, 9⟩, ⟨1, 5⟩]], []⟩] := by rfl
  have hk' : keptRegions exPinched' =
      [⟨"A", [pairs [⟨1, 5⟩, ⟨5, 6⟩, ⟨5, 9⟩, ⟨1, 5⟩, ⟨5, 1⟩, ⟨5, 4⟩, ⟨1, 5⟩]], []⟩] := by rfl
  unfold SameMap
  rw [hk, hk']
  exact .cons ⟨rfl, ⟨_, List.Perm.refl _, .cons (Or.inl ⟨3, rfl⟩) .nil⟩, ⟨_, List.Perm.refl _, .nil⟩⟩ .nil

/-- C79: the condition that each point is passed once cannot be left out. A
ring that passes over its leftmost point twice keeps, of the two places to
start, the one that is listed first. -/
theorem C79_pinched : SameMap exPinched exPinched' ∧ ∃ t t' u u' : Topology String,
    buildTopology .debug exPinched = .ok t ∧ buildTopology .debug exPinched' = .ok t' ∧
    normalize .debug t = .ok u ∧ normalize .debug t' = .ok u' ∧ u ≠ u' :=
  ⟨exPinched_same, (buildTopology .debug exPinched).toOption.getD ⟨[], []⟩,
    (buildTopology .debug exPinched').toOption.getD ⟨[], []⟩,
    (normalize .debug ((buildTopology .debug exPinched).toOption.getD ⟨[], []⟩)).toOption.getD ⟨[], []⟩,
    (normalize .debug ((buildTopology .debug exPinched').toOption.getD ⟨[], []⟩)).toOption.getD ⟨[], []⟩,
    by decide +kernel⟩

end TopoGeo
