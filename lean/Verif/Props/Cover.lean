import Verif.Proofs.Cover
import Verif.Props.Topology
import Verif.Props.Simplify
/-!
# What all regions together cover: before and after simplifying

C88 is about points: how many regions cover a point is odd or even by the border
alone, that is, by the edges with a ring on one side only. C89 is about areas: so
is the sum of the signed areas. Both say what sharing edges is for. Where two
regions share an edge, no change to that edge opens a gap between them.
-/

namespace TopoGeo

open Spec

/-- The border keeps its points. -/
def BorderKept {δ : Type} (t t' : Topology δ) : Prop :=
  ∀ (i : Nat) (e e' : TopoEdge), t.edges[i]? = some e → t'.edges[i]? = some e' → OnBorder e → e'.points = e.points

theorem borderKept_forall₂ {δ : Type} {m : Build} {t t' : Topology δ} {s : Nat} (h : simplify m t s = .ok t')
    (hk : BorderKept t t') :
    List.Forall₂ (fun e e' => (OnBorder e' ↔ OnBorder e) ∧ (OnBorder e → e'.points = e.points)) t.edges t'.edges := by
  obtain ⟨_, h2⟩ := C45_frame m t t' s h
  rw [List.forall₂_iff_get]
  obtain ⟨h3, h4⟩ := List.forall₂_iff_get.mp h2
  refine ⟨h3, fun i h5 h6 => ⟨?_, ?_⟩⟩
  · obtain ⟨_, h7, h8⟩ := h4 i h5 h6
    unfold OnBorder
    rw [h7, h8]
  · exact hk i _ _ (List.getElem?_eq_getElem h5) (List.getElem?_eq_getElem h6)

/-- C88: whatever topology has exact back pointers, the number of regions that
cover a point is odd iff the border goes around the point. The edges between two
regions do not matter. -/
theorem C88_parity {δ : Type} (t : Topology δ) (hb : BackPointersExact t) (x y : ℚ) :
    Odd (cover t x y) ↔ Encloses (borderSegs t) x y :=
  odd_cover hb x y

/-- C88, for what the builder returns. -/
theorem C88_build {δ : Type} (m : Build) (rs : List (Region δ)) (t : Topology δ) (h : buildTopology m rs = .ok t)
    (x y : ℚ) : Odd (cover t x y) ↔ Encloses (borderSegs t) x y :=
  odd_cover (C11_back_pointers m rs t h).1 x y

/-- C88: simplifying moves a point from an odd to an even number of regions, or
back, only if the border moves past it. -/
theorem C88_simplify {δ : Type} (m : Build) (t t' : Topology δ) (s : Nat) (h : simplify m t s = .ok t')
    (hb : BackPointersExact t) (x y : ℚ) :
    (Odd (cover t' x y) ↔ Odd (cover t x y)) ↔ (Encloses (borderSegs t') x y ↔ Encloses (borderSegs t) x y) := by
  rw [odd_cover hb, odd_cover (C45_back_pointers m t t' s h hb)]

/-- C88: simplifying opens no gap between regions. If the border keeps its
points, then every point that belonged to exactly one region belongs to an odd
number of them, and so to at least one; and a point that belonged to none belongs
to an even number. -/
theorem C88_no_gap {δ : Type} (m : Build) (t t' : Topology δ) (s : Nat) (h : simplify m t s = .ok t')
    (hb : BackPointersExact t) (hk : BorderKept t t') (x y : ℚ) :
    (Odd (cover t' x y) ↔ Odd (cover t x y)) ∧ (cover t x y = 1 → 1 ≤ cover t' x y) := by
  have h1 : Odd (cover t' x y) ↔ Odd (cover t x y) := by
    rw [C88_simplify m t t' s h hb, borderSegs_congr t t' (borderKept_forall₂ h hk)]
  refine ⟨h1, fun h2 => ?_⟩
  have := h1.mpr (by rw [h2]; exact odd_one)
  exact this.pos

/-- C89: whatever topology has exact back pointers and has neighbours run along
their common edges in opposite directions, the signed areas of its regions add up
to the signed area along the border. -/
theorem C89_total {δ : Type} (t : Topology δ) (hb : BackPointersExact t) (ho : Opposed t) :
    mapShoelace t = borderShoelace t :=
  mapShoelace_border hb ho

/-- C89: if the border keeps its points, simplifying does not change the sum of
the areas: what one region loses, its neighbours gain. -/
theorem C89_simplify {δ : Type} (m : Build) (t t' : Topology δ) (s : Nat) (h : simplify m t s = .ok t')
    (hb : BackPointersExact t) (ho : Opposed t) (hk : BorderKept t t') : mapShoelace t' = mapShoelace t := by
  obtain ⟨hr, _⟩ := C45_frame m t t' s h
  have ho' : Opposed t' := by
    unfold Opposed allDirectedEdges allRings
    rw [hr]
    exact ho
  rw [mapShoelace_border hb ho, mapShoelace_border (C45_back_pointers m t t' s h hb) ho']
  obtain ⟨h3, h4⟩ := List.forall₂_iff_get.mp (borderKept_forall₂ h hk)
  apply borderShoelace_congr t t' hr
  intro i
  constructor
  · intro e he
    obtain ⟨h5, h6⟩ := List.getElem?_eq_some_iff.mp he
    have h7 : i < t'.edges.length := by omega
    have h8 := h4 i h5 h7
    simp only [List.get_eq_getElem] at h8
    rw [h6] at h8
    exact ⟨_, List.getElem?_eq_getElem h7, h8⟩
  · intro he
    rw [List.getElem?_eq_none_iff] at he ⊢
    omega

/-! ## The hypotheses can be met -/

/-- Two regions, one above the other, that share an edge with a bend. -/
def exStackRegions : List (Region String) :=
  [⟨"A", [.edges [[⟨10, 50⟩, ⟨30, 52⟩, ⟨90, 50⟩], [⟨90, 50⟩, ⟨90, 10⟩, ⟨10, 10⟩, ⟨10, 50⟩]]], []⟩,
   ⟨"B", [.edges [[⟨10, 50⟩, ⟨10, 90⟩, ⟨90, 90⟩, ⟨90, 50⟩], [⟨90, 50⟩, ⟨30, 52⟩, ⟨10, 50⟩]]], []⟩]

/-- Their topology, with some shared edge. -/
def exStackWith (shared : List Point) : Topology String :=
  ⟨[⟨"A", [⟨[⟨0, .forward⟩, ⟨1, .backward⟩], some 0⟩], []⟩, ⟨"B", [⟨[⟨2, .forward⟩, ⟨0, .backward⟩], some 1⟩], []⟩],
    [⟨shared, some ⟨0, false, 0⟩, some ⟨1, false, 0⟩⟩,
     ⟨[⟨10, 50⟩, ⟨10, 10⟩, ⟨90, 10⟩, ⟨90, 50⟩], some ⟨0, false, 0⟩, none⟩,
     ⟨[⟨10, 50⟩, ⟨10, 90⟩, ⟨90, 90⟩, ⟨90, 50⟩], some ⟨1, false, 0⟩, none⟩]⟩

/-- Their topology. -/
def exStack : Topology String := exStackWith [⟨10, 50⟩, ⟨30, 52⟩, ⟨90, 50⟩]

/-- It, simplified. -/
def exStackSimple : Topology String := exStackWith [⟨10, 50⟩, ⟨90, 50⟩]

theorem exStack_built : buildTopology .debug exStackRegions = .ok exStack := by decide +kernel

theorem exStack_kept : BorderKept exStack exStackSimple := by
  intro i e e' he he' hb
  match i with
  | 0 => cases he; exact absurd hb (by decide)
  | 1 => cases he; cases he'; rfl
  | 2 => cases he; cases he'; rfl
  | n + 3 => cases he

/-- The shared edge loses its bend, and the border stays. The point `(30, 51)`
moves from A to B; it is covered once before and once after. The areas differ, and
their sum does not. -/
example : simplify .debug exStack 200 = .ok exStackSimple ∧ BackPointersExact exStack ∧ Opposed exStack ∧
    BorderKept exStack exStackSimple ∧
    exStack.regions.map (fun r => decide (Encloses (topoRegionSegs exStack r) 30 51)) = [true, false] ∧
    exStackSimple.regions.map (fun r => decide (Encloses (topoRegionSegs exStackSimple r) 30 51)) = [false, true] ∧
    cover exStack 30 51 = 1 ∧ cover exStackSimple 30 51 = 1 ∧
    exStack.regions.map (regionShoelace exStack) = [-6560, -6240] ∧
    exStackSimple.regions.map (regionShoelace exStackSimple) = [-6400, -6400] ∧
    mapShoelace exStack = -12800 ∧ mapShoelace exStackSimple = -12800 :=
  ⟨by decide +kernel, (C11_back_pointers _ _ _ exStack_built).1, by decide +kernel, exStack_kept, by decide +kernel,
    by decide +kernel, by decide +kernel, by decide +kernel, by decide +kernel, by decide +kernel, by decide +kernel,
    by decide +kernel⟩

/-- The border must stay: where it does not, simplifying uncovers points. -/
example : ∃ (rs : List (Region String)) (t t' : Topology String), buildTopology .debug rs = .ok t ∧
    simplify .debug t 1000 = .ok t' ∧ cover t (1 / 2) 1 = 1 ∧ cover t' (1 / 2) 1 = 0 :=
  ⟨[⟨"A", [.edges [[⟨0, 0⟩, ⟨0, 10⟩, ⟨10, 10⟩, ⟨10, 0⟩, ⟨0, 0⟩]]], []⟩],
    ⟨[⟨"A", [⟨[⟨0, .backward⟩], some 0⟩], []⟩],
      [⟨[⟨0, 0⟩, ⟨10, 0⟩, ⟨10, 10⟩, ⟨0, 10⟩, ⟨0, 0⟩], some ⟨0, false, 0⟩, none⟩]⟩,
    ⟨[⟨"A", [⟨[⟨0, .backward⟩], some 0⟩], []⟩], [⟨[⟨0, 0⟩, ⟨10, 0⟩, ⟨10, 10⟩, ⟨0, 0⟩], some ⟨0, false, 0⟩, none⟩]⟩,
    by decide +kernel, by decide +kernel, by decide +kernel, by decide +kernel⟩

end TopoGeo
