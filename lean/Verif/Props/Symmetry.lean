import Verif.Proofs.SymmetryBuild
import Verif.Props.Topology
import Verif.Props.ClipTopology
import Verif.Props.MovedMap
import Mathlib.Tactic.LinearCombination
/-!
# Property C111: mirrored and turned maps
-/

namespace TopoGeo

open Spec

variable {δ : Type} (g : GridSymmetry)

/-- C111: a symmetry takes different points to different points, and keeps distances. -/
theorem C111_grid (p q : Point) : (g.point p = g.point q ↔ p = q) ∧
    ((g.point p).xi - (g.point q).xi) ^ 2 + ((g.point p).yi - (g.point q).yi) ^ 2 = (p.xi - q.xi) ^ 2 + (p.yi - q.yi) ^ 2 := by
  refine ⟨symmetry_inj g, ?_⟩
  have h := flipped_toNat
  have hx : flipSign g.flipX ^ 2 = 1 := by rcases flipSign_cases g.flipX with h | h <;> rw [h] <;> rfl
  have hy : flipSign g.flipY ^ 2 = 1 := by rcases flipSign_cases g.flipY with h | h <;> rw [h] <;> rfl
  unfold GridSymmetry.point
  split
  · simp only [Point.xi, Point.yi, h]
    linear_combination ((p.y.toNat : Int) - q.y.toNat) ^ 2 * hx + ((p.x.toNat : Int) - q.x.toNat) ^ 2 * hy
  · simp only [Point.xi, Point.yi, h]
    linear_combination ((p.x.toNat : Int) - q.x.toNat) ^ 2 * hx + ((p.y.toNat : Int) - q.y.toNat) ^ 2 * hy

/-- C111: the four masks treat the four directions alike: which side a point is on, and
where a line that crosses the mask line does, panics included. -/
theorem C111_mask (m : Build) (mask : ClipMask) (p q : Point) :
    (g.mask mask).test (g.point p) = mask.test p ∧
    (Crosses mask p q → (g.mask mask).intersect m (g.point p) (g.point q) = (mask.intersect m p q).map g.point) :=
  ⟨test_symmetry g mask p, intersect_symmetry g⟩

/-- C111: clipping an edge commutes with the symmetries, panics included. -/
theorem C111_edge (m : Build) (mask : ClipMask) (ps : List Point) :
    clipEdge m (g.mask mask) (ps.map g.point) = (clipEdge m mask ps).map (List.map g.point) :=
  clipEdge_symmetry g ps

/-- C111: clipping a mirrored or turned map gives the mirrored or turned clipped map. -/
theorem C111_clip (m : Build) (mask : ClipMask) (t t1 t2 : Topology δ) (h1 : clipTopology m t mask = .ok t1)
    (h2 : clipTopology m (g.topology t) (g.mask mask) = .ok t2) : outlines t2 = (outlines t1).map g.outline :=
  outlines_turned g h1 h2

theorem plugPiece_edge {p q r s : Point} (h : p ≠ q) (h' : r ≠ s) :
    (plugPiece p q).edge = (plugPiece r s).edge ↔ (p = r ∧ q = s) ∨ (p = s ∧ q = r) := by
  have hq : ∀ {a b : Point}, a ≠ b → ¬ a < b → b < a := fun h1 h2 =>
    ((Point.trichotomy _ _).resolve_left h2).resolve_left h1
  unfold plugPiece
  by_cases h1 : p < q <;> by_cases h2 : r < s
  · simp only [h1, h2, if_true, PieceEdge.plug.injEq]
    refine ⟨.inl, ?_⟩
    rintro (h3 | ⟨rfl, rfl⟩)
    · exact h3
    · exact absurd h2 (Point.lt_asymm h1)
  · simp only [h1, h2, if_true, if_false, PieceEdge.plug.injEq]
    refine ⟨.inr, ?_⟩
    rintro (⟨rfl, rfl⟩ | h3)
    · exact absurd h1 h2
    · exact h3
  · simp only [h1, h2, if_true, if_false, PieceEdge.plug.injEq]
    refine ⟨fun h => .inr ⟨h.2, h.1⟩, ?_⟩
    rintro (⟨rfl, rfl⟩ | h3)
    · exact absurd h2 h1
    · exact ⟨h3.2, h3.1⟩
  · simp only [h1, h2, if_false, PieceEdge.plug.injEq]
    refine ⟨fun h => .inl ⟨h.2, h.1⟩, ?_⟩
    rintro (h3 | ⟨rfl, rfl⟩)
    · exact ⟨h3.2, h3.1⟩
    · exact absurd (hq h h1) h2

/-- What a piece is made of. -/
def ProperPiece (pc : Piece) : Prop := (∃ i, pc.edge = .kept i) ∨ ∃ p q, p ≠ q ∧ pc = plugPiece p q

theorem turnPiece_edge {a b : Piece} (ha : ProperPiece a) (hb : ProperPiece b) :
    (turnPiece g a).edge = (turnPiece g b).edge ↔ a.edge = b.edge := by
  have hk : ∀ {pc : Piece} {i : Nat}, pc.edge = .kept i → (turnPiece g pc).edge = .kept i := by
    rintro ⟨e, d⟩ i h
    obtain rfl : e = .kept i := h
    rfl
  have hn : ∀ {p q : Point} {i : Nat}, (plugPiece p q).edge ≠ .kept i := by
    intro p q i h
    unfold plugPiece at h
    split at h <;> cases h
  rcases ha with ⟨i, hi⟩ | ⟨p, q, hpq, rfl⟩ <;> rcases hb with ⟨j, hj⟩ | ⟨r, s, hrs, rfl⟩
  · rw [hk hi, hk hj, hi, hj]
  · rw [hk hi, hi, turnPiece_plug]
    exact ⟨fun h => absurd h.symm hn, fun h => absurd h.symm hn⟩
  · rw [hk hj, hj, turnPiece_plug]
    exact ⟨fun h => absurd h hn, fun h => absurd h hn⟩
  · rw [turnPiece_plug, turnPiece_plug, plugPiece_edge hpq hrs,
      plugPiece_edge (fun h => hpq ((symmetry_inj g).mp h)) (fun h => hrs ((symmetry_inj g).mp h))]
    simp only [symmetry_inj]

theorem properPiece {cs : List (List Point)} {rs : List (TopoRegion δ)} {pc : Piece}
    (h : pc ∈ allPieces (clippedRegions cs rs)) : ProperPiece pc := by
  obtain ⟨_, r, _, ring, _, h2⟩ := mem_allPieces h
  rcases mem_clippedPieces h2 with ⟨de, _, hv⟩ | ⟨p, q, hpq, rfl⟩
  · obtain ⟨rfl, _⟩ := visiblePiece_some hv
    exact .inl ⟨_, rfl⟩
  · exact .inr ⟨p, q, hpq, rfl⟩

/-- How often an edge is used. -/
def pieceUses (l : List Piece) (e : PieceEdge) : Nat := (l.filter fun pc => pc.edge = e).length

theorem pieceUses_turned {l : List Piece} (hl : ∀ pc ∈ l, ProperPiece pc) :
    (∃ e, 3 ≤ pieceUses (l.map (turnPiece g)) e) ↔ ∃ e, 3 ≤ pieceUses l e := by
  have hcount : ∀ pc ∈ l, pieceUses (l.map (turnPiece g)) (turnPiece g pc).edge = pieceUses l pc.edge := by
    intro pc hpc
    unfold pieceUses
    rw [List.filter_map, List.length_map]
    congr 1
    apply List.filter_congr
    intro a ha
    simp [turnPiece_edge g (hl a ha) (hl pc hpc)]
  constructor
  · rintro ⟨e, he⟩
    cases hf : (l.map (turnPiece g)).filter fun pc => pc.edge = e with
    | nil => unfold pieceUses at he; rw [hf] at he; simp at he
    | cons x xs =>
      have hx : x ∈ (l.map (turnPiece g)).filter fun pc => pc.edge = e := by rw [hf]; simp
      obtain ⟨h1, h2⟩ := List.mem_filter.mp hx
      obtain ⟨pc, hpc, rfl⟩ := List.mem_map.mp h1
      simp only [decide_eq_true_eq] at h2
      exact ⟨pc.edge, by rw [← hcount pc hpc, h2]; exact he⟩
  · rintro ⟨e, he⟩
    cases hf : l.filter fun pc => pc.edge = e with
    | nil => unfold pieceUses at he; rw [hf] at he; simp at he
    | cons x xs =>
      have hx : x ∈ l.filter fun pc => pc.edge = e := by rw [hf]; simp
      obtain ⟨h1, h2⟩ := List.mem_filter.mp hx
      simp only [decide_eq_true_eq] at h2
      exact ⟨(turnPiece g x).edge, by rw [hcount x h1, h2]; exact he⟩

/-- C111: in a release build, which does not stop at overflows, clipping the one succeeds
if and only if clipping the other does. -/
theorem C111_clip_release (mask : ClipMask) (t : Topology δ) (hde : ∀ de ∈ allDirectedEdges t, de.edge < t.edges.length) :
    (∃ t2, clipTopology .release (g.topology t) (g.mask mask) = .ok t2) ↔ ∃ t1, clipTopology .release t mask = .ok t1 := by
  obtain ⟨cs, a1, a2, a3⟩ := C36_panics mask t hde
  obtain ⟨ds, b1, b2, b3⟩ := C36_panics (g.mask mask) (g.topology t) (by
    intro de h
    show de.edge < (t.edges.map _).length
    rw [List.length_map]
    exact hde de h)
  obtain rfl := clippedBy_unique b1 (clippedBy_turned g a1)
  have key := pieceUses_turned g (fun pc h => properPiece (cs := cs) (rs := t.regions) h)
  rw [← allPieces_turned, ← clippedRegions_turned] at key
  have hiff : ∀ {t : Topology δ} {mask : ClipMask} {l : List Piece},
      ((∃ e, 3 ≤ (l.filter fun pc => pc.edge = e).length) → clipTopology .release t mask = .error .assert) →
      ((∀ e, (l.filter fun pc => pc.edge = e).length ≤ 2) → ∃ t', clipTopology .release t mask = .ok t') →
      ((∃ t', clipTopology .release t mask = .ok t') ↔ ¬ ∃ e, 3 ≤ pieceUses l e) := by
    intro t mask l h1 h2
    constructor
    · rintro ⟨t', ht⟩ h3
      rw [h1 h3] at ht
      cases ht
    · intro h3
      push Not at h3
      exact h2 fun e => by have := h3 e; unfold pieceUses at this; omega
  rw [hiff a2 a3, hiff b2 b3]
  exact not_congr key

/-- C111: building a mirrored or turned map gives the mirrored or turned topology, but for
the directions in which edges are stored. -/
theorem C111_build (m : Build) (rs : List (Region δ)) (t1 t2 : Topology δ)
    (hc : ∀ r ∈ rs, ∀ ring ∈ r.outerRings ++ r.innerRings, RingCloses ring)
    (h1 : buildTopology m rs = .ok t1) (h2 : buildTopology m (rs.map g.region) = .ok t2) :
    outlines t2 = (outlines t1).map g.outline := by
  rw [outlines_build h1, outlines_build h2, keptRegions_turned g hc, List.map_map, List.map_map]
  rfl

/-- C111: in a release build, the one succeeds if and only if the other does. -/
theorem C111_build_release (rs : List (Region δ))
    (hc : ∀ r ∈ rs, ∀ ring ∈ r.outerRings ++ r.innerRings, RingCloses ring) :
    (∃ t2, buildTopology .release (rs.map g.region) = .ok t2) ↔ ∃ t1, buildTopology .release rs = .ok t1 := by
  have key : ∀ rs : List (Region δ), (∃ t, buildTopology .release rs = .ok t) ↔
      ¬ ∃ p, 3 ≤ ((allPaths rs).filter fun e => stored e = p).length := by
    intro rs
    obtain ⟨b, hb⟩ := C12_add_region_total rs
    obtain ⟨h1, h2⟩ := C12_into_topology .release rs b hb
    unfold buildTopology
    rw [hb, ok_bind]
    constructor
    · rintro ⟨t, ht⟩ h3
      rw [h1 h3] at ht
      cases ht
    · intro h3
      push Not at h3
      exact h2 fun p => by have := h3 p; omega
  rw [key, key, thrice_turned g hc]

/-- C111: but it is not so in a checked build: far from the origin the areas overflow, near it
they do not. -/
theorem C111_debug_refuted : ∃ (g : GridSymmetry) (mask : ClipMask) (t : Topology Nat) (t1 : Topology Nat),
    clipTopology .debug t mask = .ok t1 ∧
      clipTopology .debug (g.topology t) (g.mask mask) = .error .overflow := by
  let t : Topology Nat := (buildTopology .debug [⟨1, [.points [⟨0, 0⟩, ⟨9, 0⟩, ⟨9, 9⟩, ⟨0, 0⟩]], []⟩]).toOption.getD ⟨[], []⟩
  refine ⟨⟨false, true, true⟩, .minX 4, t, (clipTopology .debug t (.minX 4)).toOption.getD ⟨[], []⟩, ?_, ?_⟩ <;>
    decide +kernel

/-- C111: normalizing does not commute with the symmetries: a ring begins where it is leftmost,
and the leftmost point of a mirrored ring is another. -/
theorem C111_normalize_refuted : ∃ (g : GridSymmetry) (t t1 t2 : Topology Nat),
    normalize .debug t = .ok t1 ∧ normalize .debug (g.topology t) = .ok t2 ∧
      outlines t2 ≠ (outlines t1).map g.outline := by
  let t : Topology Nat := (buildTopology .debug [⟨1, [.points [⟨0, 0⟩, ⟨9, 0⟩, ⟨9, 9⟩, ⟨0, 0⟩]], []⟩]).toOption.getD ⟨[], []⟩
  refine ⟨⟨false, true, false⟩, t, (normalize .debug t).toOption.getD ⟨[], []⟩,
    (normalize .debug (GridSymmetry.topology ⟨false, true, false⟩ t)).toOption.getD ⟨[], []⟩, ?_, ?_, ?_⟩ <;>
    decide +kernel

/-- C111: going along an edge the other way is not a symmetry: where it crosses the mask line is
rounded towards the start. -/
theorem C111_reverse_refuted : ∃ (mask : ClipMask) (ps qs qs' : List Point),
    clipEdge .debug mask ps = .ok qs ∧ clipEdge .debug mask ps.reverse = .ok qs' ∧ qs' ≠ qs.reverse := by
  refine ⟨.minX 1, [⟨0, 0⟩, ⟨2, 1⟩], (clipEdge .debug (.minX 1) [⟨0, 0⟩, ⟨2, 1⟩]).toOption.getD [],
    (clipEdge .debug (.minX 1) [⟨2, 1⟩, ⟨0, 0⟩]).toOption.getD [], ?_, ?_, ?_⟩ <;> decide +kernel

/-- The map of the example of C75, mirrored left to right. -/
def exMirrored : List (Region String) := (exPlaced 0 0 "A" "B").map (GridSymmetry.region ⟨false, true, false⟩)

/-- Its topology. -/
def exMirroredTopology : Topology String := (buildTopology .release exMirrored).toOption.getD ⟨[], []⟩

example : (∀ r ∈ exPlaced 0 0 "A" "B", ∀ ring ∈ r.outerRings ++ r.innerRings, RingCloses ring) ∧
    buildTopology .release exMirrored = .ok exMirroredTopology ∧ exMirroredTopology.edges.length = 8 ∧
    (exMirroredTopology.edges.map (·.points) ≠
      (exPlacedTopology 0 0 "A" "B").edges.map fun e => (GridSymmetry.path ⟨false, true, false⟩ e.points)) := by
  decide +kernel

example : Crosses (.minX 5) ⟨0, 0⟩ ⟨9, 4⟩ ∧ (ClipMask.minX 5).intersect .debug ⟨0, 0⟩ ⟨9, 4⟩ = .ok ⟨5, 2⟩ ∧
    GridSymmetry.mask ⟨true, false, true⟩ (.minX 5) = .maxY 4294967290 ∧
    (ClipMask.maxY 4294967290).intersect .debug ⟨0, 4294967295⟩ ⟨4, 4294967286⟩ = .ok ⟨2, 4294967290⟩ := by
  refine ⟨?_, by decide +kernel, by decide +kernel, by decide +kernel⟩
  unfold Crosses
  decide +kernel

example : ((clipTopology .release (exPlacedTopology 0 0 "A" "B") (.minX 5)).map fun t => t.edges.length) = .ok 8 ∧
    ((clipTopology .release (GridSymmetry.topology ⟨false, true, false⟩ (exPlacedTopology 0 0 "A" "B"))
      (.maxX 4294967290)).map fun t => t.edges.length) = .ok 8 ∧
    (∀ de ∈ allDirectedEdges (exPlacedTopology 0 0 "A" "B"), de.edge < (exPlacedTopology 0 0 "A" "B").edges.length) := by
  decide +kernel

end TopoGeo
