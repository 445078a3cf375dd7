import Verif.Proofs.Symmetry
import Verif.Proofs.Local
/-!
# Rings of a mirrored or turned map, and clipping them
-/

namespace TopoGeo

open Spec

variable {m : Build} {mask : ClipMask} {δ : Type} (g : GridSymmetry)

/-! ## Areas -/

/-- Whether orientation changes. -/
def turnSign : Int := flipSign g.swap * (flipSign g.flipX * flipSign g.flipY)

/-- What is added to areas. -/
def turnShift (p : Point) : Int :=
  flipShift g.flipX * (flipSign g.flipY * (if g.swap then p.xi else p.yi)) -
    flipShift g.flipY * (flipSign g.flipX * (if g.swap then p.yi else p.xi))

theorem turnSign_cases : turnSign g = 1 ∨ turnSign g = -1 := by
  unfold turnSign
  rcases flipSign_cases g.swap with h | h <;> rcases sign_product g.flipX g.flipY with h' | h' <;> rw [h, h'] <;> simp

theorem cross_symmetry (p q : Point) :
    cross (g.point p) (g.point q) = turnSign g * cross p q + turnShift g q - turnShift g p := by
  have h := flipped_toNat
  unfold turnSign turnShift GridSymmetry.point
  cases g.swap <;>
    simp only [if_true, if_false, Bool.false_eq_true, cross, Point.xi, Point.yi, h, flipSign] <;> ring

theorem shoelace_symmetry {ps : List Point} {a z : Point} (ha : ps.head? = some a) (hz : ps.getLast? = some z) :
    shoelace (g.path ps) = turnSign g * shoelace ps + turnShift g z - turnShift g a := by
  induction ps generalizing a with
  | nil => cases ha
  | cons p ps ih =>
    obtain rfl : p = a := by simpa using ha
    cases ps with
    | nil =>
      obtain rfl : p = z := by simpa using hz
      simp [shoelace]
    | cons q ps =>
      have h1 : shoelace (g.path (p :: q :: ps)) = cross (g.point p) (g.point q) + shoelace (g.path (q :: ps)) := rfl
      have h2 : shoelace (p :: q :: ps) = cross p q + shoelace (q :: ps) := rfl
      rw [h1, h2, ih rfl (by simpa using hz), cross_symmetry]
      ring

theorem shoelaceEdges_symmetry {es : List (List Point)} {a b : Point} (hl : Leads a es b) :
    shoelaceEdges (es.map g.path) = turnSign g * shoelaceEdges es + turnShift g b - turnShift g a := by
  induction es generalizing a with
  | nil =>
    obtain rfl : a = b := hl
    simp [shoelaceEdges]
  | cons e es ih =>
    obtain ⟨h1, c, h2, h3⟩ := hl
    have h4 := ih h3
    have h5 := shoelace_symmetry g h1 h2
    unfold shoelaceEdges at h4 ⊢
    rw [List.map_cons, List.map_cons, List.map_cons, List.sum_cons, List.sum_cons, h4, h5]
    ring

theorem wrap64_turned (z : Int) : wrap64 (turnSign g * z) = 0 ↔ wrap64 z = 0 := by
  rcases turnSign_cases g with h | h <;> rw [h] <;> unfold wrap64 <;> omega

/-! ## Pieces -/

/-- The mirrored piece. -/
def turnPiece (pc : Piece) : Piece :=
  match pc.edge with
  | .kept i => ⟨.kept i, pc.direction⟩
  | .plug p q => match pc.direction with
    | .forward => plugPiece (g.point p) (g.point q)
    | .backward => plugPiece (g.point q) (g.point p)

variable {cs : List (List Point)}

theorem turned_points (i : Nat) : (cs.map g.path)[i]?.getD [] = g.path (cs[i]?.getD []) := by
  rw [List.getElem?_map]
  cases cs[i]? <;> rfl

theorem turnPiece_path (pc : Piece) : (turnPiece g pc).path (cs.map g.path) = g.path (pc.path cs) := by
  obtain ⟨e, d⟩ := pc
  cases e with
  | kept i =>
    simp only [turnPiece, Piece.path, PieceEdge.points, turned_points]
    cases d <;> simp [facing]
  | plug p q =>
    cases d <;> simp only [turnPiece, path_plugPiece] <;> rfl

theorem turnPiece_plug (p q : Point) : turnPiece g (plugPiece p q) = plugPiece (g.point p) (g.point q) := by
  conv_lhs => unfold plugPiece
  split <;> rfl

theorem gap_turned (a b : Option Point) : gap (a.map g.point) (b.map g.point) = (gap a b).map (turnPiece g) := by
  match a, b with
  | none, none => rfl
  | none, some _ => rfl
  | some _, none => rfl
  | some p, some q =>
    simp only [Option.map_some, gap, symmetry_inj]
    split
    · rfl
    · simp [turnPiece_plug]

theorem bridge_turned (prev : Option Point) (ps : List Piece) :
    bridge (cs.map g.path) (prev.map g.point) (ps.map (turnPiece g)) = (bridge cs prev ps).map (turnPiece g) := by
  induction ps generalizing prev with
  | nil => rfl
  | cons e rest ih =>
    simp only [List.map_cons, bridge, turnPiece_path, List.head?_map, List.getLast?_map, gap_turned, ih, List.map_append]

theorem closeUp_turned (ps : List Piece) :
    closeUp (cs.map g.path) (ps.map (turnPiece g)) = (closeUp cs ps).map (turnPiece g) := by
  have h1 : endOf (cs.map g.path) (ps.map (turnPiece g)) = (endOf cs ps).map g.point := by
    unfold endOf
    rw [List.getLast?_map]
    cases ps.getLast? with
    | none => rfl
    | some e => simp [turnPiece_path]
  have h2 : startOf (cs.map g.path) (ps.map (turnPiece g)) = (startOf cs ps).map g.point := by
    unfold startOf
    rw [List.head?_map]
    cases ps.head? with
    | none => rfl
    | some e => simp [turnPiece_path]
  unfold closeUp
  have h3 := bridge_turned (cs := cs) g none ps
  rw [Option.map_none] at h3
  rw [h1, h2, gap_turned, h3, List.map_append]

theorem clippedPieces_turned (ring : TopoRing) :
    clippedPieces (cs.map g.path) ring = (clippedPieces cs ring).map (turnPiece g) := by
  unfold clippedPieces
  rw [← closeUp_turned]
  congr 1
  rw [List.map_filterMap]
  apply List.filterMap_congr
  intro de _
  unfold visiblePiece
  rw [turned_points]
  by_cases h : cs[de.edge]?.getD [] = []
  · rw [if_pos (by rw [h]; rfl), if_pos h]; rfl
  · rw [if_neg (by simpa using h), if_neg h]; rfl

theorem piecesArea_turned (ring : TopoRing) :
    piecesArea (cs.map g.path) (clippedPieces (cs.map g.path) ring) = 0 ↔ piecesArea cs (clippedPieces cs ring) = 0 := by
  rw [clippedPieces_turned]
  by_cases h : clippedPieces cs ring = []
  · rw [h]; rfl
  obtain ⟨_, a, ha⟩ := clippedPieces_closed h
  have := shoelaceEdges_symmetry g ha
  unfold piecesArea
  rw [List.map_map]
  have e : (Piece.path (cs.map g.path) ∘ turnPiece g) = g.path ∘ Piece.path cs := funext (turnPiece_path g)
  rw [e, ← List.map_map, this]
  have e2 : turnSign g * shoelaceEdges (List.map (Piece.path cs) (clippedPieces cs ring)) + turnShift g a - turnShift g a =
    turnSign g * shoelaceEdges (List.map (Piece.path cs) (clippedPieces cs ring)) := by ring
  rw [e2, wrap64_turned]

theorem keptClipped_turned (rings : List TopoRing) :
    keptClipped (cs.map g.path) rings = (keptClipped cs rings).map (List.map (turnPiece g)) := by
  unfold keptClipped
  induction rings with
  | nil => rfl
  | cons r rings ih =>
    simp only [List.map_cons, List.filter_cons]
    have := piecesArea_turned (cs := cs) g r
    by_cases h : piecesArea cs (clippedPieces cs r) = 0
    · rw [if_neg (by simpa using this.mpr h), if_neg (by simpa using h)]
      exact ih
    · rw [if_pos (by simpa using mt this.mp h), if_pos (by simpa using h), List.map_cons, ih, clippedPieces_turned]

/-- The mirrored region. -/
def turnClipped (r : ClippedRegion δ) : ClippedRegion δ :=
  ⟨r.data, r.outer.map (List.map (turnPiece g)), r.inner.map (List.map (turnPiece g))⟩

theorem clippedRegions_turned (rs : List (TopoRegion δ)) :
    clippedRegions (cs.map g.path) rs = (clippedRegions cs rs).map (turnClipped g) := by
  unfold clippedRegions
  rw [List.map_map]
  have : (rs.filter fun r => keptClipped (cs.map g.path) r.outerRings ≠ []) =
      rs.filter fun r => keptClipped cs r.outerRings ≠ [] := by
    apply List.filter_congr
    intro r _
    rw [keptClipped_turned]
    simp
  rw [this]
  apply List.map_congr_left
  intro r _
  simp [turnClipped, keptClipped_turned]

theorem allPieces_turned (rs : List (ClippedRegion δ)) :
    allPieces (rs.map (turnClipped g)) = (allPieces rs).map (turnPiece g) := by
  unfold allPieces
  rw [List.flatMap_map, List.map_flatMap]
  congr 1
  funext r
  simp [turnClipped, List.map_flatten]

theorem clippedBy_turned {edges : List TopoEdge} (h : ClippedBy m mask edges cs) :
    ClippedBy m (g.mask mask) (edges.map fun e => { e with points := g.path e.points }) (cs.map g.path) := by
  unfold ClippedBy at *
  rw [List.forall₂_map_left_iff, List.forall₂_map_right_iff]
  exact h.imp fun e c h => by
    show clipEdge m (g.mask mask) (g.path e.points) = _
    rw [clipEdge_symmetry, h]; rfl

end TopoGeo
