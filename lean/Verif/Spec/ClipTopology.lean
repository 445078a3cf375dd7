import Mathlib.Data.List.Forall2
import Verif.Spec.Clip
/-!
# What a clipped topology should contain

The rings of a clipped topology are described by *pieces*: clipped edges of the
old topology, and plugs along the mask line. Everything is a function of `cs`,
the list of the clipped edges of the old topology.
-/

namespace TopoGeo.Spec

/-- What an edge of the clipped topology stands for: what is left of edge `i`
of the old topology, or a plug between two points, the smaller one first. -/
inductive PieceEdge where
  | kept (i : Nat)
  | plug (p q : Point)
deriving DecidableEq

/-- An edge and the direction in which a ring follows it. -/
structure Piece where
  edge : PieceEdge
  direction : Direction
deriving DecidableEq

/-- Whether a piece is what is left of an old edge. -/
def Piece.isKept (pc : Piece) : Bool :=
  match pc.edge with
  | .kept _ => true
  | .plug _ _ => false

/-- A point list as it is walked in a direction. -/
def facing : Direction → List Point → List Point
  | .forward, l => l
  | .backward, l => l.reverse

/-- The points of a piece edge. -/
def PieceEdge.points (cs : List (List Point)) : PieceEdge → List Point
  | .kept i => cs[i]?.getD []
  | .plug p q => [p, q]

/-- The path of a piece. -/
def Piece.path (cs : List (List Point)) (pc : Piece) : List Point :=
  facing pc.direction (pc.edge.points cs)

/-- The straight line from `p` to `q`. -/
def plugPiece (p q : Point) : Piece :=
  if p < q then ⟨.plug p q, .forward⟩ else ⟨.plug q p, .backward⟩

/-- What it takes to get from one point to another one. -/
def gap : Option Point → Option Point → List Piece
  | some p, some q => if p = q then [] else [plugPiece p q]
  | _, _ => []

/-- Fill the gaps between pieces, and between `prev` and the first one. -/
def bridge (cs : List (List Point)) (prev : Option Point) : List Piece → List Piece
  | [] => []
  | e :: rest => gap prev (e.path cs).head? ++ e :: bridge cs (e.path cs).getLast? rest

/-- The first point of a list of pieces. -/
def startOf (cs : List (List Point)) (ps : List Piece) : Option Point :=
  ps.head?.bind fun e => (e.path cs).head?

/-- The last point of a list of pieces. -/
def endOf (cs : List (List Point)) (ps : List Piece) : Option Point :=
  ps.getLast?.bind fun e => (e.path cs).getLast?

/-- Fill all gaps, also the one between the last piece and the first one. -/
def closeUp (cs : List (List Point)) (ps : List Piece) : List Piece :=
  bridge cs none ps ++ gap (endOf cs ps) (startOf cs ps)

/-- What is left of a directed edge, if anything. -/
def visiblePiece (cs : List (List Point)) (de : DirectedEdge) : Option Piece :=
  if cs[de.edge]?.getD [] = [] then none else some ⟨.kept de.edge, de.direction⟩

/-- The pieces of a clipped ring. -/
def clippedPieces (cs : List (List Point)) (ring : TopoRing) : List Piece :=
  closeUp cs (ring.directedEdges.filterMap (visiblePiece cs))

/-- The signed area of a list of pieces, as 64-bit arithmetic yields it. -/
def piecesArea (cs : List (List Point)) (ps : List Piece) : Int :=
  wrap64 (shoelaceEdges (ps.map (Piece.path cs)))

/-- The clipped rings of non-zero area. -/
def keptClipped (cs : List (List Point)) (rings : List TopoRing) : List (List Piece) :=
  (rings.map (clippedPieces cs)).filter fun ps => piecesArea cs ps ≠ 0

/-- A clipped region. -/
structure ClippedRegion (δ : Type) where
  data : δ
  outer : List (List Piece)
  inner : List (List Piece)

/-- The clipped regions: those that keep an outer ring. -/
def clippedRegions {δ : Type} (cs : List (List Point)) (rs : List (TopoRegion δ)) : List (ClippedRegion δ) :=
  (rs.filter fun r => keptClipped cs r.outerRings ≠ []).map fun r =>
    ⟨r.data, keptClipped cs r.outerRings, keptClipped cs r.innerRings⟩

/-- The list `cs` holds the clipped edges. -/
def ClippedBy (m : Build) (mask : ClipMask) (edges : List TopoEdge) (cs : List (List Point)) : Prop :=
  List.Forall₂ (fun e c => clipEdge m mask e.points = .ok c) edges cs

/-- All pieces of all clipped rings, in traversal order. -/
def allPieces {δ : Type} (rs : List (ClippedRegion δ)) : List Piece :=
  rs.flatMap fun r => r.outer.flatten ++ r.inner.flatten

/-- What clipping makes an edge for: what is left of an old edge, and every plug
it meets, be it for a ring that is dropped later. Holes are only clipped in
regions that keep an outer ring. -/
def MakesEdge {δ : Type} (cs : List (List Point)) (rs : List (TopoRegion δ)) : PieceEdge → Prop
  | .kept i => ∃ c, cs[i]? = some c ∧ c ≠ []
  | .plug p q => ∃ r ∈ rs, ∃ ring, (ring ∈ r.outerRings ∨ ring ∈ r.innerRings ∧ keptClipped cs r.outerRings ≠ []) ∧
      ∃ pc ∈ clippedPieces cs ring, pc.edge = .plug p q

/-- The paths, one after the other, lead from `a` to `b` without a gap. -/
def Leads : Point → List (List Point) → Point → Prop
  | a, [], b => a = b
  | a, e :: rest, b => e.head? = some a ∧ ∃ c, e.getLast? = some c ∧ Leads c rest b

instance : (a : Point) → (paths : List (List Point)) → (b : Point) → Decidable (Leads a paths b)
  | a, [], b => inferInstanceAs (Decidable (a = b))
  | a, e :: rest, b =>
    match h : e.getLast? with
    | none => .isFalse (by rintro ⟨_, c, hc, _⟩; rw [h] at hc; cases hc)
    | some c =>
      have := instDecidableLeads c rest b
      if h1 : e.head? = some a ∧ Leads c rest b then .isTrue ⟨h1.1, c, h, h1.2⟩
      else .isFalse (by
        rintro ⟨h2, d, hd, h3⟩
        rw [h] at hd
        obtain rfl := Option.some.inj hd
        exact h1 ⟨h2, h3⟩)

/-- The paths form a closed ring without gaps. -/
def ClosedRing (paths : List (List Point)) : Prop := paths ≠ [] ∧ ∃ a, Leads a paths a

instance (paths : List (List Point)) : Decidable (ClosedRing paths) :=
  match h : paths.head?.bind List.head? with
  | none => .isFalse (by
      rintro ⟨h1, a, h2⟩
      cases paths with
      | nil => exact h1 rfl
      | cons e rest => simp [h2.1] at h)
  | some a =>
    if h1 : paths ≠ [] ∧ Leads a paths a then .isTrue ⟨h1.1, a, h1.2⟩
    else .isFalse (by
      rintro ⟨h2, b, h3⟩
      cases paths with
      | nil => exact h2 rfl
      | cons e rest =>
        have : b = a := by simpa [h3.1] using h
        subst this
        exact h1 ⟨h2, h3⟩)

/-- A topology on which clipping by `mask` has nothing to do. -/
structure AllInside {δ : Type} (mask : ClipMask) (t : Topology δ) : Prop where
  pointers : BackPointersExact t
  edges : ∀ e ∈ t.edges, 2 ≤ e.points.length ∧ ∀ p ∈ e.points, 0 < depth mask p
  regions : ∀ r ∈ t.regions, r.outerRings ≠ []
  rings : ∀ ring ∈ allRings t, ∃ paths, ReadsAs t.edges paths ring ∧ ClosedRing paths ∧
    wrap64 (shoelaceEdges paths) ≠ 0

end TopoGeo.Spec
