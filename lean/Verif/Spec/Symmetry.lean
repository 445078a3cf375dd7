import Verif.Spec.ClipTopology
import Verif.Spec.Normalize
/-!
# Mirrored and turned maps

The grid of points is a square. It has eight symmetries.
-/

namespace TopoGeo.Spec

/-- A symmetry of the grid: exchange the axes or not, then mirror the first and
the second axis or not. -/
structure GridSymmetry where
  swap : Bool
  flipX : Bool
  flipY : Bool
deriving DecidableEq

/-- A mirrored coordinate. -/
def flipped (b : Bool) (x : UInt32) : UInt32 := if b then 4294967295 - x else x

/-- Where a symmetry takes a point. -/
def GridSymmetry.point (g : GridSymmetry) (p : Point) : Point :=
  if g.swap then ⟨flipped g.flipX p.y, flipped g.flipY p.x⟩ else ⟨flipped g.flipX p.x, flipped g.flipY p.y⟩

/-- The mask that keeps what is at least (or at most, if `low` is false) `x`, on the
first or on the second axis. -/
def maskAt (second low : Bool) (x : UInt32) : ClipMask :=
  match second, low with
  | false, true => .minX x
  | false, false => .maxX x
  | true, true => .minY x
  | true, false => .maxY x

/-- Where a symmetry takes a mask. -/
def GridSymmetry.mask (g : GridSymmetry) : ClipMask → ClipMask
  | .minX x => if g.swap then maskAt true (!g.flipY) (flipped g.flipY x) else maskAt false (!g.flipX) (flipped g.flipX x)
  | .maxX x => if g.swap then maskAt true g.flipY (flipped g.flipY x) else maskAt false g.flipX (flipped g.flipX x)
  | .minY y => if g.swap then maskAt false (!g.flipX) (flipped g.flipX y) else maskAt true (!g.flipY) (flipped g.flipY y)
  | .maxY y => if g.swap then maskAt false g.flipX (flipped g.flipX y) else maskAt true g.flipY (flipped g.flipY y)

/-- Where a symmetry takes a path. -/
abbrev GridSymmetry.path (g : GridSymmetry) (ps : List Point) : List Point := ps.map g.point

/-- Where a symmetry takes a ring. -/
def GridSymmetry.ring (g : GridSymmetry) : Ring → Ring
  | .points ps => .points (g.path ps)
  | .edges es => .edges (es.map g.path)

/-- Where a symmetry takes a region. -/
def GridSymmetry.region {δ : Type} (g : GridSymmetry) (r : Region δ) : Region δ :=
  ⟨r.data, r.outerRings.map g.ring, r.innerRings.map g.ring⟩

/-- Where a symmetry takes a topology: the points of its edges, which are stored in the
order in which they were. -/
def GridSymmetry.topology {δ : Type} (g : GridSymmetry) (t : Topology δ) : Topology δ :=
  { t with edges := t.edges.map fun e => { e with points := g.path e.points } }

/-- What is to be seen of a region: its data and the paths along its rings. -/
structure Outline (δ : Type) where
  data : δ
  outer : List (List (List Point))
  inner : List (List (List Point))
deriving DecidableEq

/-- What is to be seen of a topology. -/
def outlines {δ : Type} (t : Topology δ) : List (Outline δ) :=
  t.regions.map fun r => ⟨r.data, r.outerRings.map (pathsOf t), r.innerRings.map (pathsOf t)⟩

/-- Where a symmetry takes that. -/
def GridSymmetry.outline {δ : Type} (g : GridSymmetry) (o : Outline δ) : Outline δ :=
  ⟨o.data, o.outer.map (List.map g.path), o.inner.map (List.map g.path)⟩

end TopoGeo.Spec
