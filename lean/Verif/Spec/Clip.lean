import Verif.Spec.Topology
import Verif.Model.Clip
/-!
# Clipping by a half-plane, stated geometrically
-/

namespace TopoGeo.Spec

/-- The coordinate a mask looks at. -/
def tested : ClipMask → Point → Int
  | .minX _, p | .maxX _, p => p.x.toNat
  | .minY _, p | .maxY _, p => p.y.toNat

/-- The other coordinate. -/
def other : ClipMask → Point → Int
  | .minX _, p | .maxX _, p => p.y.toNat
  | .minY _, p | .maxY _, p => p.x.toNat

/-- The position of the mask line. -/
def bound : ClipMask → Int
  | .minX c | .maxX c | .minY c | .maxY c => c.toNat

/-- How deep a point lies inside of the mask: positive inside, zero on the
line, negative outside. -/
def depth : ClipMask → Point → Int
  | .minX x, p => p.x.toNat - x.toNat
  | .maxX x, p => x.toNat - p.x.toNat
  | .minY y, p => p.y.toNat - y.toNat
  | .maxY y, p => y.toNat - p.y.toNat

/-- The mask that keeps the other side of the same line. -/
def mirror : ClipMask → ClipMask
  | .minX x => .maxX x
  | .maxX x => .minX x
  | .minY y => .maxY y
  | .maxY y => .minY y

/-- One end strictly inside, the other strictly outside. -/
def Crosses (mask : ClipMask) (p q : Point) : Prop :=
  (depth mask p < 0 ∧ 0 < depth mask q) ∨ (0 < depth mask p ∧ depth mask q < 0)

/-- The visible part of a segment that has an end strictly inside; `X p q` is
the crossing point. -/
def visiblePart (mask : ClipMask) (X : Point → Point → Point) (p q : Point) : List Point :=
  if 0 < depth mask p ∨ 0 < depth mask q then
    if depth mask p < 0 then [X p q, q]
    else if depth mask q < 0 then [p, X p q]
    else [p, q]
  else []

/-- The visible parts of all segments of a path. -/
def visibleParts (mask : ClipMask) (X : Point → Point → Point) : List Point → List (List Point)
  | p :: q :: rest => visiblePart mask X p q :: visibleParts mask X (q :: rest)
  | _ => []

/-- Drop points that repeat their predecessor. -/
def unrepeat : List Point → List Point
  | p :: q :: rest => if p = q then unrepeat (q :: rest) else p :: unrepeat (q :: rest)
  | l => l

/-- Drop points on the mask line that repeat their predecessor. -/
def mergeOnLine (mask : ClipMask) : List Point → List Point
  | p :: q :: rest =>
    if p = q ∧ depth mask q = 0 then mergeOnLine mask (q :: rest)
    else p :: mergeOnLine mask (q :: rest)
  | l => l

end TopoGeo.Spec
