import Mathlib.Algebra.Order.Field.Basic
import Mathlib.Algebra.Order.Ring.Abs
import Mathlib.Data.Rat.Cast.Order
import Verif.Spec.Quantize
import Verif.Spec.Shp
/-!
# Specification: units and places

A file in other units or from another place: along each axis, coordinates are
multiplied by a power of two, and a constant is added, both exactly.
-/

namespace TopoGeo.Spec

/-- The exponents of the factors and the constants of the two axes. -/
structure Change where
  kx : Int
  ky : Int
  cx : Rat
  cy : Rat

/-- The double `v` is exactly `2 ^ k` times the double `u` plus `c`, and neither is huge. -/
def Rescaled (k : Int) (c : Rat) (u v : UInt64) : Prop :=
  ∃ x : Rat, doubleVal u = some x ∧ doubleVal v = some (x * 2 ^ k + c) ∧ |x| < 2 ^ 1022 ∧ |x * 2 ^ k + c| < 2 ^ 1022

/-- A point is changed. -/
def Change.point (t : Change) (p p' : ShpPoint) : Prop := Rescaled t.kx t.cx p.x p'.x ∧ Rescaled t.ky t.cy p.y p'.y

/-- No axis goes from zero to minus zero. -/
def NoSignedZero (b : ShpBoundingBox) : Prop := ¬ (b.b0 = 0 ∧ b.b2 = minusZero) ∧ ¬ (b.b3 = 0 ∧ b.b1 = minusZero)

/-- A box is changed. -/
structure Change.Box (t : Change) (b b' : ShpBoundingBox) : Prop where
  west : Rescaled t.kx t.cx b.b0 b'.b0
  south : Rescaled t.ky t.cy b.b1 b'.b1
  east : Rescaled t.kx t.cx b.b2 b'.b2
  north : Rescaled t.ky t.cy b.b3 b'.b3
  signs : NoSignedZero b
  signs' : NoSignedZero b'

/-- The rings of a record are changed. -/
def Change.rings (t : Change) (rs rs' : List ShpPolygonRing) : Prop := List.Forall₂ (List.Forall₂ t.point) rs rs'

/-- An item of a `.shp` file is changed: an end stays an end, an error stays that error. -/
inductive Change.Item (t : Change) :
    Option (Except ShpError ShpPolygonRecord) → Option (Except ShpError ShpPolygonRecord) → Prop where
  | none : Change.Item t none none
  | error (e) : Change.Item t (some (.error e)) (some (.error e))
  | ok {r r' : ShpPolygonRecord} : t.rings r.rings r'.rings → Change.Item t (some (.ok r)) (some (.ok r'))

/-- The double `v` is exactly three times the double `u`. -/
def Tripled (u v : UInt64) : Prop := ∃ x : Rat, doubleVal u = some x ∧ doubleVal v = some (3 * x)

end TopoGeo.Spec
