import Verif.Spec.ReadGeo
/-!
# Specification: every case of quantization

One axis of a box has a side where the coordinates start (`from`) and a side
where they end (`to`): west and east for x, north and south for y. `AxisRule`
says what becomes of a coordinate, for all the bit patterns the three numbers
can have.
-/

namespace TopoGeo.Spec

/-- A double that is not a number: all exponent bits set, and a fraction. -/
def IsNaN (bits : UInt64) : Prop := 2047 * 2 ^ 52 < bits.toNat % 2 ^ 63

/-- One of the two infinities. -/
def IsInfinite (bits : UInt64) : Prop := bits.toNat % 2 ^ 63 = 2047 * 2 ^ 52

/-- The infinity above all numbers. -/
def plusInfinity : UInt64 := 0x7ff0000000000000

/-- The infinity below all numbers. -/
def minusInfinity : UInt64 := 0xfff0000000000000

/-- The other zero. -/
def minusZero : UInt64 := 0x8000000000000000

/-- A double is above a number. -/
def Above (p : UInt64) (a : Rat) : Prop := p = plusInfinity ∨ ∃ x, doubleVal p = some x ∧ a < x

/-- A double is below a number. -/
def Below (p : UInt64) (a : Rat) : Prop := p = minusInfinity ∨ ∃ x, doubleVal p = some x ∧ x < a

/-- Two numbers whose distance is a double. -/
def Measurable (a b : Rat) : Prop := b - a < 2 ^ 1024 - 2 ^ 970 ∧ a - b < 2 ^ 1024 - 2 ^ 970

/-- What becomes of the coordinate `p` between the sides `start` and `stop`. -/
structure AxisRule (p start stop : UInt64) (r : UInt32) : Prop where
  /-- A NaN anywhere gives 0. -/
  nan : IsNaN p ∨ IsNaN start ∨ IsNaN stop → r = 0
  /-- An infinite side gives 0, whatever the coordinate. -/
  infiniteSide : IsInfinite start ∨ IsInfinite stop → r = 0
  /-- Sides too far apart give 0, whatever the coordinate. -/
  tooFar : ∀ a b, doubleVal start = some a → doubleVal stop = some b → ¬ Measurable a b → r = 0
  /-- An infinite coordinate is moved to the side it is beyond. -/
  infiniteCoord : ∀ a b, doubleVal start = some a → doubleVal stop = some b → a ≠ b → Measurable a b →
    (p = plusInfinity → r.toNat = if a < b then 2 ^ 32 - 1 else 0) ∧
    (p = minusInfinity → r.toNat = if a < b then 0 else 2 ^ 32 - 1)
  /-- Sides at the same place: what is above goes to the end, all else to the start. -/
  flat : ∀ a, doubleVal start = some a → doubleVal stop = some a → ¬ (start = 0 ∧ stop = minusZero) →
    (Above p a → r.toNat = 2 ^ 32 - 1) ∧ (¬ Above p a → r = 0)
  /-- Except from zero to minus zero, where it is what is below. -/
  flatMinus : start = 0 → stop = minusZero → (Below p 0 → r.toNat = 2 ^ 32 - 1) ∧ (¬ Below p 0 → r = 0)
  /-- Sides apart: the coordinate is scaled, and cut off at the sides. This holds
  whichever side is the greater. -/
  scaled : ∀ a b x, doubleVal start = some a → doubleVal stop = some b → doubleVal p = some x → a ≠ b →
    Measurable a b →
    let exact : Rat := (x - a) / (b - a) * (2 ^ 32 - 1)
    (exact ≤ 0 → r = 0) ∧ (2 ^ 32 - 1 ≤ exact → r.toNat = 2 ^ 32 - 1) ∧
    (0 ≤ exact → exact ≤ 2 ^ 32 - 1 → exact - 1 - 1 / 2 ^ 18 < (r.toNat : Rat) ∧ (r.toNat : Rat) < exact + 1 / 2 ^ 18)

end TopoGeo.Spec
