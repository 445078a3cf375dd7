import Verif.Spec.Quantize
/-!
# Specification: IEEE 754 rounding

Doubles are the 2^64 bit patterns. What an operation returns is specified by the
exact result alone: the nearest double, and of two nearest ones the one whose last
bit is zero.
-/

namespace TopoGeo.Spec

/-- The distance of two numbers. -/
def distance (a b : Rat) : Rat := if a ≤ b then b - a else a - b

/-- `b` is what the exact result `x` is rounded to. -/
structure Rounds (x : Rat) (b : UInt64) : Prop where
  /-- Below the greatest double and half the distance to what would be the next
  one, the result is a finite double. No double is nearer. If another double is as
  near, the last bit of the result is zero. The sign is that of the exact result,
  also if the result is zero. -/
  finite : distance 0 x < 2 ^ 1024 - 2 ^ 970 → ∃ r, doubleVal b = some r ∧
    (∀ b' r', doubleVal b' = some r' → distance x r ≤ distance x r' ∧ (distance x r = distance x r' → r = r' ∨ b.toNat % 2 = 0)) ∧
    (x ≠ 0 → (b.toNat / 2 ^ 63 = 1 ↔ x < 0))
  /-- From there on the result is an infinity. -/
  infinite : 2 ^ 1024 - 2 ^ 970 ≤ distance 0 x → b = if x < 0 then 0xfff0000000000000 else 0x7ff0000000000000

/-- The sign bit. -/
def signBit (b : UInt64) : Bool := decide (2 ^ 63 ≤ b.toNat)

/-- The infinity with a sign. -/
def infinity (neg : Bool) : UInt64 := if neg then minusInfinity else plusInfinity

/-- The zero with a sign. -/
def zero (neg : Bool) : UInt64 := if neg then minusZero else 0

/-- `c` is `a - b` (IEEE 754-2008, 5.4.1, 6.1-6.3, 7.2). -/
structure SubRule (a b c : UInt64) : Prop where
  nan : IsNaN a ∨ IsNaN b → IsNaN c
  /-- Infinity minus the same infinity is invalid. -/
  infInf : IsInfinite a → IsInfinite b → (a = b → IsNaN c) ∧ (a ≠ b → c = a)
  infFin : ∀ y, IsInfinite a → doubleVal b = some y → c = a
  finInf : ∀ x, doubleVal a = some x → IsInfinite b → c = infinity (!signBit b)
  finFin : ∀ x y, doubleVal a = some x → doubleVal b = some y → Rounds (x - y) c
  /-- An exact difference of zero is the positive zero, except for -0 - +0. -/
  zeros : ∀ x, doubleVal a = some x → doubleVal b = some x → c = zero (decide (a = minusZero ∧ b = 0))

/-- `c` is `a * b`. -/
structure MulRule (a b c : UInt64) : Prop where
  nan : IsNaN a ∨ IsNaN b → IsNaN c
  infInf : IsInfinite a → IsInfinite b → c = infinity (signBit a != signBit b)
  /-- Infinity times zero is invalid. -/
  infFin : ∀ y, IsInfinite a → doubleVal b = some y →
    (y = 0 → IsNaN c) ∧ (y ≠ 0 → c = infinity (signBit a != signBit b))
  finInf : ∀ x, doubleVal a = some x → IsInfinite b →
    (x = 0 → IsNaN c) ∧ (x ≠ 0 → c = infinity (signBit a != signBit b))
  finFin : ∀ x y, doubleVal a = some x → doubleVal b = some y →
    Rounds (x * y) c ∧ signBit c = (signBit a != signBit b)

/-- `c` is `a / b`. -/
structure DivRule (a b c : UInt64) : Prop where
  nan : IsNaN a ∨ IsNaN b → IsNaN c
  /-- Infinity over infinity is invalid. -/
  infInf : IsInfinite a → IsInfinite b → IsNaN c
  infFin : ∀ y, IsInfinite a → doubleVal b = some y → c = infinity (signBit a != signBit b)
  finInf : ∀ x, doubleVal a = some x → IsInfinite b → c = zero (signBit a != signBit b)
  /-- Zero over zero is invalid, and anything else over zero is an infinity. -/
  byZero : ∀ x, doubleVal a = some x → doubleVal b = some 0 →
    (x = 0 → IsNaN c) ∧ (x ≠ 0 → c = infinity (signBit a != signBit b))
  finFin : ∀ x y, doubleVal a = some x → doubleVal b = some y → y ≠ 0 →
    Rounds (x / y) c ∧ signBit c = (signBit a != signBit b)

/-- `n` is `a as u32`: the fraction is cut off, and what is too small or too large
becomes the least or the greatest number. -/
structure CastRule (a : UInt64) (n : UInt32) : Prop where
  nan : IsNaN a → n = 0
  small : Below a 0 → n = 0
  large : Above a (2 ^ 32 - 1) → n.toNat = 2 ^ 32 - 1
  between : ∀ x, doubleVal a = some x → 0 ≤ x → x ≤ 2 ^ 32 - 1 → (n.toNat : Rat) ≤ x ∧ x < n.toNat + 1

/-- The steps of src/read/shapefile/geo.rs:19-20 and 27-28: one coordinate `p`
between the sides `start` and `stop` becomes
`((p - start) / (stop - start) * 4294967295.0) as u32`, every step being rounded. -/
def Steps (p start stop : UInt64) (n : UInt32) : Prop :=
  ∃ d e q s, SubRule p start d ∧ SubRule stop start e ∧ DivRule d e q ∧ MulRule q 0x41efffffffe00000 s ∧ CastRule s n

end TopoGeo.Spec
