import Verif.Model.Basic
/-!
# IEEE-754 binary64 arithmetic

Rust's `f64` operators `-`, `*`, `/` (round to nearest, ties to even, gradual
underflow) and the saturating cast `as u32`, over exact rationals. This is the
semantics Rust gives to src/read/shapefile/geo.rs:15-31.
-/

namespace TopoGeo

/-- A double: NaN, an infinity, or a sign and an exact non-negative magnitude. -/
inductive F64 where
  | nan
  | inf (neg : Bool)
  | fin (neg : Bool) (mag : Rat)
deriving DecidableEq, Repr

/-- `2 ^ e`. -/
def pow2 : Int → Rat
  | .ofNat n => ((2 ^ n : Nat) : Rat)
  | .negSucc n => 1 / ((2 ^ (n + 1) : Nat) : Rat)

/-- `f64::from_bits`. -/
def F64.ofBits (bits : UInt64) : F64 :=
  let n := bits.toNat
  let neg : Bool := n / 2 ^ 63 = 1
  let exp : Nat := n / 2 ^ 52 % 2048
  let frac : Nat := n % 2 ^ 52
  if exp = 2047 then (if frac = 0 then .inf neg else .nan)
  else if exp = 0 then .fin neg ((frac : Rat) * pow2 (-1074))
  else .fin neg (((2 ^ 52 + frac : Nat) : Rat) * pow2 ((exp : Int) - 1075))

/-- Round a rational to an integer, ties to even. -/
def roundEven (r : Rat) : Int :=
  let f := r.floor
  let d := r - (f : Rat)
  if d < 1 / 2 then f
  else if 1 / 2 < d then f + 1
  else if f % 2 = 0 then f else f + 1

/-- For `q > 0`, the `e` with `2 ^ e ≤ q < 2 ^ (e + 1)`. -/
def ratLog2 (q : Rat) : Int :=
  let e0 : Int := (q.num.natAbs.log2 : Int) - (q.den.log2 : Int)
  if pow2 e0 ≤ q then e0 else e0 - 1

/-- Exponent of the spacing of doubles near `q > 0`. -/
def ulpExp (q : Rat) : Int := max (ratLog2 q) (-1022) - 52

/-- The nearest number of the form `n * 2 ^ k`, for the spacing at `q`. -/
def roundMag (q : Rat) : Rat :=
  if q = 0 then 0 else (roundEven (q / pow2 (ulpExp q)) : Rat) * pow2 (ulpExp q)

/-- Round a non-negative magnitude with a sign. -/
def F64.roundSigned (neg : Bool) (q : Rat) : F64 :=
  let v := roundMag q
  if v < pow2 1024 then .fin neg v else .inf neg

/-- The exact signed value of a finite double. -/
def signedVal (neg : Bool) (q : Rat) : Rat := if neg then -q else q

/-- `f64 - f64`. -/
def F64.sub : F64 → F64 → F64
  | .nan, _ => .nan
  | _, .nan => .nan
  | .inf a, .inf b => if a = b then .nan else .inf a
  | .inf a, .fin _ _ => .inf a
  | .fin _ _, .inf b => .inf (!b)
  | .fin a p, .fin b q =>
    let d := signedVal a p - signedVal b q
    if d = 0 then .fin (a && !b && (p == 0)) 0
    else if d < 0 then F64.roundSigned true (-d)
    else F64.roundSigned false d

/-- `f64 / f64`. -/
def F64.div : F64 → F64 → F64
  | .nan, _ => .nan
  | _, .nan => .nan
  | .inf _, .inf _ => .nan
  | .inf a, .fin b _ => .inf (a != b)
  | .fin a _, .inf b => .fin (a != b) 0
  | .fin a p, .fin b q =>
    if q = 0 then (if p = 0 then .nan else .inf (a != b))
    else F64.roundSigned (a != b) (p / q)

/-- `f64 * f64`. -/
def F64.mul : F64 → F64 → F64
  | .nan, _ => .nan
  | _, .nan => .nan
  | .inf a, .inf b => .inf (a != b)
  | .inf a, .fin b q => if q = 0 then .nan else .inf (a != b)
  | .fin a p, .inf b => if p = 0 then .nan else .inf (a != b)
  | .fin a p, .fin b q => F64.roundSigned (a != b) (p * q)

/-- `f64 as u32`: truncation towards zero, saturating; NaN becomes 0. -/
def F64.asU32 : F64 → UInt32
  | .nan => 0
  | .inf neg => if neg then 0 else 4294967295
  | .fin neg q =>
    if neg then 0
    else if q.floor ≥ 4294967295 then 4294967295 else UInt32.ofNat q.floor.toNat

/-- `u32::max_value() as f64`. -/
def F64.u32Max : F64 := .fin false 4294967295

end TopoGeo
