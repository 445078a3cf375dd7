import Verif.Model.Basic
/-!
# Model of `src/geo/mod.rs`
-/

namespace TopoGeo

/-- `geo::Point` (src/geo/mod.rs:4-8). -/
structure Point where
  x : UInt32
  y : UInt32
deriving DecidableEq, Repr

/-- The coordinate as a mathematical integer (`as i64`, src/geo/mod.rs:96). -/
def Point.xi (p : Point) : Int := (p.x.toNat : Int)
/-- The coordinate as a mathematical integer (`as i64`, src/geo/mod.rs:96). -/
def Point.yi (p : Point) : Int := (p.y.toNat : Int)

/-- Derived lexicographic order (src/geo/mod.rs:7, `PartialOrd`, `Ord`). -/
instance : LT Point := ⟨fun a b => a.x < b.x ∨ (a.x = b.x ∧ a.y < b.y)⟩

instance (a b : Point) : Decidable (a < b) :=
  inferInstanceAs (Decidable (a.x < b.x ∨ (a.x = b.x ∧ a.y < b.y)))

/-- Derived lexicographic order (src/geo/mod.rs:7). -/
instance : LE Point := ⟨fun a b => ¬ b < a⟩

instance (a b : Point) : Decidable (a ≤ b) :=
  inferInstanceAs (Decidable (¬ b < a))

/-- `geo::Edge` (src/geo/mod.rs:16-18): the boxed slice of points. -/
abbrev Edge := List Point

/-- `geo::Ring` (src/geo/mod.rs:41-48). -/
inductive Ring where
  | points (ps : List Point)
  | edges (es : List Edge)
deriving DecidableEq, Repr

/-- `geo::WindingOrder` (src/geo/mod.rs:75-79). -/
inductive WindingOrder where
  | clockwise
  | counterClockwise
deriving DecidableEq, Repr

/-- `geo::Region` (src/geo/mod.rs:212-217). -/
structure Region (δ : Type) where
  data : δ
  outerRings : List Ring
  innerRings : List Ring
deriving DecidableEq, Repr

/-- The summand in `signed_area2` (src/geo/mod.rs:96): two multiplications and
a subtraction, each of them an `i64` operation. -/
def shoelaceTerm (m : Build) (p1 p2 : Point) : R Int := do
  let a ← m.i64 (p1.xi * p2.yi)
  let b ← m.i64 (p2.xi * p1.yi)
  m.i64 (a - b)

/-- The loop of `signed_area2` (src/geo/mod.rs:93-99) with accumulator `a`. -/
def signedArea2Loop (m : Build) (a : Int) : List (Point × Point) → R Int
  | [] => .ok a
  | (p1, p2) :: rest => do
    let t ← shoelaceTerm m p1 p2
    let a' ← m.i64 (a + t)
    signedArea2Loop m a' rest

/-- `signed_area2` (src/geo/mod.rs:91-100). -/
def signedArea2 (m : Build) (ps : List Point) : R Int :=
  signedArea2Loop m 0 (tupleWindows ps)

/-- The sign split at the end of `area2_and_winding_order`
(src/geo/mod.rs:114-118 and :190-194). `-a` is an `i64` negation; `as u64`
reinterprets the bits, i.e. reduces modulo 2^64. -/
def splitSign (m : Build) (a : Int) : R (Nat × WindingOrder) :=
  if a ≥ 0 then .ok ((a.emod (2 ^ 64)).toNat, .clockwise)
  else do
    let n ← m.i64 (-a)
    .ok ((n.emod (2 ^ 64)).toNat, .counterClockwise)

/-- `area2_and_winding_order` (src/geo/mod.rs:111-119). -/
def area2AndWindingOrder (m : Build) (ps : List Point) : R (Nat × WindingOrder) := do
  let a ← signedArea2 m ps
  splitSign m a

/-- `area2` (src/geo/mod.rs:124-126). -/
def area2 (m : Build) (ps : List Point) : R Nat := do
  let r ← area2AndWindingOrder m ps
  .ok r.1

/-- `winding_order` (src/geo/mod.rs:137-139). -/
def windingOrder (m : Build) (ps : List Point) : R WindingOrder := do
  let r ← area2AndWindingOrder m ps
  .ok r.2

/-- `Ring::points` (src/geo/mod.rs:143-155). -/
def Ring.getPoints : Ring → List Point
  | .points ps => ps
  | .edges es => es.flatten

/-- `Ring::edges` (src/geo/mod.rs:158-168). -/
def Ring.getEdges : Ring → List Edge
  | .edges es => es
  | .points ps => (tupleWindows ps).map (fun pq => [pq.1, pq.2])

/-- The edge loop in `Ring::area2_and_winding_order` (src/geo/mod.rs:185-188). -/
def edgesAreaLoop (m : Build) (a : Int) : List Edge → R Int
  | [] => .ok a
  | e :: rest => do
    let t ← signedArea2 m e
    let a' ← m.i64 (a + t)
    edgesAreaLoop m a' rest

/-- `Ring::area2_and_winding_order` (src/geo/mod.rs:182-198). -/
def Ring.area2AndWindingOrder (m : Build) : Ring → R (Nat × WindingOrder)
  | .edges es => do
    let a ← edgesAreaLoop m 0 es
    splitSign m a
  | .points ps => TopoGeo.area2AndWindingOrder m ps

/-- `Ring::area2` (src/geo/mod.rs:171-173). -/
def Ring.area2 (m : Build) (r : Ring) : R Nat := do
  let x ← r.area2AndWindingOrder m
  .ok x.1

/-- `Ring::winding_order` (src/geo/mod.rs:207-209). -/
def Ring.windingOrder (m : Build) (r : Ring) : R WindingOrder := do
  let x ← r.area2AndWindingOrder m
  .ok x.2

end TopoGeo
