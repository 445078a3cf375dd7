/-!
# Machine arithmetic, panics and small list helpers shared by all models

The Rust sources use `u32`, `i64`, `u64`, `usize` arithmetic and may panic.
A run of a Rust function is modelled by a value of `R α = Except Panic α`.
-/

namespace TopoGeo

/-- How the crate was compiled. `debug` is `cargo build` / `cargo test`
(overflow checks on); `release` is `cargo build --release` (README.md:33,
Cargo.toml:13-14; overflow wraps). -/
inductive Build where
  | debug
  | release
deriving DecidableEq, Repr

/-- Reasons for which the modelled Rust code panics. -/
inductive Panic where
  /-- arithmetic overflow in a build with overflow checks -/
  | overflow
  /-- slice index out of bounds -/
  | index
  /-- a failed `assert!` -/
  | assert
  /-- an explicit `panic!`, `expect` or `unwrap` failure -/
  | explicit
  /-- division by zero, or `i64::MIN / -1` -/
  | division
  /-- dereference of a null pointer (undefined behaviour in Rust) -/
  | nullDeref
  /-- `unimplemented!()` -/
  | unimplemented
  /-- `Vec` capacity overflow -/
  | capacity
  /-- not a Rust panic: the model ran out of fuel (proved unreachable) -/
  | fuel
deriving DecidableEq, Repr

/-- Result of running a Rust function that may panic. -/
abbrev R (α : Type u) := Except Panic α

instance instDecEqExcept {ε : Type u} {α : Type v} [DecidableEq ε] [DecidableEq α] :
    DecidableEq (Except ε α) := fun a b =>
  match a, b with
  | .error x, .error y =>
    if h : x = y then isTrue (h ▸ rfl) else isFalse (fun he => h (Except.error.inj he))
  | .ok x, .ok y =>
    if h : x = y then isTrue (h ▸ rfl) else isFalse (fun he => h (Except.ok.inj he))
  | .error _, .ok _ => isFalse (fun he => Except.noConfusion rfl rfl (heq_of_eq he))
  | .ok _, .error _ => isFalse (fun he => Except.noConfusion rfl rfl (heq_of_eq he))

/-- The `i64` result of an operation whose mathematical value is `z`:
itself if it fits, otherwise a panic (`debug`) or the two's complement
wrap-around (`release`). -/
def Build.i64 (m : Build) (z : Int) : R Int :=
  if -2 ^ 63 ≤ z ∧ z < 2 ^ 63 then .ok z
  else match m with
    | .debug => .error .overflow
    | .release => .ok (z.bmod (2 ^ 64))

/-- Truncating `i64` division (both builds panic on a zero divisor and on
`i64::MIN / -1`). -/
def i64Div (a b : Int) : R Int :=
  if b = 0 then .error .division
  else if a = -2 ^ 63 ∧ b = -1 then .error .division
  else .ok (a.tdiv b)

/-- `itertools::Itertools::tuple_windows` for pairs: all consecutive pairs. -/
def tupleWindows {α : Type u} : List α → List (α × α)
  | a :: b :: t => (a, b) :: tupleWindows (b :: t)
  | _ => []

end TopoGeo
