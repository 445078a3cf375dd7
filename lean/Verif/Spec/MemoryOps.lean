import Verif.Model.MemoryOps
import Verif.Spec.Memory
import Verif.Spec.Order
/-!
# Sequences of operations in memory
-/

namespace TopoGeo.Spec

/-- An operation on a topology in memory, made in the world `w`. What it allocates is placed
in the world `w'`; `simplify` leaves everything in its place. -/
def Operation.mApply {δ : Type} (m : Build) (w : World) (T : MTopology δ) (w' : World) : Operation → R (World × MTopology δ)
  | .normalize => do
    let T' ← mNormalize m w w' T
    .ok (w', T')
  | .clip mask => do
    let T' ← mClip m w w' T mask
    .ok (w', T')
  | .simplify s => do
    let T' ← mSimplify m T s
    .ok (w, T')

/-- Operations one after the other, each with its world. -/
def mOperations {δ : Type} (m : Build) (w : World) (T : MTopology δ) : List (Operation × World) → R (World × MTopology δ)
  | [] => .ok (w, T)
  | (op, w') :: rest => do
    let x ← op.mApply m w T w'
    mOperations m x.1 x.2 rest

/-- Building a topology in memory, and then doing operations. -/
def mPipeline {δ : Type} (m : Build) (w : World) (rs : List (Region δ)) (steps : List (Operation × World)) : R (World × MTopology δ) := do
  let T ← mBuildTopology w m rs
  mOperations m w T steps

/-- The same with numbers for pointers. -/
def pipeline {δ : Type} (m : Build) (rs : List (Region δ)) (ops : List Operation) : R (Topology δ) := do
  let t ← buildTopology m rs
  ops.foldlM (Operation.apply m) t

/-- The same topology, had its regions stayed at another address. -/
def regionsAt {δ : Type} (T : MTopology δ) (base : Nat) : MTopology δ := { T with regions := { T.regions with address := base } }

/-- Vectors of edges have no spare capacity. -/
def EdgesExact (w : World) : Prop := ∀ n, w.edgesCapacity n = n

/-- Vectors of regions have no spare capacity. -/
def RegionsExact (w : World) : Prop := ∀ n, w.regionsCapacity n = n

/-- What is asked of the machine for a sequence of operations: each block is placed somewhere,
boxes of rings do not overlap, and the vectors of edges have no spare capacity. -/
structure Machine {δ : Type} (m : Build) (w : World) (rs : List (Region δ)) (steps : List (Operation × World)) : Prop where
  real : ∀ w' ∈ w :: steps.map (·.2), RealWorld w'
  edges : ∀ w' ∈ w :: steps.map (·.2), EdgesExact w'
  apart : ∀ first w' T, first <+: steps → mPipeline m w rs first = .ok (w', T) → BoxesApart w' T

/-- Thresholds are `u64`. -/
def ThresholdFits : Operation → Prop
  | .simplify s => s ≤ u64Max
  | _ => True

end TopoGeo.Spec
