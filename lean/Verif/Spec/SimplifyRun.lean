import Verif.Spec.Simplify
/-!
# Specification: eliminating points

What simplifying an edge does, as a run of a machine that takes out one point
after another, in any order, without heaps or linked lists. Positions are those
in the edge as given.
-/

namespace TopoGeo.Spec

/-- `i` and `k` are the positions left that are nearest to `j`, before and after
it. -/
def Nearest (left : List Nat) (i j k : Nat) : Prop :=
  i ∈ left ∧ j ∈ left ∧ k ∈ left ∧ i < j ∧ j < k ∧ ∀ x ∈ left, ¬ (i < x ∧ x < j) ∧ ¬ (j < x ∧ x < k)

/-- The point at `j` has weight `w` between those that are left beside it. -/
def Weighs (ps : List Point) (left : List Nat) (j w : Nat) : Prop :=
  ∃ i k a b c, Nearest left i j k ∧ ps[i]? = some a ∧ ps[j]? = some b ∧ ps[k]? = some c ∧ w = weightOf a b c

/-- The weight at which the last point went, 0 at first. -/
def lastGone : List (Nat × Nat) → Nat
  | [] => 0
  | (_, w) :: _ => w

/-- The positions that may be left, and those gone, the last one first, each with
the weight it counts for from then on. Any point may go that is lighter than the
threshold between the points left beside it. It counts for its weight, or for that
of the last one gone if that is greater. -/
inductive Run (ps : List Point) (s : Nat) : List Nat → List (Nat × Nat) → Prop where
  | start : Run ps s (List.range ps.length) []
  | step {left : List Nat} {gone : List (Nat × Nat)} {j w : Nat} : Run ps s left gone → Weighs ps left j w → w < s →
      Run ps s (left.erase j) ((j, max w (lastGone gone)) :: gone)

/-- The weight an inner point counts for. -/
def Counts (ps : List Point) (left : List Nat) (gone : List (Nat × Nat)) (j w : Nat) : Prop :=
  Weighs ps left j w ∨ (j, w) ∈ gone

/-- Nothing is left but the ends, or a point as heavy as the threshold was met. -/
def Stops (ps : List Point) (s : Nat) (left : List Nat) : Prop :=
  (∀ j ∈ left, j = 0 ∨ j + 1 = ps.length) ∨ ∃ j w, Weighs ps left j w ∧ s ≤ w

/-- The positions of the ends, and of the points left that are as heavy as the
threshold. -/
def Keeps (ps : List Point) (s : Nat) (left : List Nat) (kept : List Nat) : Prop :=
  ∀ j, j ∈ kept ↔ j < ps.length ∧ (j = 0 ∨ j + 1 = ps.length ∨ ∃ w, Weighs ps left j w ∧ s ≤ w)

/-- `i` goes before `j`: it is heavier, or as heavy and earlier. -/
def Outranks (count : Nat → Nat → Prop) (i j : Nat) : Prop :=
  ∃ v w, count i v ∧ count j w ∧ (w < v ∨ (w = v ∧ i < j))

/-- What an edge becomes: the points of the first kind of list, or, where these
would be fewer than four and the edge is a ring, the ends and the two inner points
that count most. -/
def Eliminated (ps : List Point) (s : Nat) (left : List Nat) (gone : List (Nat × Nat)) (out : List Point) : Prop :=
  ∃ kept, kept.Pairwise (· < ·) ∧ Keeps ps s left kept ∧
    ((¬ (ps.head? = ps.getLast? ∧ kept.length < 4) ∧ Picks ps kept out) ∨
    ((ps.head? = ps.getLast? ∧ kept.length < 4) ∧ ∃ i j, 0 < i ∧ i < j ∧ j + 1 < ps.length ∧
      Picks ps [0, i, j, ps.length - 1] out ∧
      ∀ x, 0 < x → x + 1 < ps.length → x ≠ i → x ≠ j →
        Outranks (Counts ps left gone) i x ∧ Outranks (Counts ps left gone) j x))

end TopoGeo.Spec
