import Verif.Model.Simplify
/-!
# Specification: the heap of the simplifier

Places of a heap are numbered row by row: the place above `k` is `(k - 1) / 2`.
-/

namespace TopoGeo.Spec

/-- The weight of the point at a place. -/
def placeWeight (h : PointHeap) (k : Nat) : Option Nat :=
  match h.heap[k]? with
  | none => none
  | some j => match h.points[j]? with
    | none => none
    | some p => some p.weight

/-- The point at place `i` is no heavier than the one at `k`. -/
def NoHeavier (h : PointHeap) (i k : Nat) : Prop :=
  ∀ x y, placeWeight h i = some x → placeWeight h k = some y → x ≤ y

/-- No point is lighter than the one above it. -/
def HeapOrder (h : PointHeap) : Prop := ∀ k, 0 < k → NoHeavier h ((k - 1) / 2) k

/-- The point at `i` may be lighter than the one above it; all else is in order. -/
def OrderBut (h : PointHeap) (i : Nat) : Prop :=
  (∀ k, 0 < k → k ≠ i → NoHeavier h ((k - 1) / 2) k) ∧ ∀ k, 0 < i → 0 < k → (k - 1) / 2 = i → NoHeavier h ((i - 1) / 2) k

/-- The point at `i` may be heavier than those below it; all else is in order. -/
def OrderAbove (h : PointHeap) (i : Nat) : Prop :=
  (∀ k, 0 < k → (k - 1) / 2 ≠ i → NoHeavier h ((k - 1) / 2) k) ∧
    ∀ k, 0 < i → 0 < k → (k - 1) / 2 = i → NoHeavier h ((i - 1) / 2) k

/-- Points know their place. -/
def Placed (h : PointHeap) : Prop := ∀ (k j : Nat), h.heap[k]? = some j → ∃ p : SPoint, h.points[j]? = some p ∧ p.heapIndex = k

/-- The same points with the same weights, in other places. -/
def Rearranged (h h' : PointHeap) : Prop :=
  h'.heap.Perm h.heap ∧ ∀ j : Nat, h'.points[j]?.map (fun p : SPoint => (p.geo, p.weight, p.next, p.previous)) =
    h.points[j]?.map (fun p : SPoint => (p.geo, p.weight, p.next, p.previous))

end TopoGeo.Spec
