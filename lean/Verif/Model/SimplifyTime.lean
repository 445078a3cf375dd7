import Verif.Model.Simplify
/-!
# The simplifier once more, counting the rounds of its loops

The functions of Model/Simplify.lean line by line, with `tick` at the start of
each round of each loop in the code. Everything between two ticks takes a
bounded number of machine steps: arithmetic, reads and writes through pointers
and indices, and `Vec::pop`. That these functions compute what those of
Model/Simplify.lean do is `C87_same`.
-/

namespace TopoGeo

/-- A result or a panic, and the number of rounds until then. -/
inductive Timed (α : Type) where
  | done (a : α) (rounds : Nat)
  | panic (e : Panic) (rounds : Nat)

namespace Timed

/-- The result or the panic. -/
def result {α : Type} : Timed α → R α
  | done a _ => .ok a
  | panic e _ => .error e

/-- The number of rounds. -/
def rounds {α : Type} : Timed α → Nat
  | done _ n => n
  | panic _ n => n

/-- `n` rounds more. -/
def after {α : Type} (n : Nat) : Timed α → Timed α
  | done a k => done a (n + k)
  | panic e k => panic e (n + k)

instance : Monad Timed where
  pure a := done a 0
  bind x f := match x with
    | panic e n => panic e n
    | done a n => after n (f a)

/-- Code without loops. -/
def lift {α : Type} : R α → Timed α
  | .ok a => done a 0
  | .error e => panic e 0

/-- One round of a loop. -/
def tick : Timed Unit := done () 1

/-- `n` rounds of a loop whose body always comes to its end, such as
`iter().filter().collect()`. -/
def ticks (n : Nat) : Timed Unit := done () n

end Timed

open Timed

/-- `sift_down` (src/simplify/simplify_edge.rs:130-154). -/
def PointHeap.siftDownT (start «end» : Nat) (fuel : Nat) (h : PointHeap) (root : Nat) : Timed PointHeap :=
  match fuel with
  | 0 => lift (.error .fuel)
  | fuel + 1 => do
    tick
    let child := 2 * root + 1
    if child ≤ «end» then do
      let ws ← lift (h.weightAt start)
      let wc ← lift (h.weightAt child)
      let swap0 := if ws > wc then child else root
      let swap1 ←
        if child + 1 ≤ «end» then do
          let w0 ← lift (h.weightAt swap0)
          let wr ← lift (h.weightAt (child + 1))
          pure (if w0 > wr then child + 1 else swap0)
        else pure swap0
      if swap1 = root then pure h
      else do
        let h' ← lift (h.swap root swap1)
        PointHeap.siftDownT start «end» fuel h' swap1
    else pure h

/-- `sift_up` (src/simplify/simplify_edge.rs:156-169). -/
def PointHeap.siftUpT (start : Nat) (fuel : Nat) (h : PointHeap) (child : Nat) : Timed PointHeap :=
  match fuel with
  | 0 => lift (.error .fuel)
  | fuel + 1 => do
    tick
    if child > start then do
      let parent := (child - 1) / 2
      let wp ← lift (h.weightAt parent)
      let wc ← lift (h.weightAt child)
      if wp > wc then do
        let h' ← lift (h.swap parent child)
        PointHeap.siftUpT start fuel h' parent
      else pure h
    else pure h

/-- The loop of `heapify` (src/simplify/simplify_edge.rs:118-126). -/
def PointHeap.heapifyLoopT (len : Nat) (h : PointHeap) : Nat → Timed PointHeap
  | 0 => do
    tick
    h.siftDownT 0 (len - 1) (len + 1) 0
  | start + 1 => do
    tick
    let h' ← h.siftDownT (start + 1) (len - 1) (len + 1) (start + 1)
    heapifyLoopT len h' start

/-- `heapify` (src/simplify/simplify_edge.rs:113-128). -/
def PointHeap.heapifyT (h : PointHeap) : Timed PointHeap :=
  if h.heap.length > 1 then
    h.heapifyLoopT h.heap.length ((h.heap.length - 1 - 1) / 2)
  else pure h

/-- `From<Vec<geo::Point>>` (src/simplify/simplify_edge.rs:58-99). The vector
of points (lines 66-74), the weights (lines 82-88) and the vector of pointers
(line 90) take a round per point. -/
def PointHeap.fromT (m : Build) (vec : List Point) : Timed PointHeap :=
  if vec.length < 2 then lift (.error .assert)
  else if vec.head? = vec.getLast? ∧ vec.length < 4 then lift (.error .assert)
  else match vec with
    | [] => lift (.error .assert)
    | p0 :: rest => do
      ticks vec.length
      ticks rest.length
      let tail ← lift (initPoints m 1 p0 rest)
      let points := ⟨p0, u64Max, 0, some 1, none⟩ :: tail
      ticks (vec.length - 2)
      PointHeap.heapifyT ⟨points, List.range' 1 (vec.length - 2)⟩

/-- `pop` (src/simplify/simplify_edge.rs:184-205). -/
def PointHeap.popT (h : PointHeap) : Timed (Nat × PointHeap) :=
  match h.heap with
  | [] => lift (.error .assert)
  | [top] => pure (top, { h with heap := [] })
  | top :: second :: rest => do
    let last := (second :: rest).getLast (by simp)
    let h1 : PointHeap := { h with heap := last :: (second :: rest).dropLast }
    let h2 ← lift (h1.modifyPoint last (fun p => { p with heapIndex := 0 }))
    let len := (top :: second :: rest).length
    let h3 ← h2.siftDownT 0 (len - 2) (len + 1) 0
    let h4 ← lift (h3.unlink top)
    pure (top, h4)

/-- The end of `recalculate_point_weight` (src/simplify/simplify_edge.rs:226-238),
given the new weight. -/
def PointHeap.reweighT (m : Build) (h : PointHeap) (j : Nat) (b : SPoint) (weight : R Nat) : Timed PointHeap := do
  let w ← lift weight
  if w < b.weight then do
    let h1 ← lift (h.modifyPoint j (fun p => { p with weight := w }))
    h1.siftUpT 0 (b.heapIndex + 1) b.heapIndex
  else if w > b.weight then do
    let h1 ← lift (h.modifyPoint j (fun p => { p with weight := w }))
    if h1.heap.length = 0 then
      lift (.error (match m with | .debug => .overflow | .release => .index))
    else h1.siftDownT b.heapIndex (h1.heap.length - 1) (h1.heap.length + 1) b.heapIndex
  else pure h

/-- `recalculate_point_weight` (src/simplify/simplify_edge.rs:211-239). -/
def PointHeap.recalculateT (m : Build) (h : PointHeap) (j : Nat) : Timed PointHeap :=
  match h.points[j]? with
  | none => lift (.error .nullDeref)
  | some b => match b.previous, b.next with
    | some ia, some ic => match h.points[ia]?, h.points[ic]? with
      | some a, some c => h.reweighT m j b (triWeight m a.geo b.geo c.geo)
      | _, _ => lift (.error .nullDeref)
    | _, _ => pure h

/-- src/simplify/simplify_edge.rs:276-281. -/
def PointHeap.recalculateOptT (m : Build) (h : PointHeap) : Option Nat → Timed PointHeap
  | none => pure h
  | some j => h.recalculateT m j

/-- The loop of `visvalingam_whyatt` (src/simplify/simplify_edge.rs:253-282). -/
def PointHeap.vwLoopT (m : Build) (smallest : Nat) (fuel : Nat) (lastWeight : Nat) (h : PointHeap) :
    Timed PointHeap :=
  if h.heap.length > 0 then
    match fuel with
    | 0 => lift (.error .fuel)
    | fuel + 1 => do
      tick
      let (i, h1) ← h.popT
      match h1.points[i]? with
      | none => lift (.error .nullDeref)
      | some p =>
        if p.weight < lastWeight then do
          let h2 ← lift (h1.modifyPoint i (fun q => { q with weight := lastWeight }))
          let h3 ← h2.recalculateOptT m p.previous
          let h4 ← h3.recalculateOptT m p.next
          PointHeap.vwLoopT m smallest fuel lastWeight h4
        else if p.weight ≥ smallest then pure h1
        else do
          let h3 ← h1.recalculateOptT m p.previous
          let h4 ← h3.recalculateOptT m p.next
          PointHeap.vwLoopT m smallest fuel p.weight h4
  else pure h

/-- `visvalingam_whyatt` (src/simplify/simplify_edge.rs:252-331): the iterator
(lines 284-287) and the search for the two heaviest points (lines 305-314) take
a round per point. -/
def PointHeap.visvalingamWhyattT (m : Build) (h : PointHeap) (smallest : Nat) : Timed (List Point) := do
  let h' ← h.vwLoopT m smallest h.heap.length 0
  ticks h'.points.length
  let ret := (h'.points.filter (fun p => p.weight ≥ smallest)).map (·.geo)
  match ret.head?, ret.getLast? with
  | some a, some z =>
    if a = z ∧ ret.length < 4 then do
      ticks h'.points.length
      lift (ringFallback h'.points)
    else pure ret
  | _, _ => lift (.error .index)

/-- `simplify_edge` (src/simplify/simplify_edge.rs:340-343). Copying the points
takes a round per point. -/
def simplifyEdgeT (m : Build) (points : List Point) (smallest : Nat) : Timed (List Point) := do
  ticks points.length
  let h ← PointHeap.fromT m points
  h.visvalingamWhyattT m smallest

/-- The loop in `simplify` (src/simplify/mod.rs:6-9). -/
def simplifyEdgesT (m : Build) (smallest : Nat) : List TopoEdge → Timed (List TopoEdge)
  | [] => pure []
  | e :: rest => do
    tick
    let ps ← simplifyEdgeT m e.points smallest
    let es ← simplifyEdgesT m smallest rest
    pure ({ e with points := ps } :: es)

/-- `simplify` (src/simplify/mod.rs:5-11). -/
def simplifyT {δ : Type} (m : Build) (t : Topology δ) (smallest : Nat) : Timed (Topology δ) := do
  let es ← simplifyEdgesT m smallest t.edges
  pure { t with edges := es }

end TopoGeo
