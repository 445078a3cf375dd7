import Verif.Model.MemoryOps
/-!
# Model of the raw pointers in `src/simplify/simplify_edge.rs`

`Model/Simplify.lean` takes the pointers between points for numbers. Here `PointHeap`
is modelled once more with addresses. The vector of points is a block of memory
(`Model/Memory.lean`); `next`, `previous` and the elements of the heap are addresses,
and what they refer to is looked up in the block whenever they are followed, in the
order in which the code does it. No pointer to an element of the heap is taken, so
the heap is a list.
-/

namespace TopoGeo

/-- `simplify_edge::Point` (src/simplify/simplify_edge.rs:11-30). The null pointer is 0. -/
structure MSPoint where
  geo : Point
  weight : Nat
  heapIndex : Nat
  next : Nat
  previous : Nat
deriving DecidableEq, Repr

/-- Where the allocator places a vector of points: address, `size_of::<Point>()`, capacity. -/
structure PointsPlace where
  address : Nat
  size : Nat
  capacity : Nat

/-- `PointHeap` (src/simplify/simplify_edge.rs:52-56), with `size_of::<Point>()`. -/
structure MPointHeap where
  size : Nat
  points : MVec MSPoint
  heap : List Nat

/-- Reading through a pointer. -/
def MPointHeap.read (h : MPointHeap) (p : Nat) : R MSPoint :=
  match (locate h.points.address h.size h.points.elems.length p).bind fun i => h.points.elems[i]? with
  | none => .error .nullDeref
  | some x => .ok x

/-- Writing through a pointer. -/
def MPointHeap.write (h : MPointHeap) (p : Nat) (f : MSPoint → MSPoint) : R MPointHeap :=
  match (locate h.points.address h.size h.points.elems.length p).bind fun i => h.points.elems[i]?.map fun x => (i, x) with
  | none => .error .nullDeref
  | some (i, x) => .ok { h with points := { h.points with elems := h.points.elems.set i (f x) } }

/-- `&points[i]`: the address of an element, or a panic. -/
def MPointHeap.addressOf (h : MPointHeap) (i : Nat) : R Nat :=
  if i < h.points.elems.length then .ok (elemAddress h.points.address h.size i) else .error .index

/-- `points[i]`. -/
def MPointHeap.get (h : MPointHeap) (i : Nat) : R MSPoint :=
  match h.points.elems[i]? with
  | none => .error .index
  | some x => .ok x

/-- Assigning to fields of `points[i]`. -/
def MPointHeap.update (h : MPointHeap) (i : Nat) (f : MSPoint → MSPoint) : R MPointHeap :=
  match h.points.elems[i]? with
  | none => .error .index
  | some x => .ok { h with points := { h.points with elems := h.points.elems.set i (f x) } }

/-- `heap[i]`. -/
def MPointHeap.pointer (h : MPointHeap) (i : Nat) : R Nat :=
  match h.heap[i]? with
  | none => .error .index
  | some p => .ok p

/-- The weight that `>` compares (src/simplify/simplify_edge.rs:40-50) in `*self.heap[i]`. -/
def MPointHeap.weightAt (h : MPointHeap) (i : Nat) : R Nat := do
  let p ← h.pointer i
  let x ← h.read p
  .ok x.weight

/-- `swap` (src/simplify/simplify_edge.rs:171-177). -/
def MPointHeap.swap (h : MPointHeap) (a b : Nat) : R MPointHeap := do
  let pa ← h.pointer a
  let pb ← h.pointer b
  let h1 : MPointHeap := { h with heap := (h.heap.set a pb).set b pa }
  let qa ← h1.pointer a
  let h2 ← h1.write qa (fun x => { x with heapIndex := a })
  let qb ← h2.pointer b
  h2.write qb (fun x => { x with heapIndex := b })

/-- `sift_down` (src/simplify/simplify_edge.rs:130-154), with fuel as in the model with
numbers. -/
def MPointHeap.siftDown (start «end» : Nat) (fuel : Nat) (h : MPointHeap) (root : Nat) : R MPointHeap :=
  match fuel with
  | 0 => .error .fuel
  | fuel + 1 =>
    let child := 2 * root + 1
    if child ≤ «end» then do
      let ws ← h.weightAt start
      let wc ← h.weightAt child
      let swap0 := if ws > wc then child else root
      let swap1 ←
        if child + 1 ≤ «end» then do
          let w0 ← h.weightAt swap0
          let wr ← h.weightAt (child + 1)
          .ok (if w0 > wr then child + 1 else swap0)
        else .ok swap0
      if swap1 = root then .ok h
      else do
        let h' ← h.swap root swap1
        MPointHeap.siftDown start «end» fuel h' swap1
    else .ok h

/-- `sift_up` (src/simplify/simplify_edge.rs:156-169). -/
def MPointHeap.siftUp (start : Nat) (fuel : Nat) (h : MPointHeap) (child : Nat) : R MPointHeap :=
  match fuel with
  | 0 => .error .fuel
  | fuel + 1 =>
    if child > start then do
      let parent := (child - 1) / 2
      let wp ← h.weightAt parent
      let wc ← h.weightAt child
      if wp > wc then do
        let h' ← h.swap parent child
        MPointHeap.siftUp start fuel h' parent
      else .ok h
    else .ok h

/-- The loop of `heapify` (src/simplify/simplify_edge.rs:118-126). -/
def MPointHeap.heapifyLoop (len : Nat) (h : MPointHeap) : Nat → R MPointHeap
  | 0 => h.siftDown 0 (len - 1) (len + 1) 0
  | start + 1 => do
    let h' ← h.siftDown (start + 1) (len - 1) (len + 1) (start + 1)
    heapifyLoop len h' start

/-- `heapify` (src/simplify/simplify_edge.rs:113-128). -/
def MPointHeap.heapify (h : MPointHeap) : R MPointHeap :=
  if h.heap.length > 1 then
    h.heapifyLoop h.heap.length ((h.heap.length - 1 - 1) / 2)
  else .ok h

/-- The loop that computes the initial weights and links the points
(src/simplify/simplify_edge.rs:82-88), for `count` numbers from `i` on. -/
def MPointHeap.linkLoop (m : Build) : Nat → Nat → MPointHeap → R MPointHeap
  | 0, _, h => .ok h
  | count + 1, i, h => do
    let a ← h.get (i - 1)
    let b ← h.get i
    let c ← h.get (i + 1)
    let w ← triWeight m a.geo b.geo c.geo
    let h1 ← h.update i (fun x => { x with weight := w })
    let pn ← h1.addressOf (i + 1)
    let h2 ← h1.update i (fun x => { x with next := pn })
    let pp ← h2.addressOf (i - 1)
    let h3 ← h2.update i (fun x => { x with previous := pp })
    linkLoop m count (i + 1) h3

/-- `From<Vec<geo::Point>>` (src/simplify/simplify_edge.rs:58-99). The vector of points is
moved into the `PointHeap` and that is returned, but the points stay where they are. -/
def MPointHeap.from (place : PointsPlace) (m : Build) (vec : List Point) : R MPointHeap :=
  let len := vec.length
  if len < 2 then .error .assert
  else if vec.head? = vec.getLast? ∧ len < 4 then .error .assert
  else do
    let h0 : MPointHeap := ⟨place.size, ⟨place.address, place.capacity, vec.map fun p => ⟨p, 0, 0, 0, 0⟩⟩, []⟩
    let h1 ← h0.update 0 (fun x => { x with weight := u64Max })
    let p1 ← h1.addressOf 1
    let h2 ← h1.update 0 (fun x => { x with next := p1 })
    let h3 ← h2.update (len - 1) (fun x => { x with weight := u64Max })
    let p2 ← h3.addressOf (len - 2)
    let h4 ← h3.update (len - 1) (fun x => { x with previous := p2 })
    let h5 ← h4.linkLoop m (len - 2) 1
    let heap := (List.range' 1 (len - 2)).map (elemAddress h5.points.address h5.size)
    MPointHeap.heapify { h5 with heap := heap }

/-- `pop` (src/simplify/simplify_edge.rs:184-205). Each pointer is read when the code
reads it, that is after the writes before it. -/
def MPointHeap.pop (h : MPointHeap) : R (Nat × MPointHeap) :=
  match h.heap with
  | [] => .error .assert
  | [top] => .ok (top, { h with heap := [] })
  | top :: second :: rest => do
    let last := (second :: rest).getLast (by simp)
    let h1 : MPointHeap := { h with heap := last :: (second :: rest).dropLast }
    let h2 ← h1.write last (fun x => { x with heapIndex := 0 })
    let len := (top :: second :: rest).length
    let h3 ← h2.siftDown 0 (len - 2) (len + 1) 0
    let t1 ← h3.read top
    let h4 ← h3.write t1.previous (fun x => { x with next := t1.next })
    let t2 ← h4.read top
    let h5 ← h4.write t2.next (fun x => { x with previous := t2.previous })
    .ok (top, h5)

/-- `ptr.as_ref()`: `None` for the null pointer. -/
def MPointHeap.asRef (h : MPointHeap) (p : Nat) : R (Option MSPoint) :=
  if p = 0 then .ok none
  else do
    let x ← h.read p
    .ok (some x)

/-- `recalculate_point_weight` (src/simplify/simplify_edge.rs:211-239). -/
def MPointHeap.recalculate (m : Build) (h : MPointHeap) (p : Nat) : R MPointHeap := do
  let b ← h.read p
  let oa ← h.asRef b.previous
  let oc ← h.asRef b.next
  match oa, oc with
  | some a, some c => do
    let w ← triWeight m a.geo b.geo c.geo
    if w < b.weight then do
      let h1 ← h.write p (fun x => { x with weight := w })
      let b1 ← h1.read p
      h1.siftUp 0 (b1.heapIndex + 1) b1.heapIndex
    else if w > b.weight then do
      let h1 ← h.write p (fun x => { x with weight := w })
      let b1 ← h1.read p
      -- `len - 1` underflows: a panic in debug; in release it wraps and
      -- `heap[start]` is then out of bounds
      if h1.heap.length = 0 then
        .error (match m with | .debug => .overflow | .release => .index)
      else h1.siftDown b1.heapIndex (h1.heap.length - 1) (h1.heap.length + 1) b1.heapIndex
    else .ok h
  | _, _ => .ok h

/-- `if !ptr.is_null() { recalculate_point_weight(ptr) }`
(src/simplify/simplify_edge.rs:276-281). -/
def MPointHeap.recalculateOpt (m : Build) (h : MPointHeap) (p : Nat) : R MPointHeap :=
  if p = 0 then .ok h else h.recalculate m p

/-- The two recalculations of a round (src/simplify/simplify_edge.rs:276-281): `next` is
read after the first one. -/
def MPointHeap.recalculateBoth (m : Build) (h : MPointHeap) (p : Nat) : R MPointHeap := do
  let x ← h.read p
  let h1 ← h.recalculateOpt m x.previous
  let y ← h1.read p
  h1.recalculateOpt m y.next

/-- The loop of `visvalingam_whyatt` (src/simplify/simplify_edge.rs:253-282). -/
def MPointHeap.vwLoop (m : Build) (smallest : Nat) (fuel : Nat) (lastWeight : Nat) (h : MPointHeap) :
    R MPointHeap :=
  if h.heap.length > 0 then
    match fuel with
    | 0 => .error .fuel
    | fuel + 1 => do
      let (p, h1) ← h.pop
      let x ← h1.read p
      if x.weight < lastWeight then do
        let h2 ← h1.write p (fun y => { y with weight := lastWeight })
        let h3 ← h2.recalculateBoth m p
        MPointHeap.vwLoop m smallest fuel lastWeight h3
      else if x.weight ≥ smallest then .ok h1
      else do
        let h3 ← h1.recalculateBoth m p
        MPointHeap.vwLoop m smallest fuel x.weight h3
  else .ok h

/-- The search for the two heaviest points (src/simplify/simplify_edge.rs:305-314). -/
def mTopTwoLoop (first second : MSPoint) (firstLower : Bool) : List MSPoint → MSPoint × MSPoint × Bool
  | [] => (first, second, firstLower)
  | p :: rest =>
    if p.weight > first.weight then mTopTwoLoop p first false rest
    else if p.weight > second.weight then mTopTwoLoop first p true rest
    else mTopTwoLoop first second firstLower rest

/-- The ring fallback (src/simplify/simplify_edge.rs:293-327). The references here are
checked by the compiler; they are not raw pointers. -/
def mRingFallback (points : List MSPoint) : R (List Point) :=
  match points with
  | p0 :: p1 :: p2 :: p3 :: rest =>
    let last := (p3 :: rest).getLast (by simp)
    let start : MSPoint × MSPoint × Bool :=
      if p2.weight > p1.weight then (p2, p1, false) else (p1, p2, true)
    let (first, second, firstLower) :=
      mTopTwoLoop start.1 start.2.1 start.2.2 (p3 :: rest).dropLast
    let (a, b) := if firstLower then (first, second) else (second, first)
    .ok [p0.geo, a.geo, b.geo, last.geo]
  | _ => .error .index

/-- `visvalingam_whyatt` (src/simplify/simplify_edge.rs:252-331). -/
def MPointHeap.visvalingamWhyatt (m : Build) (h : MPointHeap) (smallest : Nat) : R (List Point) := do
  let h' ← h.vwLoop m smallest h.heap.length 0
  let ret := (h'.points.elems.filter (fun p => p.weight ≥ smallest)).map (·.geo)
  match ret.head?, ret.getLast? with
  | some a, some z =>
    if a = z ∧ ret.length < 4 then mRingFallback h'.points.elems else .ok ret
  | _, _ => .error .index

/-- `simplify_edge` (src/simplify/simplify_edge.rs:340-343). -/
def mSimplifyEdge (place : PointsPlace) (m : Build) (points : List Point) (smallest : Nat) : R (List Point) := do
  let h ← MPointHeap.from place m points
  h.visvalingamWhyatt m smallest

/-- The loop in `simplify` (src/simplify/mod.rs:6-9): the points of edge number `i` are
copied to `places i`. -/
def mSimplifyEdgesAt (places : Nat → PointsPlace) (m : Build) (smallest : Nat) : Nat → List MEdge → R (List MEdge)
  | _, [] => .ok []
  | i, e :: rest => do
    let ps ← mSimplifyEdge (places i) m e.points smallest
    let es ← mSimplifyEdgesAt places m smallest (i + 1) rest
    .ok ({ e with points := ps } :: es)

/-- `simplify` (src/simplify/mod.rs:5-11). -/
def mSimplifyAt {δ : Type} (places : Nat → PointsPlace) (m : Build) (t : MTopology δ) (smallest : Nat) : R (MTopology δ) := do
  let es ← mSimplifyEdgesAt places m smallest 0 t.edges.elems
  .ok { t with edges := { t.edges with elems := es } }

end TopoGeo
