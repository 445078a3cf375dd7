import Verif.Model.Topology
/-!
# Model of `src/simplify/mod.rs` and `src/simplify/simplify_edge.rs`

`*const Point` pointers are indices into `PointHeap::points`.
-/

namespace TopoGeo

/-- `u64::max_value()`. -/
def u64Max : Nat := 2 ^ 64 - 1

/-- `area2` of the simplifier (src/simplify/simplify_edge.rs:5-9), the formula
exactly as written: `(b.0 * a.0) * (c.1 - a.1) - (c.0 - a.0) * (b.1 - a.1)`,
then `abs() as u64`. -/
def triWeight (m : Build) (a b c : Point) : R Nat := do
  let t1 ← m.i64 (b.xi * a.xi)
  let t2 ← m.i64 (t1 * (c.yi - a.yi))
  let t3 ← m.i64 ((c.xi - a.xi) * (b.yi - a.yi))
  let t4 ← m.i64 (t2 - t3)
  let t5 ← m.i64 (t4.natAbs : Int)
  .ok (t5.emod (2 ^ 64)).toNat

/-- `simplify_edge::Point` (src/simplify/simplify_edge.rs:11-30). -/
structure SPoint where
  geo : Point
  weight : Nat
  heapIndex : Nat
  next : Option Nat
  previous : Option Nat
deriving DecidableEq, Repr

/-- `PointHeap` (src/simplify/simplify_edge.rs:52-56). -/
structure PointHeap where
  points : List SPoint
  heap : List Nat
deriving DecidableEq, Repr

/-- The points after the first one, with initial weights and links
(src/simplify/simplify_edge.rs:66-88); `i` is the index of the head and `prev`
the point before it. -/
def initPoints (m : Build) (i : Nat) (prev : Point) : List Point → R (List SPoint)
  | [] => .ok []
  | [last] => .ok [⟨last, u64Max, 0, none, some (i - 1)⟩]
  | b :: c :: rest => do
    let w ← triWeight m prev b c
    let tail ← initPoints m (i + 1) b (c :: rest)
    .ok (⟨b, w, 0, some (i + 1), some (i - 1)⟩ :: tail)

/-- `heap[i]` followed through the pointer: the weight compared by `>`
(src/simplify/simplify_edge.rs:40-50). -/
def PointHeap.weightAt (h : PointHeap) (i : Nat) : R Nat :=
  match h.heap[i]? with
  | none => .error .index
  | some j => match h.points[j]? with
    | none => .error .nullDeref
    | some p => .ok p.weight

/-- Write through a point pointer. -/
def PointHeap.modifyPoint (h : PointHeap) (j : Nat) (f : SPoint → SPoint) : R PointHeap :=
  match h.points[j]? with
  | none => .error .nullDeref
  | some p => .ok { h with points := h.points.set j (f p) }

/-- `swap` (src/simplify/simplify_edge.rs:171-177). -/
def PointHeap.swap (h : PointHeap) (a b : Nat) : R PointHeap :=
  match h.heap[a]?, h.heap[b]? with
  | some pa, some pb => do
    let h1 : PointHeap := { h with heap := (h.heap.set a pb).set b pa }
    let h2 ← h1.modifyPoint pb (fun p => { p with heapIndex := a })
    h2.modifyPoint pa (fun p => { p with heapIndex := b })
  | _, _ => .error .index

/-- `sift_down` (src/simplify/simplify_edge.rs:130-154). As in the code, the
left child is compared with `heap[start]`, not with `heap[root]`. Fuel: `root`
grows in each round and stays at most `end`. -/
def PointHeap.siftDown (start «end» : Nat) (fuel : Nat) (h : PointHeap) (root : Nat) : R PointHeap :=
  match fuel with
  | 0 => .error .fuel
  | fuel + 1 =>
    let child := 2 * root + 1
    if child ≤ «end» then do
      let ws ← h.weightAt start
      let wc ← h.weightAt child
      let swap0 := if ws > wc then child else root
      let swap1 ←
        if child + 1 ≤ «end» then do
          let w0 ← h.weightAt swap0
          let wr ← h.weightAt (child + 1)
          .ok (if w0 > wr then child + 1 else swap0)
        else .ok swap0
      if swap1 = root then .ok h
      else do
        let h' ← h.swap root swap1
        PointHeap.siftDown start «end» fuel h' swap1
    else .ok h

/-- `sift_up` (src/simplify/simplify_edge.rs:156-169). -/
def PointHeap.siftUp (start : Nat) (fuel : Nat) (h : PointHeap) (child : Nat) : R PointHeap :=
  match fuel with
  | 0 => .error .fuel
  | fuel + 1 =>
    if child > start then do
      let parent := (child - 1) / 2
      let wp ← h.weightAt parent
      let wc ← h.weightAt child
      if wp > wc then do
        let h' ← h.swap parent child
        PointHeap.siftUp start fuel h' parent
      else .ok h
    else .ok h

/-- The loop of `heapify` (src/simplify/simplify_edge.rs:118-126): from
`start` down to 0. -/
def PointHeap.heapifyLoop (len : Nat) (h : PointHeap) : Nat → R PointHeap
  | 0 => h.siftDown 0 (len - 1) (len + 1) 0
  | start + 1 => do
    let h' ← h.siftDown (start + 1) (len - 1) (len + 1) (start + 1)
    heapifyLoop len h' start

/-- `heapify` (src/simplify/simplify_edge.rs:113-128). -/
def PointHeap.heapify (h : PointHeap) : R PointHeap :=
  if h.heap.length > 1 then
    h.heapifyLoop h.heap.length ((h.heap.length - 1 - 1) / 2)
  else .ok h

/-- `From<Vec<geo::Point>>` (src/simplify/simplify_edge.rs:58-99). -/
def PointHeap.from (m : Build) (vec : List Point) : R PointHeap :=
  if vec.length < 2 then .error .assert
  else if vec.head? = vec.getLast? ∧ vec.length < 4 then .error .assert
  else match vec with
    | [] => .error .assert
    | p0 :: rest => do
      let tail ← initPoints m 1 p0 rest
      let points := ⟨p0, u64Max, 0, some 1, none⟩ :: tail
      PointHeap.heapify ⟨points, List.range' 1 (vec.length - 2)⟩

/-- Unlinking `top` from the list (src/simplify/simplify_edge.rs:198-201). -/
def PointHeap.unlink (h : PointHeap) (top : Nat) : R PointHeap :=
  match h.points[top]? with
  | none => .error .nullDeref
  | some p => match p.previous, p.next with
    | some a, some c => do
      let h1 ← h.modifyPoint a (fun q => { q with next := some c })
      -- `(*top).previous` is read again after the first write
      h1.modifyPoint c (fun q => { q with previous := some a })
    | _, _ => .error .nullDeref

/-- `pop` (src/simplify/simplify_edge.rs:184-205). -/
def PointHeap.pop (h : PointHeap) : R (Nat × PointHeap) :=
  match h.heap with
  | [] => .error .assert
  | [top] => .ok (top, { h with heap := [] })
  | top :: second :: rest => do
    let last := (second :: rest).getLast (by simp)
    let h1 : PointHeap := { h with heap := last :: (second :: rest).dropLast }
    let h2 ← h1.modifyPoint last (fun p => { p with heapIndex := 0 })
    let len := (top :: second :: rest).length
    let h3 ← h2.siftDown 0 (len - 2) (len + 1) 0
    let h4 ← h3.unlink top
    .ok (top, h4)

/-- `recalculate_point_weight` (src/simplify/simplify_edge.rs:211-239). -/
def PointHeap.recalculate (m : Build) (h : PointHeap) (j : Nat) : R PointHeap :=
  match h.points[j]? with
  | none => .error .nullDeref
  | some b => match b.previous, b.next with
    | some ia, some ic => match h.points[ia]?, h.points[ic]? with
      | some a, some c => do
        let w ← triWeight m a.geo b.geo c.geo
        if w < b.weight then do
          let h1 ← h.modifyPoint j (fun p => { p with weight := w })
          h1.siftUp 0 (b.heapIndex + 1) b.heapIndex
        else if w > b.weight then do
          let h1 ← h.modifyPoint j (fun p => { p with weight := w })
          -- `len - 1` underflows: a panic in debug; in release it wraps and
          -- `heap[start]` is then out of bounds
          if h1.heap.length = 0 then
            .error (match m with | .debug => .overflow | .release => .index)
          else h1.siftDown b.heapIndex (h1.heap.length - 1) (h1.heap.length + 1) b.heapIndex
        else .ok h
      | _, _ => .error .nullDeref
    | _, _ => .ok h

/-- `if !ptr.is_null() { recalculate_point_weight(ptr) }`
(src/simplify/simplify_edge.rs:276-281). -/
def PointHeap.recalculateOpt (m : Build) (h : PointHeap) : Option Nat → R PointHeap
  | none => .ok h
  | some j => h.recalculate m j

/-- The loop of `visvalingam_whyatt` (src/simplify/simplify_edge.rs:253-282). -/
def PointHeap.vwLoop (m : Build) (smallest : Nat) (fuel : Nat) (lastWeight : Nat) (h : PointHeap) :
    R PointHeap :=
  if h.heap.length > 0 then
    match fuel with
    | 0 => .error .fuel
    | fuel + 1 => do
      let (i, h1) ← h.pop
      match h1.points[i]? with
      | none => .error .nullDeref
      | some p =>
        if p.weight < lastWeight then do
          let h2 ← h1.modifyPoint i (fun q => { q with weight := lastWeight })
          let h3 ← h2.recalculateOpt m p.previous
          let h4 ← h3.recalculateOpt m p.next
          PointHeap.vwLoop m smallest fuel lastWeight h4
        else if p.weight ≥ smallest then .ok h1
        else do
          let h3 ← h1.recalculateOpt m p.previous
          let h4 ← h3.recalculateOpt m p.next
          PointHeap.vwLoop m smallest fuel p.weight h4
  else .ok h

/-- The search for the two heaviest points (src/simplify/simplify_edge.rs:305-314). -/
def topTwoLoop (first second : SPoint) (firstLower : Bool) : List SPoint → SPoint × SPoint × Bool
  | [] => (first, second, firstLower)
  | p :: rest =>
    if p.weight > first.weight then topTwoLoop p first false rest
    else if p.weight > second.weight then topTwoLoop first p true rest
    else topTwoLoop first second firstLower rest

/-- The ring fallback (src/simplify/simplify_edge.rs:293-327). -/
def ringFallback (points : List SPoint) : R (List Point) :=
  match points with
  | p0 :: p1 :: p2 :: p3 :: rest =>
    let last := (p3 :: rest).getLast (by simp)
    let start : SPoint × SPoint × Bool :=
      if p2.weight > p1.weight then (p2, p1, false) else (p1, p2, true)
    let (first, second, firstLower) :=
      topTwoLoop start.1 start.2.1 start.2.2 (p3 :: rest).dropLast
    let (a, b) := if firstLower then (first, second) else (second, first)
    .ok [p0.geo, a.geo, b.geo, last.geo]
  | _ => .error .index

/-- `visvalingam_whyatt` (src/simplify/simplify_edge.rs:252-331). -/
def PointHeap.visvalingamWhyatt (m : Build) (h : PointHeap) (smallest : Nat) : R (List Point) := do
  let h' ← h.vwLoop m smallest h.heap.length 0
  let ret := (h'.points.filter (fun p => p.weight ≥ smallest)).map (·.geo)
  match ret.head?, ret.getLast? with
  | some a, some z =>
    if a = z ∧ ret.length < 4 then ringFallback h'.points else .ok ret
  | _, _ => .error .index

/-- `simplify_edge` (src/simplify/simplify_edge.rs:340-343). -/
def simplifyEdge (m : Build) (points : List Point) (smallest : Nat) : R (List Point) := do
  let h ← PointHeap.from m points
  h.visvalingamWhyatt m smallest

/-- The loop in `simplify` (src/simplify/mod.rs:6-9). -/
def simplifyEdges (m : Build) (smallest : Nat) : List TopoEdge → R (List TopoEdge)
  | [] => .ok []
  | e :: rest => do
    let ps ← simplifyEdge m e.points smallest
    let es ← simplifyEdges m smallest rest
    .ok ({ e with points := ps } :: es)

/-- `simplify` (src/simplify/mod.rs:5-11). -/
def simplify {δ : Type} (m : Build) (t : Topology δ) (smallest : Nat) : R (Topology δ) := do
  let es ← simplifyEdges m smallest t.edges
  .ok { t with edges := es }

end TopoGeo
