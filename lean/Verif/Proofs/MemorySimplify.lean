import Verif.Spec.MemorySimplify
import Verif.Proofs.Memory
/-!
# Proofs about the raw pointers of the simplifier
-/

namespace TopoGeo

open Spec

/-! ## The model with numbers, placed in memory -/

/-- The address of a point, or the null pointer. -/
def PointsPlace.pointer (pl : PointsPlace) : Option Nat → Nat
  | none => 0
  | some i => elemAddress pl.address pl.size i

/-- A point, with addresses for numbers. -/
def PointsPlace.point (pl : PointsPlace) (p : SPoint) : MSPoint :=
  ⟨p.geo, p.weight, p.heapIndex, pl.pointer p.next, pl.pointer p.previous⟩

/-- A heap, with addresses for numbers. -/
def PointsPlace.heap (pl : PointsPlace) (h : PointHeap) : MPointHeap :=
  ⟨pl.size, ⟨pl.address, pl.capacity, h.points.map pl.point⟩, h.heap.map (elemAddress pl.address pl.size)⟩

theorem R.map_bind_eq {α β γ : Type} (x : R α) (f : α → β) (g : β → R γ) : (x.map f) >>= g = x >>= fun a => g (f a) := by
  cases x <;> rfl

theorem R.bind_map_eq {α β γ : Type} (x : R α) (g : α → R β) (f : β → γ) : (x >>= g).map f = x >>= fun a => (g a).map f := by
  cases x <;> rfl

theorem R.bind_congr_ok {α β : Type} {x : R α} {f g : α → R β} (h : ∀ a, x = .ok a → f a = g a) : x >>= f = x >>= g := by
  cases x with
  | error e => rfl
  | ok a => exact h a rfl

section
variable {pl : PointsPlace} (hp : RealPlace pl)
include hp

theorem PointsPlace.heap_locate (h : PointHeap) (i : Nat) :
    locate (pl.heap h).points.address (pl.heap h).size (pl.heap h).points.elems.length (elemAddress pl.address pl.size i) =
      if i < h.points.length then some i else none := by
  unfold PointsPlace.heap
  simp only [List.length_map]
  exact locate_elemAddress hp.size

theorem PointsPlace.locate_null (h : PointHeap) :
    locate (pl.heap h).points.address (pl.heap h).size (pl.heap h).points.elems.length 0 = none := by
  unfold PointsPlace.heap locate
  rw [if_neg]
  rintro ⟨h1, -⟩
  exact hp.address (Nat.le_zero.mp h1)

theorem PointsPlace.heap_read (h : PointHeap) (i : Nat) :
    (pl.heap h).read (elemAddress pl.address pl.size i) =
      match h.points[i]? with
      | none => .error .nullDeref
      | some x => .ok (pl.point x) := by
  unfold MPointHeap.read
  rw [PointsPlace.heap_locate hp]
  by_cases hi : i < h.points.length
  · simp [hi, PointsPlace.heap]
  · simp [hi]

theorem PointsPlace.heap_write (h : PointHeap) (i : Nat) (f : MSPoint → MSPoint) (g : SPoint → SPoint)
    (hfg : ∀ x, h.points[i]? = some x → f (pl.point x) = pl.point (g x)) :
    (pl.heap h).write (elemAddress pl.address pl.size i) f = (h.modifyPoint i g).map pl.heap := by
  unfold MPointHeap.write PointHeap.modifyPoint
  rw [PointsPlace.heap_locate hp]
  by_cases hi : i < h.points.length
  · have := hfg h.points[i] (by simp)
    simp only [if_pos hi, Option.bind_some, PointsPlace.heap, List.getElem?_map, List.getElem?_eq_getElem hi, Option.map_some,
      Except.map, this, List.map_set]
  · simp [hi, Except.map]

theorem PointsPlace.heap_read_null (h : PointHeap) : (pl.heap h).read 0 = .error .nullDeref := by
  unfold MPointHeap.read
  rw [PointsPlace.locate_null hp]
  rfl

theorem PointsPlace.heap_write_null (h : PointHeap) (f : MSPoint → MSPoint) : (pl.heap h).write 0 f = .error .nullDeref := by
  unfold MPointHeap.write
  rw [PointsPlace.locate_null hp]
  rfl

omit hp in
theorem PointsPlace.heap_pointer (h : PointHeap) (i : Nat) :
    (pl.heap h).pointer i =
      match h.heap[i]? with
      | none => .error .index
      | some j => .ok (elemAddress pl.address pl.size j) := by
  unfold MPointHeap.pointer PointsPlace.heap
  simp only [List.getElem?_map]
  cases h.heap[i]? <;> rfl

theorem PointsPlace.heap_weightAt (h : PointHeap) (i : Nat) : (pl.heap h).weightAt i = h.weightAt i := by
  unfold MPointHeap.weightAt PointHeap.weightAt
  rw [PointsPlace.heap_pointer]
  cases h.heap[i]? with
  | none => rfl
  | some j =>
    simp only [ok_bind, PointsPlace.heap_read hp]
    cases h.points[j]? <;> rfl

theorem PointsPlace.heap_swap (h : PointHeap) (a b : Nat) : (pl.heap h).swap a b = (h.swap a b).map pl.heap := by
  unfold MPointHeap.swap PointHeap.swap
  rw [PointsPlace.heap_pointer, PointsPlace.heap_pointer]
  cases ha : h.heap[a]? with
  | none => rfl
  | some pa =>
    cases hb : h.heap[b]? with
    | none => rfl
    | some pb =>
      obtain ⟨la, -⟩ := List.getElem?_eq_some_iff.mp ha
      obtain ⟨lb, -⟩ := List.getElem?_eq_some_iff.mp hb
      have e1 : ({ pl.heap h with heap := ((pl.heap h).heap.set a (elemAddress pl.address pl.size pb)).set b (elemAddress pl.address pl.size pa) } : MPointHeap) =
          pl.heap { h with heap := (h.heap.set a pb).set b pa } := by
        unfold PointsPlace.heap
        simp only [List.map_set]
      have ea : ((h.heap.set a pb).set b pa)[a]? = some pb := by
        by_cases hab : b = a
        · subst hab
          rw [ha] at hb
          obtain rfl := Option.some.inj hb
          simp [la]
        · simp [hab, la]
      have eb : ((h.heap.set a pb).set b pa)[b]? = some pa := by simp [lb]
      simp only [ok_bind, e1, PointsPlace.heap_pointer, ea]
      rw [PointsPlace.heap_write hp _ _ _ (fun p => { p with heapIndex := a }) (fun _ _ => rfl), R.map_bind_eq, R.bind_map_eq]
      refine R.bind_congr_ok fun h2 hh2 => ?_
      have e2 : h2.heap = (h.heap.set a pb).set b pa := by
        unfold PointHeap.modifyPoint at hh2
        split at hh2
        · cases hh2
        · obtain rfl := Except.ok.inj hh2
          rfl
      simp only [PointsPlace.heap_pointer, e2, eb, ok_bind]
      exact PointsPlace.heap_write hp _ _ _ _ (fun _ _ => rfl)

theorem PointsPlace.heap_siftDown (start e fuel : Nat) (h : PointHeap) (root : Nat) :
    (pl.heap h).siftDown start e fuel root = (h.siftDown start e fuel root).map pl.heap := by
  induction fuel generalizing h root with
  | zero => rfl
  | succ fuel ih =>
    have key : ∀ s1, (if s1 = root then (.ok (pl.heap h) : R MPointHeap) else do
          let h' ← (pl.heap h).swap root s1
          MPointHeap.siftDown start e fuel h' s1) =
        Except.map pl.heap (if s1 = root then (.ok h : R PointHeap) else do
          let h' ← h.swap root s1
          PointHeap.siftDown start e fuel h' s1) := by
      intro s1
      split
      · rfl
      · rw [PointsPlace.heap_swap hp, R.map_bind_eq, R.bind_map_eq]
        exact R.bind_congr_ok fun h' _ => ih _ _
    unfold MPointHeap.siftDown PointHeap.siftDown
    simp only [PointsPlace.heap_weightAt hp]
    split
    · rw [R.bind_map_eq]
      refine R.bind_congr_ok fun ws _ => ?_
      rw [R.bind_map_eq]
      refine R.bind_congr_ok fun wc _ => ?_
      split
      · rw [R.bind_map_eq]
        refine R.bind_congr_ok fun w0 _ => ?_
        rw [R.bind_map_eq]
        refine R.bind_congr_ok fun wr _ => ?_
        exact key _
      · exact key _
    · rfl

theorem PointsPlace.heap_siftUp (start fuel : Nat) (h : PointHeap) (child : Nat) :
    (pl.heap h).siftUp start fuel child = (h.siftUp start fuel child).map pl.heap := by
  induction fuel generalizing h child with
  | zero => rfl
  | succ fuel ih =>
    unfold MPointHeap.siftUp PointHeap.siftUp
    simp only [PointsPlace.heap_weightAt hp, PointsPlace.heap_swap hp]
    split
    · rw [R.bind_map_eq]
      refine R.bind_congr_ok fun ws _ => ?_
      rw [R.bind_map_eq]
      refine R.bind_congr_ok fun wc _ => ?_
      split
      · rw [R.map_bind_eq, R.bind_map_eq]
        exact R.bind_congr_ok fun h' _ => ih _ _
      · rfl
    · rfl

theorem PointsPlace.heap_heapifyLoop (len : Nat) (h : PointHeap) (start : Nat) :
    (pl.heap h).heapifyLoop len start = (h.heapifyLoop len start).map pl.heap := by
  induction start generalizing h with
  | zero => exact PointsPlace.heap_siftDown hp _ _ _ _ _
  | succ start ih =>
    unfold MPointHeap.heapifyLoop PointHeap.heapifyLoop
    rw [PointsPlace.heap_siftDown hp, R.map_bind_eq, R.bind_map_eq]
    exact R.bind_congr_ok fun h' _ => ih _

theorem PointsPlace.heap_heapify (h : PointHeap) : (pl.heap h).heapify = h.heapify.map pl.heap := by
  unfold MPointHeap.heapify PointHeap.heapify
  have e : (pl.heap h).heap.length = h.heap.length := by simp [PointsPlace.heap]
  rw [e]
  split
  · exact PointsPlace.heap_heapifyLoop hp _ _ _
  · rfl

/-! ## Building the heap -/

omit hp in
theorem initPoints_length {m : Build} {i : Nat} {prev : Point} {rest : List Point} {tail : List SPoint}
    (h : initPoints m i prev rest = .ok tail) : tail.length = rest.length := by
  induction rest generalizing i prev tail with
  | nil => obtain rfl := Except.ok.inj h; rfl
  | cons b rest ih =>
    cases rest with
    | nil => obtain rfl := Except.ok.inj h; rfl
    | cons c rest =>
      unfold initPoints at h
      obtain ⟨w, _, h1⟩ := bind_ok.mp h
      obtain ⟨t, h2, h3⟩ := bind_ok.mp h1
      obtain rfl := Except.ok.inj h3
      simp [ih h2]

omit hp in
theorem MPointHeap.get_ok {h : MPointHeap} {i : Nat} {x : MSPoint} (hx : h.points.elems[i]? = some x) : h.get i = .ok x := by
  unfold MPointHeap.get
  rw [hx]

omit hp in
theorem MPointHeap.update_ok {h : MPointHeap} {i : Nat} {x : MSPoint} (hx : h.points.elems[i]? = some x) (f : MSPoint → MSPoint) :
    h.update i f = .ok { h with points := { h.points with elems := h.points.elems.set i (f x) } } := by
  unfold MPointHeap.update
  rw [hx]

omit hp in
theorem MPointHeap.addressOf_ok {h : MPointHeap} {i : Nat} (hi : i < h.points.elems.length) :
    h.addressOf i = .ok (elemAddress h.points.address h.size i) := by
  unfold MPointHeap.addressOf
  rw [if_pos hi]

/-- The body of the loop that links points. -/
def linkBody (f : Point → Point → Point → R Nat) (i : Nat) (h : MPointHeap) : R MPointHeap := do
  let a ← h.get (i - 1)
  let b ← h.get i
  let c ← h.get (i + 1)
  let w ← f a.geo b.geo c.geo
  let h1 ← h.update i (fun x => { x with weight := w })
  let pn ← h1.addressOf (i + 1)
  let h2 ← h1.update i (fun x => { x with next := pn })
  let pp ← h2.addressOf (i - 1)
  h2.update i (fun x => { x with previous := pp })

omit hp in
theorem linkLoop_succ (m : Build) (count i : Nat) (h : MPointHeap) :
    h.linkLoop m (count + 1) i = linkBody (triWeight m) i h >>= fun h3 => h3.linkLoop m count (i + 1) := by
  conv_lhs => unfold MPointHeap.linkLoop
  unfold linkBody
  simp only [bind_assoc]

omit hp in
theorem linkBody_eq {f : Point → Point → Point → R Nat} {i : Nat} {h : MPointHeap} {a b c : MSPoint} (ha : h.points.elems[i - 1]? = some a)
    (hb : h.points.elems[i]? = some b) (hc : h.points.elems[i + 1]? = some c) :
    linkBody f i h = (f a.geo b.geo c.geo).map fun w =>
      { h with points := { h.points with elems := h.points.elems.set i ⟨b.geo, w, b.heapIndex, elemAddress h.points.address h.size (i + 1),
        elemAddress h.points.address h.size (i - 1)⟩ } } := by
  obtain ⟨la, -⟩ := List.getElem?_eq_some_iff.mp ha
  obtain ⟨lb, -⟩ := List.getElem?_eq_some_iff.mp hb
  obtain ⟨lc, -⟩ := List.getElem?_eq_some_iff.mp hc
  unfold linkBody
  rw [MPointHeap.get_ok ha, MPointHeap.get_ok hb, MPointHeap.get_ok hc]
  simp only [ok_bind]
  cases f a.geo b.geo c.geo with
  | error e => rfl
  | ok w =>
    simp only [ok_bind, MPointHeap.update_ok hb]
    rw [MPointHeap.addressOf_ok (by simpa using lc), ok_bind, MPointHeap.update_ok (by simp [lb]; rfl), ok_bind,
      MPointHeap.addressOf_ok (by simpa using la), ok_bind, MPointHeap.update_ok (by simp [lb]; rfl)]
    simp only [List.set_set, Except.map]

/-- A point before it is linked. -/
def rawPoint (p : Point) : MSPoint := ⟨p, 0, 0, 0, 0⟩

omit hp in
theorem PointsPlace.linkLoop_eq (m : Build) (cap : Nat) (heap : List Nat) (rest : List Point) (hne : rest ≠ []) (pre : List MSPoint) (x : MSPoint) (i : Nat)
    (hi : i = pre.length + 1) :
    MPointHeap.linkLoop m (rest.length - 1) i ⟨pl.size, ⟨pl.address, cap, pre ++ x :: (rest.dropLast.map rawPoint ++
        [pl.point ⟨rest.getLast hne, u64Max, 0, none, some (i + rest.length - 1 - 1)⟩])⟩, heap⟩ =
      (initPoints m i x.geo rest).map fun tail => ⟨pl.size, ⟨pl.address, cap, pre ++ x :: tail.map pl.point⟩, heap⟩ := by
  induction rest generalizing pre x i with
  | nil => exact absurd rfl hne
  | cons b rest ih =>
    cases rest with
    | nil =>
      simp only [List.length_cons, List.length_nil, Nat.zero_add, Nat.sub_self, MPointHeap.linkLoop, initPoints, Except.map, List.dropLast_singleton,
        List.map_nil, List.nil_append, List.getLast_singleton, List.map_cons, Nat.add_sub_cancel]
    | cons c rest =>
      obtain ⟨y, ys, hys, hyc⟩ : ∃ y ys, ((c :: rest).dropLast.map rawPoint ++
        [pl.point ⟨(c :: rest).getLast (by simp), u64Max, 0, none, some (i + 1 + (c :: rest).length - 1 - 1)⟩]) = y :: ys ∧ y.geo = c := by
        cases rest with
        | nil => exact ⟨_, _, rfl, rfl⟩
        | cons d rest => exact ⟨_, _, rfl, rfl⟩
      have ih' := fun w => ih (by simp) (pre ++ [x]) (pl.point ⟨b, w, 0, some (i + 1), some (i - 1)⟩) (i + 1) (by simp [hi])
      have e0 : i - 1 = pre.length + 0 := by omega
      have e1 : i = pre.length + 1 := hi
      have e2 : i + 1 = pre.length + 2 := by omega
      have elast : i + (b :: c :: rest).length - 1 - 1 = i + 1 + (c :: rest).length - 1 - 1 := by simp only [List.length_cons]; omega
      have hl : (b :: c :: rest).getLast hne = (c :: rest).getLast (by simp) := by simp
      have hd : (b :: c :: rest).dropLast.map rawPoint = rawPoint b :: (c :: rest).dropLast.map rawPoint := by simp
      rw [elast, hl, hd, List.cons_append, hys]
      have hcount : (b :: c :: rest).length - 1 = ((c :: rest).length - 1) + 1 := by simp
      rw [hcount, linkLoop_succ]
      have g0 : ((pre ++ x :: rawPoint b :: y :: ys)[i - 1]? : Option MSPoint) = some x := by rw [e0]; simp
      have g1 : ((pre ++ x :: rawPoint b :: y :: ys)[i]? : Option MSPoint) = some (rawPoint b) := by rw [e1]; simp
      have g2 : ((pre ++ x :: rawPoint b :: y :: ys)[i + 1]? : Option MSPoint) = some y := by rw [e2]; simp
      have hset : ∀ u v, (pre ++ x :: u :: y :: ys).set i v = pre ++ x :: v :: y :: ys := by
        intro u v
        rw [e1, List.set_append_right _ _ (by omega)]
        simp
      rw [linkBody_eq (a := x) (b := rawPoint b) (c := y) g0 g1 g2, R.map_bind_eq, hyc]
      have hb : (rawPoint b).geo = b := rfl
      have hb2 : (rawPoint b).heapIndex = 0 := rfl
      have hi2 : initPoints m i x.geo (b :: c :: rest) = triWeight m x.geo b c >>= fun w =>
          initPoints m (i + 1) b (c :: rest) >>= fun tail => .ok (⟨b, w, 0, some (i + 1), some (i - 1)⟩ :: tail) := rfl
      rw [hb, hb2, hi2, R.bind_map_eq]
      refine R.bind_congr_ok fun w _ => ?_
      have hk := ih' w
      rw [hys] at hk
      have hpt2 : pl.point ⟨b, w, 0, some (i + 1), some (i - 1)⟩ =
          ⟨b, w, 0, elemAddress pl.address pl.size (i + 1), elemAddress pl.address pl.size (i - 1)⟩ := rfl
      simp only [hpt2, List.append_assoc, List.singleton_append] at hk
      simp only [hset]
      rw [hk]
      cases initPoints m (i + 1) b (c :: rest) with
      | error e => rfl
      | ok t => simp only [ok_bind, Except.map, List.map_cons, hpt2]

theorem PointsPlace.from_eq (m : Build) (vec : List Point) :
    MPointHeap.from pl m vec = (PointHeap.from m vec).map pl.heap := by
  unfold MPointHeap.from PointHeap.from
  simp only []
  split
  · rfl
  · rename_i hlen
    split
    · rfl
    · cases vec with
      | nil => simp at hlen
      | cons p0 rest =>
        have hne : rest ≠ [] := by rintro rfl; simp at hlen
        obtain ⟨init, last, rfl⟩ : ∃ init last, rest = init ++ [last] := ⟨_, _, (List.dropLast_append_getLast hne).symm⟩
        have e0 : (p0 :: (init ++ [last])).length = init.length + 2 := by simp
        have e1 : init.length + 2 - 1 = init.length + 1 := rfl
        have e2 : init.length + 2 - 2 = init.length := rfl
        rw [e0]
        have hmap : (p0 :: (init ++ [last])).map (fun p => (⟨p, 0, 0, 0, 0⟩ : MSPoint)) = rawPoint p0 :: (init.map rawPoint ++ [rawPoint last]) := by
          simp [rawPoint]
        have hset : ∀ (u v w : MSPoint), (u :: (init.map rawPoint ++ [v])).set (init.length + 1) w = u :: (init.map rawPoint ++ [w]) := by
          intro u v w
          rw [List.set_cons_succ, List.set_append_right _ _ (by simp)]
          simp
        have hget : ∀ (u v : MSPoint), (u :: (init.map rawPoint ++ [v]))[init.length + 1]? = some v := by
          intro u v
          simp
        have hl1 : 1 < init.length + 2 := by omega
        have hl2 : init.length < init.length + 2 := by omega
        simp only [hmap, e1, e2, MPointHeap.update, MPointHeap.addressOf, List.getElem?_cons_zero, List.set_cons_zero, ok_bind, hset, hget,
          List.length_cons, List.length_append, List.length_map, List.length_nil, Nat.zero_add, if_pos hl1, if_pos hl2]
        have hk := PointsPlace.linkLoop_eq (pl := pl) m pl.capacity [] (init ++ [last]) (by simp) []
          (pl.point ⟨p0, u64Max, 0, some 1, none⟩) 1 rfl
        simp only [List.length_append, List.length_cons, List.length_nil, Nat.zero_add, Nat.add_sub_cancel, List.nil_append, List.dropLast_concat,
          List.getLast_append_singleton, Nat.add_sub_cancel_left] at hk
        refine Eq.trans (congrArg (· >>= _) hk) ?_
        rw [R.map_bind_eq, R.bind_map_eq]
        refine R.bind_congr_ok fun tail ht => ?_
        have hn : init.length + 1 + 1 - 2 = init.length := by omega
        rw [← PointsPlace.heap_heapify hp]
        rfl

/-! ## What the links point to -/

omit hp

/-- All links are numbers of points. -/
def LinksIn (pts : List SPoint) : Prop :=
  ∀ p ∈ pts, (∀ k, p.next = some k → k < pts.length) ∧ ∀ k, p.previous = some k → k < pts.length

/-- The links of a point. -/
def SPoint.links (p : SPoint) : Option Nat × Option Nat := (p.next, p.previous)

/-- The links have not changed. -/
def SameLinks (h h' : PointHeap) : Prop := h'.points.map SPoint.links = h.points.map SPoint.links

theorem SameLinks.refl (h : PointHeap) : SameLinks h h := rfl

theorem SameLinks.trans {h h' h'' : PointHeap} (a : SameLinks h h') (b : SameLinks h' h'') : SameLinks h h'' := Eq.trans b a

theorem SameLinks.get {h h' : PointHeap} (a : SameLinks h h') {i : Nat} {p : SPoint} (hi : h.points[i]? = some p) :
    ∃ q, h'.points[i]? = some q ∧ q.next = p.next ∧ q.previous = p.previous := by
  have e : (h'.points.map SPoint.links)[i]? = (h.points.map SPoint.links)[i]? := by rw [a]
  simp only [List.getElem?_map, hi, Option.map_some] at e
  cases hq : h'.points[i]? with
  | none => rw [hq] at e; cases e
  | some q =>
    rw [hq] at e
    simp only [Option.map_some, Option.some.injEq, SPoint.links, Prod.mk.injEq] at e
    exact ⟨q, rfl, e.1, e.2⟩

theorem SameLinks.linksIn {h h' : PointHeap} (a : SameLinks h h') (hl : LinksIn h.points) : LinksIn h'.points := by
  have hn : h'.points.length = h.points.length := by simpa using congrArg List.length a
  intro p hp
  have : p.links ∈ h.points.map SPoint.links := by rw [← a]; exact List.mem_map_of_mem hp
  obtain ⟨q, hq, e⟩ := List.mem_map.mp this
  simp only [SPoint.links, Prod.mk.injEq] at e
  rw [hn, ← e.1, ← e.2]
  exact hl q hq

theorem modifyPoint_links {h h' : PointHeap} {j : Nat} {f : SPoint → SPoint}
    (hs : h.modifyPoint j f = .ok h') (hf : ∀ p, (f p).links = p.links) : SameLinks h h' ∧ h'.heap = h.heap := by
  unfold PointHeap.modifyPoint at hs
  split at hs
  · cases hs
  · rename_i p hp
    obtain rfl := Except.ok.inj hs
    refine ⟨?_, rfl⟩
    unfold SameLinks
    refine List.ext_getElem? fun i => ?_
    simp only [List.getElem?_map, List.getElem?_set]
    by_cases hij : j = i
    · subst hij
      obtain ⟨hl, -⟩ := List.getElem?_eq_some_iff.mp hp
      rw [if_pos rfl, if_pos hl, hp]
      simp [hf]
    · rw [if_neg hij]

theorem swap_links {h h' : PointHeap} {a b : Nat} (hs : h.swap a b = .ok h') : SameLinks h h' := by
  unfold PointHeap.swap at hs
  split at hs
  · obtain ⟨h2, e1, e2⟩ := bind_ok.mp hs
    exact SameLinks.trans (h := { h with heap := _ }) (modifyPoint_links e1 (fun _ => rfl)).1 (modifyPoint_links e2 (fun _ => rfl)).1
  · cases hs

theorem siftDown_links {start e fuel root : Nat} {h h' : PointHeap} (hs : h.siftDown start e fuel root = .ok h') : SameLinks h h' := by
  induction fuel generalizing h root with
  | zero => cases hs
  | succ fuel ih =>
    have key : ∀ s1, (if s1 = root then (.ok h : R PointHeap) else do
          let h' ← h.swap root s1
          PointHeap.siftDown start e fuel h' s1) = .ok h' → SameLinks h h' := by
      intro s1 hk
      split at hk
      · obtain rfl := Except.ok.inj hk
        exact .refl _
      · obtain ⟨h1, e1, e2⟩ := bind_ok.mp hk
        exact (swap_links e1).trans (ih e2)
    unfold PointHeap.siftDown at hs
    simp only [] at hs
    split at hs
    · obtain ⟨ws, -, hs⟩ := bind_ok.mp hs
      obtain ⟨wc, -, hs⟩ := bind_ok.mp hs
      split at hs
      · obtain ⟨w0, -, hs⟩ := bind_ok.mp hs
        obtain ⟨wr, -, hs⟩ := bind_ok.mp hs
        exact key _ hs
      · exact key _ hs
    · obtain rfl := Except.ok.inj hs
      exact .refl _

theorem siftUp_links {start fuel child : Nat} {h h' : PointHeap} (hs : h.siftUp start fuel child = .ok h') : SameLinks h h' := by
  induction fuel generalizing h child with
  | zero => cases hs
  | succ fuel ih =>
    unfold PointHeap.siftUp at hs
    split at hs
    · obtain ⟨wp, -, hs⟩ := bind_ok.mp hs
      obtain ⟨wc, -, hs⟩ := bind_ok.mp hs
      split at hs
      · obtain ⟨h1, e1, e2⟩ := bind_ok.mp hs
        exact (swap_links e1).trans (ih e2)
      · obtain rfl := Except.ok.inj hs
        exact .refl _
    · obtain rfl := Except.ok.inj hs
      exact .refl _

theorem heapifyLoop_links {len : Nat} {h h' : PointHeap} {start : Nat} (hs : h.heapifyLoop len start = .ok h') : SameLinks h h' := by
  induction start generalizing h with
  | zero => exact siftDown_links hs
  | succ start ih =>
    unfold PointHeap.heapifyLoop at hs
    obtain ⟨h1, e1, e2⟩ := bind_ok.mp hs
    exact (siftDown_links e1).trans (ih e2)

theorem heapify_links {h h' : PointHeap} (hs : h.heapify = .ok h') : SameLinks h h' := by
  unfold PointHeap.heapify at hs
  split at hs
  · exact heapifyLoop_links hs
  · obtain rfl := Except.ok.inj hs
    exact .refl _

theorem recalculate_links {m : Build} {h h' : PointHeap} {j : Nat} (hs : h.recalculate m j = .ok h') : SameLinks h h' := by
  unfold PointHeap.recalculate at hs
  split at hs
  · cases hs
  · split at hs
    · split at hs
      · obtain ⟨w, -, hs⟩ := bind_ok.mp hs
        split at hs
        · obtain ⟨h1, e1, e2⟩ := bind_ok.mp hs
          exact (modifyPoint_links e1 (fun _ => rfl)).1.trans (siftUp_links e2)
        · split at hs
          · obtain ⟨h1, e1, e2⟩ := bind_ok.mp hs
            split at e2
            · cases e2
            · exact (modifyPoint_links e1 (fun _ => rfl)).1.trans (siftDown_links e2)
          · obtain rfl := Except.ok.inj hs
            exact .refl _
      · cases hs
    · obtain rfl := Except.ok.inj hs
      exact .refl _

theorem recalculateOpt_links {m : Build} {h h' : PointHeap} {o : Option Nat} (hs : h.recalculateOpt m o = .ok h') : SameLinks h h' := by
  cases o with
  | none => obtain rfl := Except.ok.inj hs; exact .refl _
  | some j => exact recalculate_links hs

theorem modifyPoint_linksIn {h h' : PointHeap} {j : Nat} {f : SPoint → SPoint} (hl : LinksIn h.points) (hs : h.modifyPoint j f = .ok h')
    (hf : ∀ p ∈ h.points, (∀ k, (f p).next = some k → k < h.points.length) ∧ ∀ k, (f p).previous = some k → k < h.points.length) : LinksIn h'.points ∧ h'.points.length = h.points.length := by
  unfold PointHeap.modifyPoint at hs
  split at hs
  · cases hs
  · rename_i p hp
    obtain rfl := Except.ok.inj hs
    refine ⟨?_, by simp⟩
    intro q hq
    simp only [List.length_set]
    rcases List.mem_or_eq_of_mem_set hq with h1 | rfl
    · exact hl q h1
    · exact hf p (List.mem_of_getElem? hp)

theorem unlink_linksIn {h h' : PointHeap} {top : Nat} (hl : LinksIn h.points) (hs : h.unlink top = .ok h') : LinksIn h'.points := by
  unfold PointHeap.unlink at hs
  split at hs
  · cases hs
  · rename_i p hp
    have hlp := hl p (List.mem_of_getElem? hp)
    split at hs
    · rename_i a c ha hc
      obtain ⟨h1, e1, e2⟩ := bind_ok.mp hs
      obtain ⟨l1, n1⟩ := modifyPoint_linksIn hl e1 (fun q hq => ⟨fun k hk => (Option.some.inj hk) ▸ hlp.1 c hc, (hl q hq).2⟩)
      exact (modifyPoint_linksIn l1 e2 (fun q hq => ⟨(l1 q hq).1, fun k hk => (Option.some.inj hk) ▸ n1 ▸ hlp.2 a ha⟩)).1
    · cases hs

theorem pop_linksIn {h h' : PointHeap} {i : Nat} (hl : LinksIn h.points) (hs : h.pop = .ok (i, h')) : LinksIn h'.points := by
  unfold PointHeap.pop at hs
  split at hs
  · cases hs
  · obtain ⟨-, rfl⟩ := Prod.mk.inj (Except.ok.inj hs)
    exact hl
  · obtain ⟨h2, e2, hs⟩ := bind_ok.mp hs
    obtain ⟨h3, e3, hs⟩ := bind_ok.mp hs
    obtain ⟨h4, e4, hs⟩ := bind_ok.mp hs
    obtain ⟨-, rfl⟩ := Prod.mk.inj (Except.ok.inj hs)
    have l2 : LinksIn h2.points := (modifyPoint_links e2 (fun _ => rfl)).1.linksIn hl
    exact unlink_linksIn ((siftDown_links e3).linksIn l2) e4

/-! ## The loop -/

include hp

theorem PointsPlace.heap_pop (h : PointHeap) :
    (pl.heap h).pop = h.pop.map fun x => (elemAddress pl.address pl.size x.1, pl.heap x.2) := by
  cases hh : h.heap with
  | nil =>
    have e : (pl.heap h).heap = [] := by unfold PointsPlace.heap; simp [hh]
    unfold MPointHeap.pop PointHeap.pop
    split <;> rename_i e'
    · split <;> rename_i e''
      · rfl
      · rw [hh] at e''; cases e''
      · rw [hh] at e''; cases e''
    · rw [e] at e'; cases e'
    · rw [e] at e'; cases e'
  | cons top rest =>
    cases rest with
    | nil =>
      have e : (pl.heap h).heap = [elemAddress pl.address pl.size top] := by unfold PointsPlace.heap; simp [hh]
      unfold MPointHeap.pop PointHeap.pop
      split <;> rename_i e'
      · rw [e] at e'; cases e'
      · split <;> rename_i e''
        · rw [hh] at e''; cases e''
        · rw [hh] at e''
          rw [e] at e'
          cases e''
          cases e'
          rfl
        · rw [hh] at e''; cases e''
      · rw [e] at e'; cases e'
    | cons second rest =>
      have e : (pl.heap h).heap = elemAddress pl.address pl.size top :: elemAddress pl.address pl.size second ::
          rest.map (elemAddress pl.address pl.size) := by unfold PointsPlace.heap; simp [hh]
      unfold MPointHeap.pop PointHeap.pop
      split <;> rename_i e'
      · rw [e] at e'; cases e'
      · rw [e] at e'; cases e'
      · split <;> rename_i e''
        · rw [hh] at e''; cases e''
        · rw [hh] at e''; cases e''
        · rw [hh] at e''
          rw [e] at e'
          cases e''
          cases e'
          have hlast : (elemAddress pl.address pl.size second :: rest.map (elemAddress pl.address pl.size)).getLast (by simp) =
              elemAddress pl.address pl.size ((second :: rest).getLast (by simp)) := by
            simp only [← List.map_cons, List.getLast_map]
          have h1 : ({ pl.heap h with heap := (elemAddress pl.address pl.size second :: rest.map (elemAddress pl.address pl.size)).getLast (by simp) ::
                (elemAddress pl.address pl.size second :: rest.map (elemAddress pl.address pl.size)).dropLast } : MPointHeap) =
              pl.heap { h with heap := (second :: rest).getLast (by simp) :: (second :: rest).dropLast } := by
            rw [hlast]
            unfold PointsPlace.heap
            simp only [List.map_cons, List.map_dropLast]
          simp only [h1]
          rw [hlast, PointsPlace.heap_write hp _ _ _ (fun p => { p with heapIndex := 0 }) (fun _ _ => rfl), R.map_bind_eq, R.bind_map_eq]
          refine R.bind_congr_ok fun h2 _ => ?_
          simp only [List.length_cons, List.length_map]
          rw [PointsPlace.heap_siftDown hp, R.map_bind_eq, R.bind_map_eq]
          refine R.bind_congr_ok fun h3 _ => ?_
          rw [PointsPlace.heap_read hp]
          unfold PointHeap.unlink
          cases ht : h3.points[top]? with
          | none => rfl
          | some t =>
            simp only [ok_bind]
            cases hprev : t.previous with
            | none =>
              have : (pl.point t).previous = 0 := by simp [PointsPlace.point, hprev, PointsPlace.pointer]
              rw [this, PointsPlace.heap_write_null hp]
              rfl
            | some a =>
              have ea : (pl.point t).previous = elemAddress pl.address pl.size a := by simp [PointsPlace.point, hprev, PointsPlace.pointer]
              rw [ea, PointsPlace.heap_write hp _ _ _ (fun q => { q with next := t.next }) (fun _ _ => rfl), R.map_bind_eq]
              have hagain : ∀ h4, h3.modifyPoint a (fun q => { q with next := t.next }) = .ok h4 →
                  ∃ u, h4.points[top]? = some u ∧ u.next = t.next ∧ u.previous = t.previous := by
                intro h4 hm
                unfold PointHeap.modifyPoint at hm
                split at hm
                · cases hm
                · rename_i q hq
                  obtain rfl := Except.ok.inj hm
                  obtain ⟨la, -⟩ := List.getElem?_eq_some_iff.mp hq
                  by_cases hat : a = top
                  · subst hat
                    rw [ht] at hq
                    obtain rfl := Option.some.inj hq
                    exact ⟨{ t with next := t.next }, by simp [la], rfl, rfl⟩
                  · exact ⟨t, by simp [List.getElem?_set, hat, ht], rfl, rfl⟩
              cases hnext : t.next with
              | none =>
                have hR : ∀ h4, h3.modifyPoint a (fun q => { q with next := t.next }) = .ok h4 →
                    ((pl.heap h4).read (elemAddress pl.address pl.size top) >>= fun t2 => do
                      let h5 ← (pl.heap h4).write t2.next (fun x => { x with previous := t2.previous })
                      (.ok (elemAddress pl.address pl.size top, h5) : R (Nat × MPointHeap))) = .error .nullDeref := by
                  intro h4 hm
                  obtain ⟨u, hu, hun, hup⟩ := hagain h4 hm
                  have : (pl.point u).next = 0 := by simp [PointsPlace.point, hun, hnext, PointsPlace.pointer]
                  rw [PointsPlace.heap_read hp, hu]
                  simp only [ok_bind, this, PointsPlace.heap_write_null hp]
                  rfl
                rw [hnext] at hR
                cases hm : h3.modifyPoint a (fun q => { q with next := none }) with
                | error p =>
                  have : p = .nullDeref := by
                    unfold PointHeap.modifyPoint at hm
                    split at hm
                    · exact (Except.error.inj hm).symm
                    · cases hm
                  subst this
                  rfl
                | ok h4 =>
                  exact hR h4 hm
              | some c =>
                have hpo : ({ fst := (), snd := () } : Unit × Unit) = ((), ()) := rfl
                rw [hnext] at hagain
                simp only [R.bind_map_eq, bind_assoc]
                refine R.bind_congr_ok fun h4 hm => ?_
                obtain ⟨u, hu, hun, hup⟩ := hagain h4 hm
                have e1 : (pl.point u).next = elemAddress pl.address pl.size c := by simp [PointsPlace.point, hun, PointsPlace.pointer]
                have e2 : (pl.point u).previous = pl.pointer (some a) := by simp [PointsPlace.point, hup, hprev]
                rw [PointsPlace.heap_read hp, hu]
                simp only [ok_bind, e1, e2]
                rw [PointsPlace.heap_write hp _ _ _ (fun q => { q with previous := some a }) (fun _ _ => rfl), R.map_bind_eq]
                rfl

theorem PointsPlace.pointer_eq_zero (o : Option Nat) : pl.pointer o = 0 ↔ o = none := by
  cases o with
  | none => simp [PointsPlace.pointer]
  | some i =>
    have := hp.address
    simp only [PointsPlace.pointer, elemAddress, reduceCtorEq, iff_false]
    omega

theorem PointsPlace.heap_asRef (h : PointHeap) (o : Option Nat) (ho : ∀ k, o = some k → k < h.points.length) :
    (pl.heap h).asRef (pl.pointer o) = .ok (o.bind fun k => h.points[k]?.map pl.point) := by
  unfold MPointHeap.asRef
  cases o with
  | none => simp [PointsPlace.pointer]
  | some k =>
    rw [if_neg (by rw [PointsPlace.pointer_eq_zero hp]; simp)]
    have hk := ho k rfl
    show (pl.heap h).read (elemAddress pl.address pl.size k) >>= _ = _
    rw [PointsPlace.heap_read hp, List.getElem?_eq_getElem hk]
    simp [ok_bind, List.getElem?_eq_getElem hk]

theorem PointsPlace.heap_recalculate (m : Build) (h : PointHeap) (hl : LinksIn h.points) (j : Nat) :
    (pl.heap h).recalculate m (elemAddress pl.address pl.size j) = (h.recalculate m j).map pl.heap := by
  unfold MPointHeap.recalculate PointHeap.recalculate
  rw [PointsPlace.heap_read hp]
  cases hb : h.points[j]? with
  | none => rfl
  | some b =>
    obtain ⟨ln, lp⟩ := hl b (List.mem_of_getElem? hb)
    have e1 : (pl.point b).previous = pl.pointer b.previous := rfl
    have e2 : (pl.point b).next = pl.pointer b.next := rfl
    have e3 : (pl.point b).geo = b.geo := rfl
    have e4 : (pl.point b).weight = b.weight := rfl
    simp only [ok_bind, e1, e2, PointsPlace.heap_asRef hp h _ lp, PointsPlace.heap_asRef hp h _ ln, e3, e4]
    cases hprev : b.previous with
    | none => rfl
    | some ia =>
      cases hnext : b.next with
      | none =>
        have la := lp ia hprev
        simp only [Option.bind_none, Option.bind_some, List.getElem?_eq_getElem la, Option.map_some]
        rfl
      | some ic =>
        have la := lp ia hprev
        have lc := ln ic hnext
        simp only [Option.bind_some, List.getElem?_eq_getElem la, List.getElem?_eq_getElem lc, Option.map_some]
        have ea : (pl.point h.points[ia]).geo = h.points[ia].geo := rfl
        have ec : (pl.point h.points[ic]).geo = h.points[ic].geo := rfl
        rw [ea, ec]
        generalize triWeight m h.points[ia].geo b.geo h.points[ic].geo = r
        rw [R.bind_map_eq]
        refine R.bind_congr_ok fun w _ => ?_
        have hread : ∀ h1, h.modifyPoint j (fun p => { p with weight := w }) = .ok h1 →
            (pl.heap h1).read (elemAddress pl.address pl.size j) = .ok (pl.point { b with weight := w }) := by
          intro h1 hm
          unfold PointHeap.modifyPoint at hm
          rw [hb] at hm
          obtain rfl := Except.ok.inj hm
          obtain ⟨lj, -⟩ := List.getElem?_eq_some_iff.mp hb
          rw [PointsPlace.heap_read hp]
          simp [lj]
        split
        · rw [PointsPlace.heap_write hp _ _ _ (fun p => { p with weight := w }) (fun _ _ => rfl), R.map_bind_eq, R.bind_map_eq]
          refine R.bind_congr_ok fun h1 hm => ?_
          rw [hread h1 hm, ok_bind]
          exact PointsPlace.heap_siftUp hp _ _ _ _
        · split
          · rw [PointsPlace.heap_write hp _ _ _ (fun p => { p with weight := w }) (fun _ _ => rfl), R.map_bind_eq, R.bind_map_eq]
            refine R.bind_congr_ok fun h1 hm => ?_
            rw [hread h1 hm, ok_bind]
            have en : (pl.heap h1).heap.length = h1.heap.length := by simp [PointsPlace.heap]
            rw [en]
            split
            · rfl
            · exact PointsPlace.heap_siftDown hp _ _ _ _ _
          · rfl

theorem PointsPlace.heap_recalculateOpt (m : Build) (h : PointHeap) (hl : LinksIn h.points) (o : Option Nat) :
    (pl.heap h).recalculateOpt m (pl.pointer o) = (h.recalculateOpt m o).map pl.heap := by
  unfold MPointHeap.recalculateOpt
  cases o with
  | none => simp [PointsPlace.pointer, PointHeap.recalculateOpt, Except.map]
  | some j =>
    rw [if_neg (by rw [PointsPlace.pointer_eq_zero hp]; simp)]
    exact PointsPlace.heap_recalculate hp m h hl j

theorem PointsPlace.heap_recalculateBoth (m : Build) (h : PointHeap) (hl : LinksIn h.points) (i : Nat) (p : SPoint)
    (hi : h.points[i]? = some p) :
    (pl.heap h).recalculateBoth m (elemAddress pl.address pl.size i) =
      ((h.recalculateOpt m p.previous) >>= fun h3 => h3.recalculateOpt m p.next).map pl.heap := by
  unfold MPointHeap.recalculateBoth
  rw [PointsPlace.heap_read hp, hi]
  show (pl.heap h).recalculateOpt m (pl.pointer p.previous) >>= _ = _
  rw [PointsPlace.heap_recalculateOpt hp m h hl, R.map_bind_eq, R.bind_map_eq]
  refine R.bind_congr_ok fun h3 hr => ?_
  have hs := recalculateOpt_links hr
  obtain ⟨q, hq, hn, -⟩ := hs.get hi
  rw [PointsPlace.heap_read hp, hq, ← hn]
  exact PointsPlace.heap_recalculateOpt hp m h3 (hs.linksIn hl) _

theorem PointsPlace.heap_vwLoop (m : Build) (s fuel lastWeight : Nat) (h : PointHeap) (hl : LinksIn h.points) :
    (pl.heap h).vwLoop m s fuel lastWeight = (h.vwLoop m s fuel lastWeight).map pl.heap := by
  have en : ∀ h1 : PointHeap, (pl.heap h1).heap.length = h1.heap.length := by simp [PointsPlace.heap]
  induction fuel generalizing lastWeight h with
  | zero =>
    unfold MPointHeap.vwLoop PointHeap.vwLoop
    rw [en]
    split <;> rfl
  | succ fuel ih =>
    unfold MPointHeap.vwLoop PointHeap.vwLoop
    rw [en]
    split
    · simp only [PointsPlace.heap_pop hp, R.map_bind_eq, R.bind_map_eq]
      refine R.bind_congr_ok fun x hx => ?_
      obtain ⟨i, h1⟩ := x
      have l1 := pop_linksIn hl hx
      simp only []
      rw [PointsPlace.heap_read hp]
      cases hi : h1.points[i]? with
      | none => rfl
      | some p =>
        simp only [ok_bind]
        have ew : (pl.point p).weight = p.weight := rfl
        rw [ew]
        split
        · rw [PointsPlace.heap_write hp _ _ _ (fun q => { q with weight := lastWeight }) (fun _ _ => rfl), R.map_bind_eq, R.bind_map_eq]
          refine R.bind_congr_ok fun h2 hm => ?_
          have hs := (modifyPoint_links hm (fun _ => rfl)).1
          obtain ⟨q, hq, hn, hv⟩ := hs.get hi
          rw [PointsPlace.heap_recalculateBoth hp m h2 (hs.linksIn l1) i q hq, R.map_bind_eq, hn, hv, bind_assoc, R.bind_map_eq]
          refine R.bind_congr_ok fun h3 h3' => ?_
          rw [R.bind_map_eq]
          refine R.bind_congr_ok fun h4 h4' => ?_
          exact ih _ _ ((recalculateOpt_links h4').linksIn ((recalculateOpt_links h3').linksIn (hs.linksIn l1)))
        · split
          · rfl
          · rw [PointsPlace.heap_recalculateBoth hp m h1 l1 i p hi, R.map_bind_eq, bind_assoc, R.bind_map_eq]
            refine R.bind_congr_ok fun h3 h3' => ?_
            rw [R.bind_map_eq]
            refine R.bind_congr_ok fun h4 h4' => ?_
            exact ih _ _ ((recalculateOpt_links h4').linksIn ((recalculateOpt_links h3').linksIn l1))
    · rfl

/-! ## The result -/

omit hp

theorem PointsPlace.topTwoLoop_eq (first second : SPoint) (lower : Bool) (rest : List SPoint) :
    mTopTwoLoop (pl.point first) (pl.point second) lower (rest.map pl.point) =
      (pl.point (topTwoLoop first second lower rest).1, pl.point (topTwoLoop first second lower rest).2.1,
        (topTwoLoop first second lower rest).2.2) := by
  induction rest generalizing first second lower with
  | nil => rfl
  | cons p rest ih =>
    simp only [List.map_cons, mTopTwoLoop, topTwoLoop]
    have e : ∀ q : SPoint, (pl.point q).weight = q.weight := fun _ => rfl
    simp only [e]
    split
    · exact ih _ _ _
    · split
      · exact ih _ _ _
      · exact ih _ _ _

theorem PointsPlace.ringFallback_eq (pts : List SPoint) : mRingFallback (pts.map pl.point) = ringFallback pts := by
  match pts with
  | [] => rfl
  | [_] => rfl
  | [_, _] => rfl
  | [_, _, _] => rfl
  | p0 :: p1 :: p2 :: p3 :: rest =>
    simp only [List.map_cons, mRingFallback, ringFallback]
    have e : ∀ q : SPoint, (pl.point q).weight = q.weight := fun _ => rfl
    have e' : ∀ q : SPoint, (pl.point q).geo = q.geo := fun _ => rfl
    have hlast : (pl.point p3 :: rest.map pl.point).getLast (by simp) = pl.point ((p3 :: rest).getLast (by simp)) := by
      simp only [← List.map_cons, List.getLast_map]
    have hdrop : (pl.point p3 :: rest.map pl.point).dropLast = (p3 :: rest).dropLast.map pl.point := by
      simp only [← List.map_cons, List.map_dropLast]
    rw [hlast, hdrop]
    simp only [e, e']
    split <;> simp only [PointsPlace.topTwoLoop_eq] <;> split <;> simp only [e']

include hp in
theorem PointsPlace.visvalingamWhyatt_eq (m : Build) (h : PointHeap) (hl : LinksIn h.points) (s : Nat) :
    (pl.heap h).visvalingamWhyatt m s = h.visvalingamWhyatt m s := by
  unfold MPointHeap.visvalingamWhyatt PointHeap.visvalingamWhyatt
  have en : (pl.heap h).heap.length = h.heap.length := by simp [PointsPlace.heap]
  rw [en, PointsPlace.heap_vwLoop hp m s _ _ h hl, R.map_bind_eq]
  refine R.bind_congr_ok fun h' _ => ?_
  have er : ((pl.heap h').points.elems.filter (fun p => p.weight ≥ s)).map (·.geo) = (h'.points.filter (fun p => p.weight ≥ s)).map (·.geo) := by
    unfold PointsPlace.heap
    simp only [List.filter_map, List.map_map]
    rfl
  have ef : mRingFallback (pl.heap h').points.elems = ringFallback h'.points := PointsPlace.ringFallback_eq _
  simp only [er, ef]
  generalize (h'.points.filter (fun p => p.weight ≥ s)).map (·.geo) = ret
  cases ret.head? <;> cases ret.getLast? <;> rfl

theorem initPoints_linksIn {m : Build} {i : Nat} {prev : Point} {rest : List Point} {tail : List SPoint}
    (h : initPoints m i prev rest = .ok tail) : ∀ p ∈ tail, (∀ k, p.next = some k → k < i + rest.length) ∧ ∀ k, p.previous = some k → k < i + rest.length := by
  induction rest generalizing i prev tail with
  | nil => obtain rfl := Except.ok.inj h; simp
  | cons b rest ih =>
    cases rest with
    | nil =>
      obtain rfl := Except.ok.inj h
      intro p hp
      obtain rfl := List.mem_singleton.mp hp
      simp only [reduceCtorEq, false_implies, implies_true, true_and, Option.some.injEq, List.length_cons, List.length_nil]
      omega
    | cons c rest =>
      unfold initPoints at h
      obtain ⟨w, _, h1⟩ := bind_ok.mp h
      obtain ⟨t, h2, h3⟩ := bind_ok.mp h1
      obtain rfl := Except.ok.inj h3
      intro p hp
      have e : i + (b :: c :: rest).length = i + 1 + (c :: rest).length := by simp only [List.length_cons]; omega
      rcases List.mem_cons.mp hp with rfl | hp
      · refine ⟨fun k hk => ?_, fun k hk => ?_⟩ <;> (have := Option.some.inj hk; simp only [List.length_cons]; omega)
      · rw [e]
        exact ih h2 p hp

theorem from_linksIn {m : Build} {vec : List Point} {h : PointHeap} (hf : PointHeap.from m vec = .ok h) : LinksIn h.points := by
  unfold PointHeap.from at hf
  split at hf
  · cases hf
  · rename_i hlen
    split at hf
    · cases hf
    · cases vec with
      | nil => cases hf
      | cons p0 rest =>
        obtain ⟨tail, h1, h2⟩ := bind_ok.mp hf
        refine (heapify_links h2).linksIn ?_
        have hn := initPoints_length h1
        have hl := initPoints_linksIn h1
        intro p hp
        simp only [List.length_cons, hn] at hlen ⊢
        rcases List.mem_cons.mp hp with rfl | hp
        · simp only [Option.some.injEq, reduceCtorEq, false_implies, implies_true, and_true]
          omega
        · have := hl p hp
          rw [Nat.add_comm]
          exact this

end

end TopoGeo
