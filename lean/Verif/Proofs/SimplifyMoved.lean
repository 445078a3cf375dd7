import Verif.Proofs.Simplify
import Verif.Spec.Simplify
/-!
# Simplifying related edges

Two edges whose points correspond, by a relation that respects equality and the
weights, are simplified in the same way.
-/

namespace TopoGeo
open Spec

/-- Two computations yield related results, or the same panic. -/
def RRel {α β : Type} (r : α → β → Prop) : R α → R β → Prop
  | .ok a, .ok b => r a b
  | .error e, .error e' => e = e'
  | _, _ => False

theorem RRel.bind {α β γ δ : Type} {r : α → β → Prop} {s : γ → δ → Prop} {x : R α} {y : R β} {f : α → R γ} {g : β → R δ}
    (h : RRel r x y) (hf : ∀ a b, r a b → RRel s (f a) (g b)) : RRel s (x >>= f) (y >>= g) := by
  cases x with
  | error e => cases y with
    | error e' => exact h
    | ok b => exact h.elim
  | ok a => cases y with
    | error e' => exact h.elim
    | ok b => exact hf a b h

/-- Points of the simplifier that differ in their place only. -/
structure SRel (T : Point → Point → Prop) (a b : SPoint) : Prop where
  geo : T a.geo b.geo
  weight : a.weight = b.weight
  heapIndex : a.heapIndex = b.heapIndex
  next : a.next = b.next
  previous : a.previous = b.previous

/-- Heaps of such points. -/
structure HRel (T : Point → Point → Prop) (h k : PointHeap) : Prop where
  points : List.Forall₂ (SRel T) h.points k.points
  heap : h.heap = k.heap

theorem forall₂_at {α β : Type} {r : α → β → Prop} {l : List α} {k : List β} (h : List.Forall₂ r l k) (i : Nat) :
    (∃ a b, l[i]? = some a ∧ k[i]? = some b ∧ r a b) ∨ (l[i]? = none ∧ k[i]? = none) := by
  induction h generalizing i with
  | nil => exact .inr ⟨by simp, by simp⟩
  | cons hr _ ih =>
    cases i with
    | zero => exact .inl ⟨_, _, rfl, rfl, hr⟩
    | succ i => simpa using ih i

theorem forall₂_set {α β : Type} {r : α → β → Prop} {l : List α} {k : List β} (h : List.Forall₂ r l k) (i : Nat)
    {a : α} {b : β} (hab : r a b) : List.Forall₂ r (l.set i a) (k.set i b) := by
  induction h generalizing i with
  | nil => exact .nil
  | cons hr h ih =>
    cases i with
    | zero => exact .cons hab h
    | succ i => exact .cons hr (ih i)

variable {T : Point → Point → Prop} {m : Build}

/-- What is asked of the correspondence. -/
structure KeepsWeights (m : Build) (T : Point → Point → Prop) : Prop where
  equal : ∀ {a b c d}, T a b → T c d → (a = c ↔ b = d)
  weight : ∀ {a b c a' b' c'}, T a a' → T b b' → T c c' → triWeight m a b c = triWeight m a' b' c'

theorem HRel.weightAt {h k : PointHeap} (hr : HRel T h k) (i : Nat) : h.weightAt i = k.weightAt i := by
  unfold PointHeap.weightAt
  rw [hr.heap]
  cases k.heap[i]? with
  | none => rfl
  | some j =>
    dsimp only
    rcases forall₂_at hr.points j with ⟨a, b, h1, h2, h3⟩ | ⟨h1, h2⟩
    · rw [h1, h2]; dsimp only; rw [h3.weight]
    · rw [h1, h2]

theorem HRel.modifyPoint {h k : PointHeap} (hr : HRel T h k) (j : Nat) {f g : SPoint → SPoint}
    (hf : ∀ a b, SRel T a b → SRel T (f a) (g b)) : RRel (HRel T) (h.modifyPoint j f) (k.modifyPoint j g) := by
  unfold PointHeap.modifyPoint
  rcases forall₂_at hr.points j with ⟨a, b, h1, h2, h3⟩ | ⟨h1, h2⟩
  · rw [h1, h2]
    exact ⟨forall₂_set hr.points j (hf a b h3), hr.heap⟩
  · rw [h1, h2]; exact rfl

theorem HRel.swap {h k : PointHeap} (hr : HRel T h k) (a b : Nat) : RRel (HRel T) (h.swap a b) (k.swap a b) := by
  unfold PointHeap.swap
  rw [hr.heap]
  cases k.heap[a]? with
  | none => exact rfl
  | some pa =>
    cases k.heap[b]? with
    | none => exact rfl
    | some pb =>
      dsimp only
      have hr' : HRel T ⟨h.points, (k.heap.set a pb).set b pa⟩ ⟨k.points, (k.heap.set a pb).set b pa⟩ := ⟨hr.points, rfl⟩
      refine RRel.bind (hr'.modifyPoint pb ?_) fun h1 k1 hr1 => hr1.modifyPoint pa ?_
      · exact fun x y hxy => ⟨hxy.geo, hxy.weight, rfl, hxy.next, hxy.previous⟩
      · exact fun x y hxy => ⟨hxy.geo, hxy.weight, rfl, hxy.next, hxy.previous⟩

theorem RRel.refl {α : Type} (x : R α) : RRel (· = ·) x x := by
  cases x <;> exact rfl

theorem HRel.siftDown {h k : PointHeap} (hr : HRel T h k) (start stop fuel root : Nat) :
    RRel (HRel T) (h.siftDown start stop fuel root) (k.siftDown start stop fuel root) := by
  induction fuel generalizing h k root with
  | zero => exact rfl
  | succ fuel ih =>
    rw [PointHeap.siftDown, PointHeap.siftDown]
    dsimp only
    by_cases hc : 2 * root + 1 ≤ stop
    swap
    · rw [if_neg hc, if_neg hc]; exact hr
    rw [if_pos hc, if_pos hc]
    simp only [hr.weightAt]
    refine RRel.bind (RRel.refl _) fun ws _ hws => ?_
    subst hws
    refine RRel.bind (RRel.refl _) fun wc _ hwc => ?_
    subst hwc
    have fin : ∀ sw : Nat, RRel (HRel T)
        (if sw = root then .ok h else (h.swap root sw) >>= fun h' => PointHeap.siftDown start stop fuel h' sw)
        (if sw = root then .ok k else (k.swap root sw) >>= fun h' => PointHeap.siftDown start stop fuel h' sw) := by
      intro sw
      by_cases hs : sw = root
      · rw [if_pos hs, if_pos hs]; exact hr
      · rw [if_neg hs, if_neg hs]
        exact RRel.bind (hr.swap _ _) fun h1 k1 hr1 => ih hr1 _
    by_cases hc2 : 2 * root + 1 + 1 ≤ stop
    · rw [if_pos hc2, if_pos hc2]
      refine RRel.bind (RRel.refl _) fun w0 _ hw0 => ?_
      subst hw0
      refine RRel.bind (RRel.refl _) fun wr _ hwr => ?_
      subst hwr
      exact fin _
    · rw [if_neg hc2, if_neg hc2]
      exact fin _

theorem HRel.siftUp {h k : PointHeap} (hr : HRel T h k) (start fuel child : Nat) :
    RRel (HRel T) (h.siftUp start fuel child) (k.siftUp start fuel child) := by
  induction fuel generalizing h k child with
  | zero => exact rfl
  | succ fuel ih =>
    rw [PointHeap.siftUp, PointHeap.siftUp]
    dsimp only
    by_cases hc : child > start
    swap
    · rw [if_neg hc, if_neg hc]; exact hr
    rw [if_pos hc, if_pos hc]
    simp only [hr.weightAt]
    refine RRel.bind (RRel.refl _) fun ws _ hws => ?_
    subst hws
    refine RRel.bind (RRel.refl _) fun wc _ hwc => ?_
    subst hwc
    by_cases hs : ws > wc
    · rw [if_pos hs, if_pos hs]
      exact RRel.bind (hr.swap _ _) fun h1 k1 hr1 => ih hr1 _
    · rw [if_neg hs, if_neg hs]; exact hr

theorem HRel.heapifyLoop {h k : PointHeap} (hr : HRel T h k) (len n : Nat) :
    RRel (HRel T) (h.heapifyLoop len n) (k.heapifyLoop len n) := by
  induction n generalizing h k with
  | zero => exact hr.siftDown _ _ _ _
  | succ n ih =>
    rw [PointHeap.heapifyLoop, PointHeap.heapifyLoop]
    exact RRel.bind (hr.siftDown _ _ _ _) fun h1 k1 hr1 => ih hr1

theorem HRel.heapify {h k : PointHeap} (hr : HRel T h k) : RRel (HRel T) h.heapify k.heapify := by
  unfold PointHeap.heapify
  rw [hr.heap]
  split
  · exact hr.heapifyLoop _ _
  · exact hr

theorem initPoints_rel (hT : KeepsWeights m T) {ps qs : List Point} (h : List.Forall₂ T ps qs) (i : Nat) {p q : Point}
    (hpq : T p q) : RRel (List.Forall₂ (SRel T)) (initPoints m i p ps) (initPoints m i q qs) := by
  induction h generalizing i p q with
  | nil => exact .nil
  | cons h1 h ih =>
    cases h with
    | nil => exact .cons ⟨h1, rfl, rfl, rfl, rfl⟩ .nil
    | cons h2 h =>
      rw [initPoints, initPoints, hT.weight hpq h1 h2]
      generalize triWeight m _ _ _ = x
      refine RRel.bind (RRel.refl x) fun w _ hw => ?_
      subst hw
      refine RRel.bind (ih (i + 1) h1) fun l k hlk => ?_
      exact List.Forall₂.cons ⟨h1, rfl, rfl, rfl, rfl⟩ hlk

theorem forall₂_head_last (hT : KeepsWeights m T) {ps qs : List Point} (h : List.Forall₂ T ps qs) :
    ps.head? = ps.getLast? ↔ qs.head? = qs.getLast? := by
  cases h with
  | nil => simp
  | cons h1 h =>
    rename_i a b as bs
    have hl : ∃ x y, (a :: as).getLast? = some x ∧ (b :: bs).getLast? = some y ∧ T x y := by
      clear hT
      induction h generalizing a b with
      | nil => exact ⟨a, b, rfl, rfl, h1⟩
      | cons h2 h ih =>
        obtain ⟨x, y, e1, e2, e3⟩ := ih h2
        exact ⟨x, y, by rw [List.getLast?_cons_cons]; exact e1, by rw [List.getLast?_cons_cons]; exact e2, e3⟩
    obtain ⟨x, y, e1, e2, e3⟩ := hl
    rw [e1, e2, List.head?_cons, List.head?_cons, Option.some_inj, Option.some_inj]
    exact hT.equal h1 e3

theorem from_rel (hT : KeepsWeights m T) {ps qs : List Point} (h : List.Forall₂ T ps qs) :
    RRel (HRel T) (PointHeap.from m ps) (PointHeap.from m qs) := by
  unfold PointHeap.from
  have hl := h.length_eq
  have he := forall₂_head_last hT h
  rw [hl]
  by_cases h1 : qs.length < 2
  · rw [if_pos h1, if_pos h1]; exact rfl
  rw [if_neg h1, if_neg h1]
  by_cases h2 : qs.head? = qs.getLast? ∧ qs.length < 4
  · rw [if_pos h2, if_pos ⟨he.mpr h2.1, h2.2⟩]; exact rfl
  rw [if_neg h2, if_neg (fun h => h2 ⟨he.mp h.1, h.2⟩)]
  cases h with
  | nil => exact rfl
  | cons h3 h =>
    dsimp only
    refine RRel.bind (initPoints_rel hT h 1 h3) fun l k hlk => ?_
    apply HRel.heapify
    exact ⟨.cons ⟨h3, rfl, rfl, rfl, rfl⟩ hlk, rfl⟩

theorem HRel.unlink {h k : PointHeap} (hr : HRel T h k) (top : Nat) : RRel (HRel T) (h.unlink top) (k.unlink top) := by
  unfold PointHeap.unlink
  rcases forall₂_at hr.points top with ⟨a, b, h1, h2, h3⟩ | ⟨h1, h2⟩
  swap
  · rw [h1, h2]; exact rfl
  rw [h1, h2]
  dsimp only
  rw [h3.previous, h3.next]
  cases b.previous with
  | none => exact rfl
  | some a =>
    cases b.next with
    | none => exact rfl
    | some c =>
      dsimp only
      refine RRel.bind (hr.modifyPoint a ?_) fun h1 k1 hr1 => hr1.modifyPoint c ?_
      · exact fun x y hxy => ⟨hxy.geo, hxy.weight, hxy.heapIndex, rfl, hxy.previous⟩
      · exact fun x y hxy => ⟨hxy.geo, hxy.weight, hxy.heapIndex, hxy.next, rfl⟩

/-- A result with a heap. -/
def PRel (T : Point → Point → Prop) (x y : Nat × PointHeap) : Prop := x.1 = y.1 ∧ HRel T x.2 y.2

theorem HRel.pop {h k : PointHeap} (hr : HRel T h k) : RRel (PRel T) h.pop k.pop := by
  obtain ⟨points, heap⟩ := h
  obtain ⟨points', heap'⟩ := k
  obtain rfl : heap = heap' := hr.heap
  have hp : List.Forall₂ (SRel T) points points' := hr.points
  unfold PointHeap.pop
  dsimp only
  cases heap with
  | nil => exact rfl
  | cons top rest =>
    cases rest with
    | nil => exact ⟨rfl, hp, rfl⟩
    | cons second rest =>
      dsimp only
      have hr' : HRel T ⟨points, (second :: rest).getLast (by simp) :: (second :: rest).dropLast⟩
          ⟨points', (second :: rest).getLast (by simp) :: (second :: rest).dropLast⟩ := ⟨hp, rfl⟩
      refine RRel.bind (hr'.modifyPoint _ ?_) fun h1 k1 hr1 => ?_
      · exact fun x y hxy => ⟨hxy.geo, hxy.weight, rfl, hxy.next, hxy.previous⟩
      refine RRel.bind (hr1.siftDown _ _ _ _) fun h2 k2 hr2 => ?_
      exact RRel.bind (hr2.unlink _) fun h3 k3 hr3 => ⟨rfl, hr3⟩

theorem HRel.recalculate (hT : KeepsWeights m T) {h k : PointHeap} (hr : HRel T h k) (j : Nat) :
    RRel (HRel T) (h.recalculate m j) (k.recalculate m j) := by
  unfold PointHeap.recalculate
  rcases forall₂_at hr.points j with ⟨b, b', h1, h2, h3⟩ | ⟨h1, h2⟩
  swap
  · rw [h1, h2]; exact rfl
  rw [h1, h2]
  dsimp only
  rw [h3.previous, h3.next]
  cases b'.previous with
  | none => exact hr
  | some ia =>
    cases b'.next with
    | none => exact hr
    | some ic =>
      dsimp only
      rcases forall₂_at hr.points ia with ⟨a, a', e1, e2, e3⟩ | ⟨e1, e2⟩
      swap
      · rw [e1, e2]; exact rfl
      rcases forall₂_at hr.points ic with ⟨c, c', f1, f2, f3⟩ | ⟨f1, f2⟩
      swap
      · rw [e1, e2, f1, f2]; exact rfl
      rw [e1, e2, f1, f2]
      dsimp only
      rw [hT.weight e3.geo h3.geo f3.geo, h3.weight, h3.heapIndex]
      generalize triWeight m _ _ _ = x
      refine RRel.bind (RRel.refl x) fun w _ hw => ?_
      subst hw
      have hmod : RRel (HRel T) (h.modifyPoint j fun p => { p with weight := w })
          (k.modifyPoint j fun p => { p with weight := w }) :=
        hr.modifyPoint j fun x y hxy => ⟨hxy.geo, rfl, hxy.heapIndex, hxy.next, hxy.previous⟩
      by_cases c1 : w < b'.weight
      · rw [if_pos c1, if_pos c1]
        exact RRel.bind hmod fun h1 k1 hr1 => hr1.siftUp _ _ _
      rw [if_neg c1, if_neg c1]
      by_cases c2 : w > b'.weight
      · rw [if_pos c2, if_pos c2]
        refine RRel.bind hmod fun h1 k1 hr1 => ?_
        rw [hr1.heap]
        by_cases c3 : k1.heap.length = 0
        · rw [if_pos c3, if_pos c3]; exact rfl
        · rw [if_neg c3, if_neg c3]; exact hr1.siftDown _ _ _ _
      · rw [if_neg c2, if_neg c2]; exact hr

theorem HRel.recalculateOpt (hT : KeepsWeights m T) {h k : PointHeap} (hr : HRel T h k) (j : Option Nat) :
    RRel (HRel T) (h.recalculateOpt m j) (k.recalculateOpt m j) := by
  cases j with
  | none => exact hr
  | some j => exact hr.recalculate hT j

theorem HRel.vwLoop (hT : KeepsWeights m T) (s fuel last : Nat) {h k : PointHeap} (hr : HRel T h k) :
    RRel (HRel T) (h.vwLoop m s fuel last) (k.vwLoop m s fuel last) := by
  induction fuel generalizing h k last with
  | zero =>
    unfold PointHeap.vwLoop
    rw [hr.heap]
    split
    · exact rfl
    · exact hr
  | succ fuel ih =>
    rw [PointHeap.vwLoop, PointHeap.vwLoop]
    rw [hr.heap]
    by_cases hc : k.heap.length > 0
    swap
    · rw [if_neg hc, if_neg hc]; exact hr
    rw [if_pos hc, if_pos hc]
    dsimp only
    refine RRel.bind hr.pop ?_
    rintro ⟨i, h1⟩ ⟨i', k1⟩ ⟨hi, hr1⟩
    obtain rfl : i = i' := hi
    dsimp only
    have hr1 : HRel T h1 k1 := hr1
    rcases forall₂_at hr1.points i with ⟨p, p', e1, e2, e3⟩ | ⟨e1, e2⟩
    swap
    · rw [e1, e2]; exact rfl
    rw [e1, e2]
    dsimp only
    rw [e3.weight, e3.previous, e3.next]
    by_cases c1 : p'.weight < last
    · rw [if_pos c1, if_pos c1]
      refine RRel.bind (hr1.modifyPoint i ?_) fun h2 k2 hr2 => ?_
      · exact fun x y hxy => ⟨hxy.geo, rfl, hxy.heapIndex, hxy.next, hxy.previous⟩
      refine RRel.bind (hr2.recalculateOpt hT _) fun h3 k3 hr3 => ?_
      exact RRel.bind (hr3.recalculateOpt hT _) fun h4 k4 hr4 => ih _ hr4
    rw [if_neg c1, if_neg c1]
    by_cases c2 : p'.weight ≥ s
    · rw [if_pos c2, if_pos c2]; exact hr1
    rw [if_neg c2, if_neg c2]
    refine RRel.bind (hr1.recalculateOpt hT _) fun h3 k3 hr3 => ?_
    exact RRel.bind (hr3.recalculateOpt hT _) fun h4 k4 hr4 => ih _ hr4

theorem topTwoLoop_rel {l k : List SPoint} (h : List.Forall₂ (SRel T) l k) {a a' b b' : SPoint} (ha : SRel T a a')
    (hb : SRel T b b') (f : Bool) :
    SRel T (topTwoLoop a b f l).1 (topTwoLoop a' b' f k).1 ∧ SRel T (topTwoLoop a b f l).2.1 (topTwoLoop a' b' f k).2.1 ∧
    (topTwoLoop a b f l).2.2 = (topTwoLoop a' b' f k).2.2 := by
  induction h generalizing a a' b b' f with
  | nil => exact ⟨ha, hb, rfl⟩
  | cons hp _ ih =>
    rw [topTwoLoop, topTwoLoop, hp.weight, ha.weight, hb.weight]
    split
    · exact ih hp ha _
    · split
      · exact ih ha hp _
      · exact ih ha hb _

theorem forall₂_getLast {α β : Type} {r : α → β → Prop} {l : List α} {k : List β} (h : List.Forall₂ r l k)
    (h1 : l ≠ []) (h2 : k ≠ []) : r (l.getLast h1) (k.getLast h2) := by
  induction h with
  | nil => exact absurd rfl h1
  | cons hr h ih =>
    cases h with
    | nil => exact hr
    | cons h3 h =>
      exact ih (by simp) (by simp)

theorem forall₂_dropLast {α β : Type} {r : α → β → Prop} {l : List α} {k : List β} (h : List.Forall₂ r l k) :
    List.Forall₂ r l.dropLast k.dropLast := by
  induction h with
  | nil => exact .nil
  | cons hr h ih =>
    cases h with
    | nil => exact .nil
    | cons h3 h =>
      exact .cons hr ih

theorem ringFallback_rel {l k : List SPoint} (h : List.Forall₂ (SRel T) l k) :
    RRel (List.Forall₂ T) (ringFallback l) (ringFallback k) := by
  cases h with
  | nil => exact rfl
  | cons h0 h =>
  cases h with
  | nil => exact rfl
  | cons h1 h =>
  cases h with
  | nil => exact rfl
  | cons h2 h =>
  cases h with
  | nil => exact rfl
  | cons h3 h =>
    rename_i p0 q0 p1 q1 p2 q2 p3 q3 ps qs
    unfold ringFallback
    dsimp only
    have hl := forall₂_getLast (List.Forall₂.cons h3 h) (by simp) (by simp)
    have hd := forall₂_dropLast (List.Forall₂.cons h3 h)
    rw [h2.weight, h1.weight]
    by_cases hc : q2.weight > q1.weight
    · rw [if_pos hc, if_pos hc]
      dsimp only
      obtain ⟨e1, e2, e3⟩ := topTwoLoop_rel hd h2 h1 false
      rw [e3]
      split
      · exact .cons h0.geo (.cons e1.geo (.cons e2.geo (.cons hl.geo .nil)))
      · exact .cons h0.geo (.cons e2.geo (.cons e1.geo (.cons hl.geo .nil)))
    · rw [if_neg hc, if_neg hc]
      dsimp only
      obtain ⟨e1, e2, e3⟩ := topTwoLoop_rel hd h1 h2 true
      rw [e3]
      split
      · exact .cons h0.geo (.cons e1.geo (.cons e2.geo (.cons hl.geo .nil)))
      · exact .cons h0.geo (.cons e2.geo (.cons e1.geo (.cons hl.geo .nil)))

theorem filter_rel {l k : List SPoint} (h : List.Forall₂ (SRel T) l k) (s : Nat) :
    List.Forall₂ T ((l.filter (fun p => p.weight ≥ s)).map (·.geo)) ((k.filter (fun p => p.weight ≥ s)).map (·.geo)) := by
  induction h with
  | nil => exact .nil
  | cons hp _ ih =>
    rw [List.filter_cons, List.filter_cons, hp.weight]
    split
    · exact .cons hp.geo ih
    · exact ih

theorem HRel.visvalingamWhyatt (hT : KeepsWeights m T) (s : Nat) {h k : PointHeap} (hr : HRel T h k) :
    RRel (List.Forall₂ T) (h.visvalingamWhyatt m s) (k.visvalingamWhyatt m s) := by
  unfold PointHeap.visvalingamWhyatt
  rw [hr.heap]
  refine RRel.bind (hr.vwLoop hT s _ 0) fun h1 k1 hr1 => ?_
  have hf := filter_rel hr1.points s
  have hl := hf.length_eq
  have he := forall₂_head_last hT hf
  dsimp only
  generalize (h1.points.filter (fun p => p.weight ≥ s)).map (·.geo) = out at hf hl he ⊢
  generalize (k1.points.filter (fun p => p.weight ≥ s)).map (·.geo) = out' at hf hl he ⊢
  cases hf with
  | nil => exact rfl
  | cons ht hf =>
    rename_i a b as bs
    obtain ⟨z, hz⟩ : ∃ z, (a :: as).getLast? = some z := ⟨_, List.getLast?_eq_some_getLast (by simp)⟩
    obtain ⟨z', hz'⟩ : ∃ z, (b :: bs).getLast? = some z := ⟨_, List.getLast?_eq_some_getLast (by simp)⟩
    rw [hz, hz', List.head?_cons, List.head?_cons] at he ⊢
    rw [Option.some_inj, Option.some_inj] at he
    dsimp only
    by_cases hc : b = z' ∧ (b :: bs).length < 4
    · rw [if_pos hc, if_pos ⟨he.mpr hc.1, hl ▸ hc.2⟩]
      exact ringFallback_rel hr1.points
    · rw [if_neg hc, if_neg (fun h => hc ⟨he.mp h.1, hl ▸ h.2⟩)]
      exact .cons ht hf

/-- Related edges are simplified alike. -/
theorem simplifyEdge_rel (hT : KeepsWeights m T) {ps qs : List Point} (h : List.Forall₂ T ps qs) (s : Nat) :
    RRel (List.Forall₂ T) (simplifyEdge m ps s) (simplifyEdge m qs s) := by
  unfold simplifyEdge
  exact RRel.bind (from_rel hT h) fun h1 k1 hr => hr.visvalingamWhyatt hT s

end TopoGeo
