import Verif.Proofs.MemorySimplify
import Verif.Props.Heap
import Verif.Props.MemoryOps
import Verif.Props.Simplify
/-!
# Property C114: the raw pointers of the simplifier
-/

namespace TopoGeo

open Spec

/-- C114: wherever the points are placed, following addresses does what following numbers
does: the same points are returned, or there is a panic for the same reason. This includes
edges that `simplify_edge` asserts against and thresholds that are no `u64`. -/
theorem C114_pointers (place : PointsPlace) (hp : RealPlace place) (m : Build) (ps : List Point) (s : Nat) :
    mSimplifyEdge place m ps s = simplifyEdge m ps s := by
  unfold mSimplifyEdge simplifyEdge
  rw [PointsPlace.from_eq hp, R.map_bind_eq]
  exact R.bind_congr_ok fun h hh => PointsPlace.visvalingamWhyatt_eq hp m h (from_linksIn hh) s

/-- C114: no pointer is followed that is null or does not lead to a point of the edge, and
the loops that walk the heap end. -/
theorem C114_safe (place : PointsPlace) (hp : RealPlace place) (m : Build) (ps : List Point) (s : Nat) (hs : s ≤ u64Max) (e : Panic)
    (h : mSimplifyEdge place m ps s = .error e) : e = .assert ∨ m = .debug ∧ e = .overflow := by
  rw [C114_pointers place hp] at h
  rcases C40_panics m ps s e hs h with ⟨_, h⟩ | ⟨_, h⟩
  · exact Or.inl h
  · exact Or.inr h

/-- C114: the same for topologies. The points of each edge are copied to a place of their
own, and it does not matter to which. -/
theorem C114_topology {δ : Type} (places : Nat → PointsPlace) (hp : ∀ i, RealPlace (places i)) (m : Build) (T : MTopology δ) (s : Nat) :
    mSimplifyAt places m T s = mSimplify m T s := by
  have key : ∀ (es : List MEdge) (i : Nat), mSimplifyEdgesAt places m s i es = mSimplifyEdges m s es := by
    intro es
    induction es with
    | nil => exact fun _ => rfl
    | cons e es ih =>
      intro i
      unfold mSimplifyEdgesAt mSimplifyEdges
      rw [C114_pointers _ (hp i), ih]
  unfold mSimplifyAt mSimplify
  rw [key]

theorem from_heap {m : Build} {ps : List Point} {h : PointHeap} (hf : PointHeap.from m ps = .ok h) :
    h.heap.Perm (List.range' 1 (ps.length - 2)) ∧ h.points.length = ps.length := by
  unfold PointHeap.from at hf
  split at hf
  · cases hf
  · split at hf
    · cases hf
    · cases ps with
      | nil => cases hf
      | cons p0 rest =>
        obtain ⟨tail, h1, h2⟩ := bind_ok.mp hf
        refine ⟨(C97_heapify _ _ h2).1.1, ?_⟩
        have := congrArg List.length (heapify_links h2)
        simp only [List.length_map, List.length_cons, initPoints_length h1] at this
        simpa using this

/-- C114: that the points stay where they are is needed. Had they been moved after they
were linked, as `into_boxed_slice` moves what has spare capacity, the first thing to be done
to any edge with an inner point would be to follow a dangling pointer. -/
theorem C114_moved (place : PointsPlace) (hp : RealPlace place) (m : Build) (ps : List Point) (s : Nat) (h : MPointHeap)
    (hf : MPointHeap.from place m ps = .ok h) (hn : 3 ≤ ps.length) (address : Nat)
    (ha : Apart place.address (place.size * ps.length) address (place.size * ps.length)) :
    (moveTo h address).visvalingamWhyatt m s = .error .nullDeref := by
  rw [PointsPlace.from_eq hp] at hf
  obtain ⟨h0, hf0, rfl⟩ := map_eq_ok hf
  obtain ⟨hperm, hlen⟩ := from_heap hf0
  have hloc : ∀ (H : MPointHeap) (j : Nat), H.size = place.size → H.points.address = address → H.points.elems.length = ps.length →
      j < ps.length → locate H.points.address H.size H.points.elems.length (elemAddress place.address place.size j) = none := by
    intro H j e1 e2 e3 hj
    rw [e1, e2, e3]
    cases hl : locate address place.size ps.length (elemAddress place.address place.size j) with
    | none => rfl
    | some k =>
      obtain ⟨hk, he⟩ := (locate_eq_some hp.size).mp hl
      unfold elemAddress at he
      have b1 : place.size * (j + 1) ≤ place.size * ps.length := Nat.mul_le_mul_left _ hj
      have b2 : place.size * (k + 1) ≤ place.size * ps.length := Nat.mul_le_mul_left _ hk
      rw [Nat.mul_add] at b1 b2
      have := hp.size
      rcases ha with h1 | h1 <;> omega
  have hread : ∀ (H : MPointHeap) (j : Nat), H.size = place.size → H.points.address = address → H.points.elems.length = ps.length →
      j < ps.length → H.read (elemAddress place.address place.size j) = .error .nullDeref := by
    intro H j e1 e2 e3 hj
    unfold MPointHeap.read
    rw [hloc H j e1 e2 e3 hj]
    rfl
  have hwrite : ∀ (H : MPointHeap) (j : Nat) f, H.size = place.size → H.points.address = address → H.points.elems.length = ps.length →
      j < ps.length → H.write (elemAddress place.address place.size j) f = .error .nullDeref := by
    intro H j f e1 e2 e3 hj
    unfold MPointHeap.write
    rw [hloc H j e1 e2 e3 hj]
    rfl
  have hmem : ∀ j ∈ h0.heap, j < ps.length := by
    intro j hj
    have := List.mem_range'_1.mp (hperm.mem_iff.mp hj)
    omega
  have hl : h0.heap.length = ps.length - 2 := by rw [hperm.length_eq]; simp
  have hpl : (place.heap h0).points.elems.length = ps.length := by simp [PointsPlace.heap, hlen]
  unfold MPointHeap.visvalingamWhyatt
  have hloop : (moveTo (place.heap h0) address).vwLoop m s (moveTo (place.heap h0) address).heap.length 0 = .error .nullDeref := by
    have e1 : (moveTo (place.heap h0) address).heap.length = ps.length - 2 := by simp [moveTo, PointsPlace.heap, hl]
    obtain ⟨fuel, hfuel⟩ : ∃ fuel, ps.length - 2 = fuel + 1 := ⟨ps.length - 3, by omega⟩
    rw [e1, hfuel]
    unfold MPointHeap.vwLoop
    rw [if_pos (by omega)]
    simp only []
    unfold MPointHeap.pop
    cases hh : h0.heap with
    | nil => rw [hh] at hl; simp at hl; omega
    | cons top rest =>
      cases rest with
      | nil =>
        have e : (moveTo (place.heap h0) address).heap = [elemAddress place.address place.size top] := by simp [moveTo, PointsPlace.heap, hh]
        split <;> rename_i e'
        · rw [e] at e'; cases e'
        · rw [e] at e'
          cases e'
          simp only [ok_bind]
          rw [hread]
          · rfl
          · rfl
          · rfl
          · exact hpl
          · exact hmem top (by simp [hh])
        · rw [e] at e'; cases e'
      | cons second rest =>
        have e : (moveTo (place.heap h0) address).heap = elemAddress place.address place.size top :: elemAddress place.address place.size second ::
            rest.map (elemAddress place.address place.size) := by simp [moveTo, PointsPlace.heap, hh]
        split <;> rename_i e'
        · rw [e] at e'; cases e'
        · rw [e] at e'; cases e'
        · rw [e] at e'
          cases e'
          have hlast : (elemAddress place.address place.size second :: rest.map (elemAddress place.address place.size)).getLast (by simp) =
              elemAddress place.address place.size ((second :: rest).getLast (by simp)) := by
            simp only [← List.map_cons, List.getLast_map]
          have hm : (second :: rest).getLast (by simp) < ps.length :=
            hmem _ (by rw [hh]; exact List.mem_cons_of_mem _ (List.getLast_mem _))
          simp only [hlast]
          rw [hwrite]
          · rfl
          · rfl
          · rfl
          · exact hpl
          · exact hm
  rw [hloop]
  rfl

/-! Non-vacuity: an edge in memory, simplified; the same with the points moved away. -/

/-- Somewhere in memory, in blocks of 48 bytes. -/
def exPlace : PointsPlace := ⟨4096, 48, 5⟩

theorem exPlace_real : RealPlace exPlace := ⟨by decide, by decide⟩

/-- The edge of the unit test `four_points_to_three`. -/
def exPointsInMemory : List Point := [⟨1, 1⟩, ⟨1, 10⟩, ⟨2, 1⟩, ⟨2, 2⟩]

example : mSimplifyEdge exPlace .debug exPointsInMemory 8 = .ok [⟨1, 1⟩, ⟨1, 10⟩, ⟨2, 2⟩] := by
  rw [C114_pointers _ exPlace_real]
  decide +kernel

-- without the theorem: the addresses are really computed
example : (MPointHeap.from exPlace .debug exPointsInMemory).toOption.map (fun h => (h.heap, h.points.elems.map (fun x => (x.previous, x.next)))) =
    some ([4192, 4144], [(0, 4144), (4096, 4192), (4144, 4240), (4192, 0)]) := by
  decide +kernel

example : ∃ h, MPointHeap.from exPlace .debug exPointsInMemory = .ok h ∧ (moveTo h 8192).visvalingamWhyatt .debug 8 = .error .nullDeref := by
  have hs : (MPointHeap.from exPlace .debug exPointsInMemory).toOption.isSome = true := by decide +kernel
  cases hh : MPointHeap.from exPlace .debug exPointsInMemory with
  | error e => rw [hh] at hs; cases hs
  | ok h => exact ⟨h, rfl, C114_moved _ exPlace_real _ _ _ h hh (by decide) 8192 (Or.inl (by decide))⟩

end TopoGeo
