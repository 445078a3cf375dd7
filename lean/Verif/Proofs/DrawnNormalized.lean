import Verif.Spec.ClipNormalize
import Verif.Props.EvenOdd
import Verif.Props.Normalize
import Mathlib.Tactic.LinearCombination
/-!
# Normalizing keeps what one has drawn
-/

namespace TopoGeo
open Spec

/-- The same segments, in another order and some in the other direction. -/
def SegsTurned (l l' : List (Point × Point)) : Prop :=
  ∃ l1, l.Perm l1 ∧ List.Forall₂ (fun a b => a = b ∨ a = b.swap) l1 l'

theorem SegsTurned.refl (l : List (Point × Point)) : SegsTurned l l := ⟨l, .refl _, List.forall₂_same.mpr fun _ _ => .inl rfl⟩

theorem SegsTurned.append {a a' b b' : List (Point × Point)} (h : SegsTurned a a') (h' : SegsTurned b b') :
    SegsTurned (a ++ b) (a' ++ b') := by
  obtain ⟨c, h1, h2⟩ := h
  obtain ⟨c', h1', h2'⟩ := h'
  exact ⟨c ++ c', h1.append h1', List.rel_append h2 h2'⟩

theorem SegsTurned.perm {a b c : List (Point × Point)} (hp : a.Perm b) (h : SegsTurned b c) : SegsTurned a c := by
  obtain ⟨l, h1, h2⟩ := h
  exact ⟨l, hp.trans h1, h2⟩

theorem SegsTurned.flatMap {α : Type} {f g : α → List (Point × Point)} {l : List α} (h : ∀ a ∈ l, SegsTurned (f a) (g a)) :
    SegsTurned (l.flatMap f) (l.flatMap g) := by
  induction l with
  | nil => exact .refl _
  | cons a l ih =>
    rw [List.flatMap_cons, List.flatMap_cons]
    exact (h a (by simp)).append (ih fun x hx => h x (List.mem_cons_of_mem _ hx))

theorem SegsTurned.reverse (l : List Point) : SegsTurned (segs l.reverse) (segs l) := by
  refine ⟨(segs l).map Prod.swap, by rw [segs_reverse]; exact List.reverse_perm _, ?_⟩
  rw [List.forall₂_map_left_iff]
  exact List.forall₂_same.mpr fun _ _ => .inr rfl

theorem wound_turned {δ : Type} (t : Topology δ) (order : WindingOrder) (ring : TopoRing) :
    SegsTurned ((sidedSegs (wound t order ring)).map (·.1)) ((pathsOf t ring).flatMap segs) := by
  have hs : ∀ bs : List Bound, (sidedSegs bs).map (·.1) = bs.flatMap fun b => segs b.path := by
    intro bs
    unfold sidedSegs
    rw [List.map_flatMap]
    congr 1
    funext b
    rw [List.map_map]
    exact List.map_id _
  have hb : (pathsOf t ring).flatMap segs = (bounds t ring).flatMap fun b => segs b.path := by
    unfold pathsOf bounds
    rw [List.flatMap_map, List.flatMap_map]
  rw [hs, hb]
  unfold wound
  split
  · exact .refl _
  · unfold turned
    refine .perm ((List.reverse_perm _).flatMap_right _) ?_
    rw [List.flatMap_map]
    exact .flatMap fun b _ => .reverse b.path

theorem inLine_swap {s : Point × Point} {p : Point} (h : InLine s p) : InLine s.swap p := by
  unfold InLine at *
  simp only [Prod.fst_swap, Prod.snd_swap]
  linear_combination -h

theorem rangesMeet_swap (a b c d : Int) : RangesMeet a b c d ↔ RangesMeet b a c d := by
  unfold RangesMeet
  rw [min_comm a b, max_comm a b]

theorem rangesMeet_comm (a b c d : Int) : RangesMeet a b c d ↔ RangesMeet c d a b := by
  unfold RangesMeet
  rw [max_comm (min a b), min_comm (max a b)]

theorem runsAlong_left {s s' : Point × Point} (h : RunsAlong s s') : RunsAlong s.swap s' := by
  obtain ⟨h1, h2, h3⟩ := h
  refine ⟨inLine_swap h1, inLine_swap h2, ?_⟩
  simp only [Prod.fst_swap, Prod.snd_swap]
  rwa [rangesMeet_swap, rangesMeet_swap s.2.yi]

theorem runsAlong_right {s s' : Point × Point} (h : RunsAlong s s') : RunsAlong s s'.swap := by
  obtain ⟨h1, h2, h3⟩ := h
  refine ⟨h2, h1, ?_⟩
  simp only [Prod.fst_swap, Prod.snd_swap]
  rwa [rangesMeet_comm, rangesMeet_swap, rangesMeet_comm, rangesMeet_comm s.1.yi, rangesMeet_swap s'.2.yi, rangesMeet_comm s'.1.yi]

theorem point_ext_int {p q : Point} (hx : p.xi = q.xi) (hy : p.yi = q.yi) : p = q := by
  obtain ⟨a, b⟩ := p
  obtain ⟨c, d⟩ := q
  simp only [Point.xi, Point.yi] at hx hy
  congr 1
  · exact UInt32.toNat_inj.mp (by omega)
  · exact UInt32.toNat_inj.mp (by omega)

theorem inLine_comm {s s' : Point × Point} (hs : s.1 ≠ s.2) (h1 : InLine s s'.1) (h2 : InLine s s'.2) : InLine s' s.1 := by
  unfold InLine at *
  by_cases hx : s.2.xi - s.1.xi = 0
  · have hy : s.2.yi - s.1.yi ≠ 0 := fun hy => hs (point_ext_int (by omega) (by omega))
    refine mul_left_cancel₀ hy ?_
    linear_combination (s'.1.yi - s.1.yi) * h2 - (s'.2.yi - s.1.yi) * h1
  · refine mul_left_cancel₀ hx ?_
    linear_combination (s'.1.xi - s.1.xi) * h2 - (s'.2.xi - s.1.xi) * h1

theorem runsAlong_comm {s s' : Point × Point} (hs : s.1 ≠ s.2) (h : RunsAlong s s') : RunsAlong s' s := by
  obtain ⟨h1, h2, h3⟩ := h
  refine ⟨inLine_comm hs h1 h2, ?_, by rwa [rangesMeet_comm, rangesMeet_comm s'.1.yi]⟩
  exact inLine_comm (s := s.swap) (s' := s') (fun h => hs h.symm) (inLine_swap h1) (inLine_swap h2)

/-- Whether segments run along each other depends neither on order nor on direction. -/
theorem SegsTurned.drawn {l l' : List (Point × Point)} (h : SegsTurned l l') (hm : ∀ s ∈ l', s.1 ≠ s.2)
    (hp : l'.Pairwise fun s s' => ¬ RunsAlong s s') :
    (∀ s ∈ l, s.1 ≠ s.2) ∧ l.Pairwise fun s s' => ¬ RunsAlong s s' := by
  obtain ⟨l1, h1, h2⟩ := h
  have hm1 : (∀ s ∈ l1, s.1 ≠ s.2) ∧ l1.Pairwise fun s s' => ¬ RunsAlong s s' := by
    clear h1
    induction h2 with
    | nil => simp
    | @cons a b l1 l' hab hrest ih =>
      rw [List.pairwise_cons] at hp
      obtain ⟨ih1, ih2⟩ := ih (fun s hs => hm s (List.mem_cons_of_mem _ hs)) hp.2
      constructor
      · intro s hs
        rcases List.mem_cons.mp hs with rfl | hs
        · have := hm b (by simp)
          rcases hab with rfl | rfl
          · exact this
          · exact this.symm
        · exact ih1 s hs
      · rw [List.pairwise_cons]
        refine ⟨fun s hs hr => ?_, ih2⟩
        obtain ⟨s', hs', hss⟩ := forall₂_exists_right hrest hs
        refine hp.1 s' hs' ?_
        have hr' : RunsAlong b s := by
          rcases hab with rfl | rfl
          · exact hr
          · simpa using runsAlong_left hr
        rcases hss with rfl | rfl
        · exact hr'
        · simpa using runsAlong_right hr'
  have hml : ∀ s ∈ l, s.1 ≠ s.2 := fun s hs => hm1.1 s (h1.mem_iff.mp hs)
  refine ⟨hml, ?_⟩
  have key : l1.Pairwise fun s s' => s.1 ≠ s.2 ∧ s'.1 ≠ s'.2 ∧ ¬ RunsAlong s s' :=
    hm1.2.imp_of_mem fun ha hb h => ⟨hm1.1 _ ha, hm1.1 _ hb, h⟩
  have key := (h1.pairwise_iff (R := fun s s' => s.1 ≠ s.2 ∧ s'.1 ≠ s'.2 ∧ ¬ RunsAlong s s')
    fun ⟨h1, h2, h3⟩ => ⟨h2, h1, fun h => h3 (runsAlong_comm h2 h)⟩).mpr key
  exact key.imp fun h => h.2.2

theorem segsTurned_normalized {δ : Type} {m : Build} {t t' : Topology δ} (hw : WellFormed t) (hs : NoSelfEdges t (allRings t))
    (ho : ∀ r ∈ t.regions, r.outerRings ≠ []) (h : normalize m t = .ok t') :
    ∀ r' ∈ t'.regions, ∃ r ∈ t.regions, SegsTurned (topoRegionSegs t' r') (topoRegionSegs t r) := by
  intro r' hr'
  obtain ⟨r, hr, _, _, _, h1, h2⟩ := forall₂_exists_left (C15_topology m t t' hw hs ho h) hr'
  refine ⟨r, hr, ?_⟩
  unfold topoRegionSegs
  rw [List.flatMap_append, List.flatMap_append]
  exact .append (.perm h1 (.flatMap fun ring _ => wound_turned t _ ring)) (.perm h2 (.flatMap fun ring _ => wound_turned t _ ring))

/-- A normalized topology is drawn as the given one was. -/
theorem drawn_normalized {δ : Type} {m : Build} {t t' : Topology δ} (hw : WellFormed t) (hs : NoSelfEdges t (allRings t))
    (ho : ∀ r ∈ t.regions, r.outerRings ≠ []) (hd : DrawnTopology t) (h : normalize m t = .ok t') : DrawnTopology t' := by
  have hseg := segsTurned_normalized hw hs ho h
  refine ⟨fun x y => le_trans (le_of_eq ?_) (hd.apart x y), fun r' hr' => ?_, fun r' hr' => ?_⟩
  · have hf := C78_topology m t t' hw hs ho h
    unfold cover
    generalize t.regions = regs at hf
    generalize t'.regions = regs' at hf
    clear hseg
    induction hf with
    | nil => rfl
    | cons h1 _ ih => simp only [List.countP_cons, ih, h1.2 x y]
  · obtain ⟨r, hr, ht⟩ := hseg r' hr'
    exact (ht.drawn (hd.moves r hr) (hd.once r hr)).2
  · obtain ⟨r, hr, ht⟩ := hseg r' hr'
    exact (ht.drawn (hd.moves r hr) (hd.once r hr)).1

end TopoGeo
