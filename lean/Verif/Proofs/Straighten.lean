import Verif.Spec.Straighten
import Verif.Proofs.Cover
import Verif.Proofs.ClipCover
/-!
# Counting crossings of a simplified edge
-/

namespace TopoGeo

open Spec

theorem crossings_pair_append (x y : ℚ) (l l' : List Point) (p : Point) :
    crossings x y (l ++ p :: l') = crossings x y (l ++ [p]) + crossings x y (p :: l') := by
  simp only [← sumAlong_crossings]
  exact sumAlong_append _ l l' p

theorem crossings_cons_cons (x y : ℚ) (p q : Point) (l : List Point) :
    crossings x y (p :: q :: l) = crossings x y [p, q] + crossings x y (q :: l) :=
  crossings_pair_append x y [p] l q

/-- What crosses the path and the picked points together also crosses the stretches,
each closed by a line, up to an even number. -/
theorem even_picks (x y : ℚ) {ps : List Point} {i : Nat} {kept : List Nat} {out : List Point}
    (h : Picks ps (i :: kept) out) (hl : (i :: kept).getLast? = some (ps.length - 1)) :
    Even (crossings x y out + crossings x y (ps.drop i) +
      ((stretches ps (i :: kept)).map fun st => crossings x y (bow st)).sum) := by
  induction kept generalizing i out with
  | nil =>
    obtain ⟨_, h2⟩ := h
    match out, h2 with
    | [], h2 => simp at h2
    | _ :: _ :: _, h2 => simp at h2
    | [p], h2 =>
      have hp : ps[i]? = some p := by simpa using h2
      obtain rfl : i = ps.length - 1 := by simpa using hl
      obtain ⟨hlt, rfl⟩ := List.getElem?_eq_some_iff.mp hp
      rw [List.drop_eq_getElem_cons hlt, List.drop_eq_nil_of_le (by omega)]
      simp [crossings, segs, stretches]
  | cons j kept ih =>
    obtain ⟨h1, h2⟩ := h
    match out, h2 with
    | [], h2 => simp at h2
    | [_], h2 => simp at h2
    | p :: q :: out, h2 =>
      have hp : ps[i]? = some p := by simpa using congrArg List.head? h2
      have h3 : Picks ps (j :: kept) (q :: out) := ⟨(List.pairwise_cons.mp h1).2, by simpa using (List.cons.inj h2).2⟩
      have hq : ps[j]? = some q := by simpa using congrArg List.head? h3.2
      have hij : i < j := (List.pairwise_cons.mp h1).1 j (by simp)
      have ih := ih h3 (by simpa using hl)
      obtain ⟨hjl, hqe⟩ := List.getElem?_eq_some_iff.mp hq
      obtain ⟨hil, hpe⟩ := List.getElem?_eq_some_iff.mp hp
      have e1 : ps.drop j = q :: ps.drop (j + 1) := by rw [List.drop_eq_getElem_cons hjl, hqe]
      have e2 : ps.drop i = (ps.drop i).take (j - i) ++ q :: ps.drop (j + 1) := by
        conv_lhs => rw [← List.take_append_drop (j - i) (ps.drop i)]
        rw [List.drop_drop, Nat.add_sub_cancel' (Nat.le_of_lt hij), e1]
      have e3 : stretch ps i j = (ps.drop i).take (j - i) ++ [q] := by
        unfold stretch
        rw [List.take_add_one, List.getElem?_drop, Nat.add_sub_cancel' (Nat.le_of_lt hij), hq]
        rfl
      have e4 : bow (stretch ps i j) = (ps.drop i).take (j - i) ++ q :: [p] := by
        have : (stretch ps i j).head? = some p := by
          unfold stretch
          rw [List.head?_take, if_neg (by omega), List.head?_drop, hp]
        unfold bow
        rw [this, e3]
        simp
      have e5 : crossings x y [q, p] = crossings x y [p, q] := crossings_reverse x y [p, q]
      have e6 : crossings x y (ps.drop i) = crossings x y ((ps.drop i).take (j - i) ++ [q]) + crossings x y (ps.drop j) := by
        conv_lhs => rw [e2]
        rw [crossings_pair_append, ← e1]
      rw [stretches, List.map_cons, List.sum_cons, e4, crossings_pair_append, e5, crossings_cons_cons, e6]
      rw [Nat.even_iff] at ih ⊢
      omega

theorem even_bow_short (x y : ℚ) {l : List Point} (h : ¬ 2 < l.length) : Even (crossings x y (bow l)) := by
  match l, h with
  | [], _ => exact Even.zero
  | [p], _ =>
    have : crossings x y (bow [p]) = 0 := by
      simp only [bow, List.head?_cons, Option.toList_some, List.singleton_append]
      unfold crossings
      simp only [segs, List.countP_cons, List.countP_nil, zero_add]
      rw [if_neg]
      simp only [decide_eq_true_eq]
      rintro ⟨⟨h1, h2⟩ | ⟨h1, h2⟩, _⟩ <;> linarith
    rw [this]
    exact Even.zero
  | [p, q], _ =>
    have e : bow [p, q] = p :: q :: [p] := rfl
    have e5 : crossings x y [q, p] = crossings x y [p, q] := crossings_reverse x y [p, q]
    rw [e, crossings_cons_cons, e5]
    exact ⟨_, rfl⟩
  | _ :: _ :: _ :: _, h => simp at h

theorem even_sum_filter {α : Type} (P : α → Prop) [DecidablePred P] (f : α → Nat) (l : List α)
    (h : ∀ a ∈ l, ¬ P a → Even (f a)) : Even ((l.map f).sum + ((l.filter fun a => P a).map f).sum) := by
  induction l with
  | nil => exact Even.zero
  | cons a l ih =>
    have ih := ih fun b hb => h b (List.mem_cons_of_mem _ hb)
    have ha := h a (by simp)
    by_cases hP : P a
    · rw [List.filter_cons_of_pos (by simpa using hP), List.map_cons, List.map_cons, List.sum_cons, List.sum_cons]
      rw [Nat.even_iff] at ih ⊢
      omega
    · rw [List.filter_cons_of_neg (by simpa using hP), List.map_cons, List.sum_cons]
      have ha := ha hP
      rw [Nat.even_iff] at ih ha ⊢
      omega

/-- As above, without the stretches that stay as they are. -/
theorem even_reduced (x y : ℚ) {e e' : TopoEdge} {kept : List Nat} (h : ReducedTo e e' kept) :
    Even (crossings x y e'.points + crossings x y e.points +
      ((straightened e.points kept).map fun st => crossings x y (bow st)).sum) := by
  obtain ⟨h1, h2, h3⟩ := h
  match kept, h2 with
  | i :: kept, h2 =>
    obtain rfl : i = 0 := by simpa using h2
    have k1 := even_picks x y h1 h3
    have k2 := even_sum_filter (fun l : List Point => 2 < l.length) (fun st => crossings x y (bow st))
      (stretches e.points (0 :: kept)) fun l _ hl => even_bow_short x y hl
    rw [List.drop_zero] at k1
    unfold straightened
    rw [Nat.even_iff] at k1 k2 ⊢
    omega

theorem sumAlong_congr {F G : Point → Point → Nat} {l : List Point} (h : ∀ p ∈ l, ∀ q ∈ l, F p q = G p q) :
    sumAlong F l = sumAlong G l := by
  induction l with
  | nil => rfl
  | cons a l ih =>
    cases l with
    | nil => rfl
    | cons b l =>
      rw [sumAlong, sumAlong, ih fun p hp q hq => h p (List.mem_cons_of_mem _ hp) q (List.mem_cons_of_mem _ hq),
        h a (by simp) b (by simp)]

theorem sumAlong_zero (l : List Point) : sumAlong (fun _ _ => 0) l = 0 := by
  induction l with
  | nil => rfl
  | cons a l ih =>
    cases l with
    | nil => rfl
    | cons b l => rw [sumAlong, ih]

/-- Where a segment is at height `y`. -/
theorem between_ends {a b c d y : ℚ} (h : (b ≤ y ∧ y < d) ∨ (d ≤ y ∧ y < b)) :
    min a c ≤ a + (y - b) * (c - a) / (d - b) ∧ a + (y - b) * (c - a) / (d - b) ≤ max a c := by
  have h0 : d - b ≠ 0 := by rcases h with ⟨h1, h2⟩ | ⟨h1, h2⟩ <;> intro h0 <;> linarith
  obtain ⟨u, hu⟩ : ∃ u, u = (y - b) / (d - b) := ⟨_, rfl⟩
  have hu0 : 0 ≤ u ∧ u ≤ 1 := by
    rw [hu]
    rcases h with ⟨h1, h2⟩ | ⟨h1, h2⟩
    · have : 0 < d - b := by linarith
      exact ⟨div_nonneg (by linarith) this.le, (div_le_one this).mpr (by linarith)⟩
    · have : d - b < 0 := by linarith
      exact ⟨div_nonneg_of_nonpos (by linarith) this.le, (div_le_one_of_neg this).mpr (by linarith)⟩
  have e : a + (y - b) * (c - a) / (d - b) = a + u * (c - a) := by rw [hu]; ring
  rw [e]
  rcases le_total a c with hac | hac
  · rw [min_eq_left hac, max_eq_right hac]
    constructor <;> nlinarith [hu0.1, hu0.2]
  · rw [min_eq_right hac, max_eq_left hac]
    constructor <;> nlinarith [hu0.1, hu0.2]

/-- A closed stretch goes around no point outside of its box. -/
theorem even_bow_outside {x y : ℚ} {l : List Point} (h : ¬ InBox l x y) : Even (crossings x y (bow l)) := by
  cases l with
  | nil => exact Even.zero
  | cons a l =>
    have hmem : ∀ p ∈ bow (a :: l), p ∈ a :: l := by
      intro p hp
      unfold bow at hp
      simp only [List.head?_cons, Option.toList_some, List.mem_append, List.mem_cons, List.not_mem_nil, or_false] at hp ⊢
      tauto
    have hc : ClosedRing [bow (a :: l)] := by
      refine ⟨by simp, a, rfl, a, ?_, rfl⟩
      unfold bow
      rw [List.head?_cons, Option.toList_some, List.getLast?_concat]
    have h1 := even_straddles (y := y) hc
    simp only [List.map_cons, List.map_nil, List.sum_cons, List.sum_nil, add_zero] at h1
    rw [← sumAlong_crossings]
    by_cases hx : ∃ p ∈ a :: l, (p.xi : ℚ) ≤ x
    · have hz : ∀ p ∈ bow (a :: l), ∀ q ∈ bow (a :: l), (if RayCrosses x y (p, q) then 1 else 0) = 0 := by
        intro p hp q hq
        rw [if_neg]
        rintro ⟨h2, h3⟩
        refine h ⟨hx, ?_, ?_, ?_⟩
        · have h4 := (between_ends (a := (p.xi : ℚ)) (c := q.xi) h2).2
          have h5 := lt_of_lt_of_le h3 h4
          rcases lt_max_iff.mp h5 with h5 | h5
          · exact ⟨p, hmem p hp, h5⟩
          · exact ⟨q, hmem q hq, h5⟩
        · rcases h2 with h2 | h2
          · exact ⟨p, hmem p hp, h2.1⟩
          · exact ⟨q, hmem q hq, h2.1⟩
        · rcases h2 with h2 | h2
          · exact ⟨q, hmem q hq, h2.2⟩
          · exact ⟨p, hmem p hp, h2.2⟩
      rw [sumAlong_congr (G := fun _ _ => 0) hz, sumAlong_zero]
      exact Even.zero
    · have hs : ∀ p ∈ bow (a :: l), ∀ q ∈ bow (a :: l),
          (if RayCrosses x y (p, q) then 1 else 0) = if Straddles y p q then 1 else 0 := by
        intro p hp q hq
        have hp' : x < p.xi := by
          by_contra h2
          exact hx ⟨p, hmem p hp, not_lt.mp h2⟩
        have hq' : x < q.xi := by
          by_contra h2
          exact hx ⟨q, hmem q hq, not_lt.mp h2⟩
        have : RayCrosses x y (p, q) ↔ Straddles y p q := by
          constructor
          · exact fun h2 => h2.1
          · exact fun h2 => ⟨h2, lt_of_lt_of_le (lt_min hp' hq') (between_ends h2).1⟩
        simp only [this]
      rw [sumAlong_congr hs]
      exact h1

end TopoGeo
