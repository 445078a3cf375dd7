import Mathlib.Tactic.LinearCombination
import Mathlib.Order.Interval.Set.Infinite
import Mathlib.Data.Set.Finite.Lattice
import Verif.Spec.BuildSafe
import Verif.Proofs.ClipSafeCover
/-!
# The two sides of a segment

Next to a segment, where no other segment crosses it, a region whose border
passes there once has one of the sides and not the other.
-/

namespace TopoGeo
open Spec

/-- Both segments are on the same line. -/
def OneLine (mask : ClipMask) (s s' : Point × Point) : Prop := ∀ T, spanAt mask T s = spanAt mask T s'

theorem spanAt_two {mask : ClipMask} {s s' : Point × Point} {T T' : ℚ} (hne : T ≠ T') (h : spanAt mask T s = spanAt mask T s')
    (h' : spanAt mask T' s = spanAt mask T' s') : OneLine mask s s' := by
  intro U
  unfold spanAt at *
  generalize (other mask s.1 : ℚ) = a at *
  generalize (other mask s'.1 : ℚ) = a' at *
  simp only [mul_div_assoc] at *
  generalize ((other mask s.2 : ℚ) - a) / (tested mask s.2 - tested mask s.1 : ℚ) = k at *
  generalize ((other mask s'.2 : ℚ) - a') / (tested mask s'.2 - tested mask s'.1 : ℚ) = k' at *
  have hk : (T - T') * (k - k') = 0 := by linear_combination h - h'
  have : k = k' := by
    rcases mul_eq_zero.mp hk with h0 | h0
    · exact absurd (sub_eq_zero.mp h0) hne
    · exact sub_eq_zero.mp h0
  subst this
  linear_combination h

/-- Not at an end. -/
def Between (mask : ClipMask) (T : ℚ) (s : Point × Point) : Prop := T ≠ tested mask s.1 ∧ T ≠ tested mask s.2

theorem spanAt_first (mask : ClipMask) (s : Point × Point) : spanAt mask (tested mask s.1) s = other mask s.1 := by
  simp [spanAt]

theorem spanAt_second (mask : ClipMask) {s : Point × Point} (h : (tested mask s.1 : ℚ) ≠ tested mask s.2) :
    spanAt mask (tested mask s.2) s = other mask s.2 := by
  have : (tested mask s.2 - tested mask s.1 : ℚ) ≠ 0 := fun h0 => h (sub_eq_zero.mp h0).symm
  unfold spanAt
  field_simp
  ring

theorem Spans.ne {mask : ClipMask} {T : ℚ} {s : Point × Point} (h : Spans mask T s) :
    (tested mask s.1 : ℚ) ≠ tested mask s.2 := by
  rcases h with h | h <;> intro h0 <;> linarith [h.1, h.2]

theorem line_of_spanAt {mask : ClipMask} {s : Point × Point} {p : Point} (h : (tested mask s.1 : ℚ) ≠ tested mask s.2)
    (hp : spanAt mask (tested mask p) s = other mask p) :
    (other mask p - other mask s.1) * (tested mask s.2 - tested mask s.1) =
      (tested mask p - tested mask s.1) * (other mask s.2 - other mask s.1) := by
  have h0 : (tested mask s.2 - tested mask s.1 : ℚ) ≠ 0 := fun h0 => h (sub_eq_zero.mp h0).symm
  unfold spanAt at hp
  have hq : ((other mask p : ℚ) - other mask s.1) * (tested mask s.2 - tested mask s.1) =
      (tested mask p - tested mask s.1) * (other mask s.2 - other mask s.1) := by
    rw [← hp]
    field_simp
    ring
  exact_mod_cast hq

theorem ranges_of_spans {mask : ClipMask} {T : ℚ} {s s' : Point × Point} (h : Spans mask T s) (h' : Spans mask T s')
    (hb : Between mask T s) (hb' : Between mask T s') :
    RangesMeet (tested mask s.1) (tested mask s.2) (tested mask s'.1) (tested mask s'.2) := by
  have lo : ∀ {s : Point × Point}, Spans mask T s → Between mask T s →
      ((min (tested mask s.1) (tested mask s.2) : Int) : ℚ) < T ∧ T < ((max (tested mask s.1) (tested mask s.2) : Int) : ℚ) := by
    intro s h hb
    rw [Int.cast_min, Int.cast_max, min_lt_iff, lt_max_iff]
    rcases h with h | h
    · exact ⟨.inl (lt_of_le_of_ne h.1 hb.1.symm), .inr h.2⟩
    · exact ⟨.inr (lt_of_le_of_ne h.1 hb.2.symm), .inl h.2⟩
  unfold RangesMeet
  have h1 := lo h hb
  have h2 := lo h' hb'
  rw [max_lt_iff, lt_min_iff, lt_min_iff]
  have := fun {a b : Int} (x : (a : ℚ) < T) (y : T < (b : ℚ)) => (Int.cast_lt (R := ℚ)).mp (x.trans y)
  exact ⟨⟨this h1.1 h1.2, this h1.1 h2.2⟩, this h2.1 h1.2, this h2.1 h2.2⟩

theorem runsAlong_of_line {mask : ClipMask} {T : ℚ} {s s' : Point × Point} (hl : OneLine mask s s') (h : Spans mask T s)
    (h' : Spans mask T s') (hb : Between mask T s) (hb' : Between mask T s') : RunsAlong s s' := by
  have h1 := line_of_spanAt h.ne ((hl _).trans (spanAt_first mask s'))
  have h2 := line_of_spanAt h.ne ((hl _).trans (spanAt_second mask h'.ne))
  have h3 := ranges_of_spans h h' hb hb'
  unfold RunsAlong InLine
  cases mask <;> simp only [tested, other] at h1 h2 h3
  all_goals
    refine ⟨by simp only [Point.xi, Point.yi]; linarith, by simp only [Point.xi, Point.yi]; linarith, ?_⟩
    first | exact .inl h3 | exact .inr h3

/-- A place in a range where no other line crosses that of the segment and where no
segment ends. -/
theorem exists_clear_in (mask : ClipMask) (s : Point × Point) {lo hi : ℚ} (hlt : lo < hi) (l : List (Point × Point)) :
    ∃ T, lo < T ∧ T < hi ∧
      ∀ s' ∈ l, Between mask T s' ∧ (spanAt mask T s' = spanAt mask T s → OneLine mask s' s) := by
  have hfin : ∀ l : List (Point × Point), {T : ℚ | ∃ s' ∈ l, ¬ (Between mask T s' ∧
      (spanAt mask T s' = spanAt mask T s → OneLine mask s' s))}.Finite := by
    intro l
    induction l with
    | nil => simp
    | cons a l ih =>
      have h1 : {T : ℚ | spanAt mask T a = spanAt mask T s ∧ ¬ OneLine mask a s}.Subsingleton := by
        rintro T ⟨h1, h2⟩ T' ⟨h3, _⟩
        by_contra hne
        exact h2 (spanAt_two hne h1 h3)
      refine (((Set.toFinite {(tested mask a.1 : ℚ), (tested mask a.2 : ℚ)}).union h1.finite).union ih).subset ?_
      rintro T ⟨s', hs', hT⟩
      rcases List.mem_cons.mp hs' with rfl | hs'
      · left
        by_cases hb : Between mask T s'
        · right
          by_contra hc
          exact hT ⟨hb, fun h => by by_contra h'; exact hc ⟨h, h'⟩⟩
        · left
          unfold Between at hb
          rw [not_and_or, not_not, not_not] at hb
          simpa using hb
      · exact .inr ⟨s', hs', hT⟩
  obtain ⟨T, hT, hT'⟩ := ((Set.Ioo_infinite hlt).sdiff (hfin l)).nonempty
  exact ⟨T, hT.1, hT.2, fun s' hs' => by by_contra h; exact hT' ⟨s', hs', h⟩⟩

/-- A place on a segment that no other line crosses and where no segment ends. -/
theorem exists_clear (mask : ClipMask) (s : Point × Point) (hs : (tested mask s.1 : ℚ) ≠ tested mask s.2)
    (l : List (Point × Point)) :
    ∃ T, Spans mask T s ∧ ∀ s' ∈ l, Between mask T s' ∧ (spanAt mask T s' = spanAt mask T s → OneLine mask s' s) := by
  rcases lt_or_gt_of_ne hs with h | h
  · obtain ⟨T, h1, h2, h3⟩ := exists_clear_in mask s h l
    exact ⟨T, .inl ⟨h1.le, h2⟩, h3⟩
  · obtain ⟨T, h1, h2, h3⟩ := exists_clear_in mask s h l
    exact ⟨T, .inr ⟨h1.le, h2⟩, h3⟩

/-- How often segments have the place. -/
def timesAt (mask : ClipMask) (T c : ℚ) (l : List (Point × Point)) : Nat :=
  l.countP fun s => Spans mask T s ∧ spanAt mask T s = c

theorem countP_le_one_of_pairwise {α : Type} {R : α → α → Prop} {P : α → Bool} {l : List α} (h : l.Pairwise R)
    (hP : ∀ a ∈ l, ∀ b ∈ l, P a → P b → ¬ R a b) : l.countP P ≤ 1 := by
  induction l with
  | nil => simp
  | cons a l ih =>
    rw [List.pairwise_cons] at h
    rw [List.countP_cons]
    have := ih h.2 fun x hx y hy => hP x (List.mem_cons_of_mem _ hx) y (List.mem_cons_of_mem _ hy)
    split
    · rename_i ha
      rw [List.countP_eq_zero.mpr]
      intro b hb hPb
      exact hP a (by simp) b (List.mem_cons_of_mem _ hb) ha hPb (h.1 b hb)
    · omega

/-- If regions do not overlap and no border has the place twice, then all
borders together have it at most twice. -/
theorem place_le_two {regs : List (List (List (List Point)))} (hc : ∀ rings ∈ regs, ∀ paths ∈ rings, ClosedRing paths)
    (hno : ∀ x y, regs.countP (fun rings => Encloses (partSegs rings) x y) ≤ 1) (mask : ClipMask) (T c : ℚ)
    (honce : ∀ rings ∈ regs, timesAt mask T c (partSegs rings) ≤ 1) :
    (regs.map fun rings => timesAt mask T c (partSegs rings)).sum ≤ 2 := by
  obtain ⟨w, w0, hw⟩ := exists_small (regs.flatMap partSegs)
    (fun d s => spanAt mask T s = c ∨ d < |spanAt mask T s - c|) (by
      intro s hs
      by_cases h : spanAt mask T s = c
      · exact ⟨1, one_pos, fun _ _ _ => .inl h⟩
      · have : 0 < |spanAt mask T s - c| := abs_pos.mpr (sub_ne_zero.mpr h)
        exact ⟨|spanAt mask T s - c| / 2, by positivity, fun d _ hd => .inr (by linarith)⟩)
  have hw := fun r (hr : r ∈ regs) s (hs : s ∈ partSegs r) => hw w w0 le_rfl s (List.mem_flatMap.mpr ⟨r, hr, hs⟩)
  have he1 : ∀ r ∈ regs, (Encloses (partSegs r) (pointAt mask T (c - w)).1 (pointAt mask T (c - w)).2 ↔
      Odd ((partSegs r).countP fun s => AlongCrosses mask T (c - w) s)) := fun r hr =>
    encloses_along (hc r hr) (by
      intro s hs _ h
      rcases hw r hr s hs with h' | h'
      · linarith
      · rw [h, show c - w - c = -w by ring, abs_neg, abs_of_pos w0] at h'; linarith)
  have he2 : ∀ r ∈ regs, (Encloses (partSegs r) (pointAt mask T (c + w)).1 (pointAt mask T (c + w)).2 ↔
      Odd ((partSegs r).countP fun s => AlongCrosses mask T (c + w) s)) := fun r hr =>
    encloses_along (hc r hr) (by
      intro s hs _ h
      rcases hw r hr s hs with h' | h'
      · linarith
      · rw [h, show c + w - c = w by ring, abs_of_pos w0] at h'; linarith)
  have hc1 := hno (pointAt mask T (c - w)).1 (pointAt mask T (c - w)).2
  have hc2 := hno (pointAt mask T (c + w)).1 (pointAt mask T (c + w)).2
  have hr : ∀ r ∈ regs, timesAt mask T c (partSegs r) ≤
      (if Encloses (partSegs r) (pointAt mask T (c - w)).1 (pointAt mask T (c - w)).2 then 1 else 0) +
      (if Encloses (partSegs r) (pointAt mask T (c + w)).1 (pointAt mask T (c + w)).2 then 1 else 0) := by
    intro r hr
    have h1 := honce r hr
    have h2 : ((partSegs r).countP fun s => AlongCrosses mask T (c - w) s) =
        ((partSegs r).countP fun s => AlongCrosses mask T (c + w) s) + timesAt mask T c (partSegs r) := by
      unfold timesAt
      rw [← sum_two]
      have hw := hw r hr
      generalize partSegs r = l at hw
      clear h1
      induction l with
      | nil => rfl
      | cons s l ih =>
        rw [List.countP_cons, List.map_cons, List.sum_cons, ih fun a ha => hw a (List.mem_cons_of_mem _ ha)]
        have : (if AlongCrosses mask T (c - w) s then 1 else 0) =
            (if AlongCrosses mask T (c + w) s then 1 else 0) + (if Spans mask T s ∧ spanAt mask T s = c then 1 else 0) := by
          unfold AlongCrosses
          by_cases hp : Spans mask T s
          · simp only [hp, true_and]
            rcases hw s (by simp) with h | h
            · rw [if_pos (by linarith), if_neg (by linarith), if_pos h]
            · have hne : spanAt mask T s ≠ c := by rintro h'; rw [h'] at h; simp at h; linarith
              rw [if_neg hne]
              rcases lt_or_gt_of_ne hne with h' | h'
              · rw [abs_of_neg (by linarith)] at h
                rw [if_neg (by linarith), if_neg (by linarith)]
              · rw [abs_of_pos (by linarith)] at h
                rw [if_pos (by linarith), if_pos (by linarith)]
          · simp [hp]
        simp only [decide_eq_true_eq]
        omega
    simp only [he1 r hr, he2 r hr, Nat.odd_iff]
    rw [h2]
    split <;> split <;> omega
  have key : ∀ rs : List (List (List (List Point))), (∀ r ∈ rs, r ∈ regs) →
      (rs.map fun r => timesAt mask T c (partSegs r)).sum ≤
      (rs.countP fun r => Encloses (partSegs r) (pointAt mask T (c - w)).1 (pointAt mask T (c - w)).2) +
      (rs.countP fun r => Encloses (partSegs r) (pointAt mask T (c + w)).1 (pointAt mask T (c + w)).2) := by
    intro rs
    induction rs with
    | nil => intro _; simp
    | cons r rs ih =>
      intro h
      have h1 := ih fun a ha => h a (List.mem_cons_of_mem _ ha)
      have h2 := hr r (h r (by simp))
      rw [List.map_cons, List.sum_cons, List.countP_cons, List.countP_cons]
      simp only [decide_eq_true_eq]
      omega
  have := key regs fun _ h => h
  omega

theorem spanAt_swap {mask : ClipMask} {T : ℚ} {s : Point × Point} (hm : (tested mask s.1 : ℚ) ≠ tested mask s.2) :
    spanAt mask T s.swap = spanAt mask T s := by
  have h0 : (tested mask s.2 - tested mask s.1 : ℚ) ≠ 0 := fun h0 => hm (sub_eq_zero.mp h0).symm
  simp only [spanAt, Prod.fst_swap, Prod.snd_swap]
  rw [← sub_eq_zero]
  have h2 : (tested mask s.1 - tested mask s.2 : ℚ) = -(tested mask s.2 - tested mask s.1) := by ring
  rw [h2]
  field_simp
  ring

/-- A border that does not run along itself has a place at most once. -/
theorem timesAt_le_one {mask : ClipMask} {T : ℚ} {s : Point × Point} {l : List (Point × Point)}
    (honce : l.Pairwise fun s s' => ¬ RunsAlong s s')
    (hclear : ∀ s' ∈ l, Between mask T s' ∧ (spanAt mask T s' = spanAt mask T s → OneLine mask s' s)) :
    timesAt mask T (spanAt mask T s) l ≤ 1 := by
  refine countP_le_one_of_pairwise honce ?_
  intro a ha b hb hPa hPb hn
  simp only [decide_eq_true_eq] at hPa hPb
  obtain ⟨h1, h2⟩ := hclear a ha
  obtain ⟨h3, h4⟩ := hclear b hb
  exact hn (runsAlong_of_line (fun U => (h2 hPa.2 U).trans (h4 hPb.2 U).symm) hPa.1 hPb.1 h1 h3)

/-- If regions do not overlap and no border runs along itself, then no segment is
part of more than two borders, and of none twice. -/
theorem segment_le_two {regs : List (List (List (List Point)))} (hc : ∀ rings ∈ regs, ∀ paths ∈ rings, ClosedRing paths)
    (hno : ∀ x y, regs.countP (fun rings => Encloses (partSegs rings) x y) ≤ 1)
    (honce : ∀ rings ∈ regs, (partSegs rings).Pairwise fun s s' => ¬ RunsAlong s s') {p q : Point} (hpq : p ≠ q) :
    (regs.flatMap partSegs).countP (fun s => s = (p, q) ∨ s = (q, p)) ≤ 2 ∧
    ∀ rings ∈ regs, (partSegs rings).countP (fun s => s = (p, q) ∨ s = (q, p)) ≤ 1 := by
  obtain ⟨mask, hm⟩ : ∃ mask : ClipMask, (tested mask p : ℚ) ≠ tested mask q := by
    by_cases hx : p.x = q.x
    · refine ⟨.minY 0, fun h => hpq ?_⟩
      simp only [tested] at h
      have : p.y = q.y := UInt32.toNat_inj.mp (by exact_mod_cast h)
      cases p; cases q; simp_all
    · refine ⟨.minX 0, fun h => hx ?_⟩
      simp only [tested] at h
      exact UInt32.toNat_inj.mp (by exact_mod_cast h)
  obtain ⟨T, hT, hclear0⟩ := exists_clear mask (p, q) hm (regs.flatMap partSegs)
  have hclear := fun r (hr : r ∈ regs) s (hs : s ∈ partSegs r) => hclear0 s (List.mem_flatMap.mpr ⟨r, hr, hs⟩)
  have hline : ∀ r ∈ regs, timesAt mask T (spanAt mask T (p, q)) (partSegs r) ≤ 1 :=
    fun r hr => timesAt_le_one (honce r hr) (hclear r hr)
  have hsum := place_le_two hc hno mask T _ hline
  have hswap : Spans mask T (q, p) ∧ spanAt mask T (q, p) = spanAt mask T (p, q) := ⟨Or.symm hT, spanAt_swap (s := (p, q)) hm⟩
  have hle : ∀ r, (partSegs r).countP (fun s => s = (p, q) ∨ s = (q, p)) ≤
      timesAt mask T (spanAt mask T (p, q)) (partSegs r) := by
    intro r
    refine List.countP_mono_left fun s _ hs => ?_
    simp only [decide_eq_true_eq] at hs ⊢
    rcases hs with rfl | rfl
    · exact ⟨hT, rfl⟩
    · exact hswap
  refine ⟨?_, fun r hr => (hle r).trans (hline r hr)⟩
  refine le_trans ?_ hsum
  clear hsum hline hclear hclear0 honce hno hc
  induction regs with
  | nil => simp
  | cons r regs ih =>
    rw [List.flatMap_cons, List.countP_append, List.map_cons, List.sum_cons]
    exact Nat.add_le_add (hle r) ih

end TopoGeo
