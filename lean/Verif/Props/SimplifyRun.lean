import Verif.Proofs.SimplifyRun
/-!
# C91: simplifying an edge is a run of eliminations
-/

namespace TopoGeo

open Spec

/-- C91: whatever the heap does, the result is that of a run which takes out one
light point after another, each weighed between the points left beside it, until
only the ends are left or a point as heavy as the threshold was met. The points
left that are light go too. A ring that would be left with fewer than four points
keeps its ends and the two inner points that count most, the earlier of equals. -/
theorem C91_run (m : Build) (ps out : List Point) (s : Nat) (hs : s ≤ u64Max) (h : simplifyEdge m ps s = .ok out) :
    ∃ left gone, Run ps s left gone ∧ Stops ps s left ∧ Eliminated ps s left gone out :=
  let ⟨left, gone, h1, h2, h3, _⟩ := simplifyEdge_eliminated hs h
  ⟨left, gone, h1, h2, h3⟩

/-- C91: there is such a run whose first point is a lightest one, and which takes out
nothing only if there is nothing lighter than the threshold. -/
theorem C91_first (m : Build) (ps out : List Point) (s : Nat) (hs : s ≤ u64Max) (h : simplifyEdge m ps s = .ok out) :
    ∃ left gone, Run ps s left gone ∧ Stops ps s left ∧ Eliminated ps s left gone out ∧
      (gone = [] → ∀ j w, Weighs ps (List.range ps.length) j w → s ≤ w) ∧
      ∀ x, gone.getLast? = some x → ∀ j w, Weighs ps (List.range ps.length) j w → x.2 ≤ w :=
  simplifyEdge_eliminated hs h

/-- C91: the ends stay in every run. -/
theorem C91_ends (ps : List Point) (s : Nat) (left : List Nat) (gone : List (Nat × Nat)) (hn : ps ≠ [])
    (h : Run ps s left gone) : 0 ∈ left ∧ ps.length - 1 ∈ left := by
  have hpos := List.length_pos_iff.mpr hn
  induction h with
  | start => simp only [List.mem_range]; omega
  | step h1 hw _ ih =>
    have := hw.inner
    rw [h1.nodup.mem_erase_iff, h1.nodup.mem_erase_iff]
    exact ⟨⟨by omega, ih.1⟩, by omega, ih.2⟩

/-- C91: points that go later count for no less, none goes twice, and all count
for less than the threshold. -/
theorem C91_later (ps : List Point) (s : Nat) (left : List Nat) (gone : List (Nat × Nat)) (h : Run ps s left gone) :
    gone.Pairwise (fun x y => x.1 ≠ y.1 ∧ y.2 ≤ x.2) ∧ ∀ x ∈ gone, x.2 < s := by
  refine ⟨?_, h.gone_lt⟩
  have hlast : ∀ {gone : List (Nat × Nat)}, gone.Pairwise (fun x y => x.1 ≠ y.1 ∧ y.2 ≤ x.2) →
      ∀ x ∈ gone, x.2 ≤ lastGone gone := by
    intro gone hp x hx
    cases gone with
    | nil => simp at hx
    | cons y gone =>
      obtain ⟨j, w⟩ := y
      rcases List.mem_cons.mp hx with rfl | hx
      · exact Nat.le_refl _
      · exact ((List.pairwise_cons.mp hp).1 x hx).2
  induction h with
  | start => exact .nil
  | step h1 hw _ ih =>
    refine List.pairwise_cons.mpr ⟨fun x hx => ⟨fun heq => ?_, ?_⟩, ih⟩
    · exact h1.gone_not x hx (heq ▸ hw.inner.1)
    · have := hlast ih x hx
      simp only
      omega

theorem nearest_below {left : List Nat} {j : Nat} (d i : Nat) (hi : i ∈ left) (hij : i < j) (hd : j ≤ i + d) :
    ∃ k ∈ left, k < j ∧ ∀ x ∈ left, ¬ (k < x ∧ x < j) := by
  induction d generalizing i with
  | zero => omega
  | succ d ih =>
    by_cases h : ∃ x ∈ left, i < x ∧ x < j
    · obtain ⟨x, h1, h2, h3⟩ := h
      exact ih x h1 h3 (by omega)
    · exact ⟨i, hi, hij, fun x hx hx' => h ⟨x, hx, hx'⟩⟩

theorem nearest_above {left : List Nat} {j : Nat} (d k : Nat) (hk : k ∈ left) (hjk : j < k) (hd : k ≤ j + d) :
    ∃ k ∈ left, j < k ∧ ∀ x ∈ left, ¬ (j < x ∧ x < k) := by
  induction d generalizing k with
  | zero => omega
  | succ d ih =>
    by_cases h : ∃ x ∈ left, j < x ∧ x < k
    · obtain ⟨x, h1, h2, h3⟩ := h
      exact ih x h1 h2 (by omega)
    · exact ⟨k, hk, hjk, fun x hx hx' => h ⟨x, hx, hx'⟩⟩

/-- C91: in a run every inner point counts for exactly one weight. -/
theorem C91_counts (ps : List Point) (s : Nat) (left : List Nat) (gone : List (Nat × Nat)) (h : Run ps s left gone)
    (j : Nat) (h0 : 0 < j) (hj : j + 1 < ps.length) : ∃ w, Counts ps left gone j w ∧ ∀ v, Counts ps left gone j v → v = w := by
  obtain ⟨e1, e2⟩ := C91_ends ps s left gone (by rintro rfl; simp at hj) h
  rcases (h.part j).mp (by omega) with hl | hg
  · obtain ⟨i, i1, i2, i3⟩ := nearest_below (j := j) j 0 e1 h0 (by omega)
    obtain ⟨k, k1, k2, k3⟩ := nearest_above (j := j) ps.length (ps.length - 1) e2 (by omega) (by omega)
    have hk : k < ps.length := (h.part k).mpr (Or.inl k1)
    have hw : Weighs ps left j (weightOf (ps[i]'(by omega)) (ps[j]'(by omega)) ps[k]) :=
      ⟨i, k, _, _, _, ⟨i1, hl, k1, i2, k2, fun x hx => ⟨i3 x hx, k3 x hx⟩⟩, List.getElem?_eq_getElem _,
        List.getElem?_eq_getElem _, List.getElem?_eq_getElem _, rfl⟩
    refine ⟨_, Or.inl hw, fun v hv => ?_⟩
    rcases hv with hv | hv
    · exact hv.unique hw
    · exact absurd hl (h.gone_not _ hv)
  · obtain ⟨x, hx, rfl⟩ := List.mem_map.mp hg
    refine ⟨x.2, Or.inr hx, fun v hv => ?_⟩
    rcases hv with hv | hv
    · exact absurd hv.inner.1 (h.gone_not x hx)
    · have hp := (C91_later ps s left gone h).1
      by_contra hne
      obtain ⟨n, hn, h1⟩ := List.mem_iff_getElem.mp hv
      obtain ⟨k, hk, h2⟩ := List.mem_iff_getElem.mp hx
      rcases Nat.lt_trichotomy n k with h3 | h3 | h3
      · exact (List.pairwise_iff_getElem.mp hp n k hn hk h3).1 (by rw [h1, h2])
      · subst h3
        exact hne (by rw [← h2, h1])
      · exact (List.pairwise_iff_getElem.mp hp k n hk hn h3).1 (by rw [h1, h2])

/-! ## C43: short lines

The five points of `C43_order_refuted` are the fewest for which it is refuted. -/

theorem sorted_ext {a b : List Nat} (ha : a.Pairwise (· < ·)) (hb : b.Pairwise (· < ·)) (h : ∀ j, j ∈ a ↔ j ∈ b) : a = b := by
  refine List.Perm.eq_of_pairwise (le := (· < ·)) ?_ ha hb ?_
  · intro x y _ _ h1 h2
    omega
  · exact (List.perm_ext_iff_of_nodup (ha.imp fun h => Nat.ne_of_lt h) (hb.imp fun h => Nat.ne_of_lt h)).mpr h

/-- What becomes of a line is determined by which points are left and heavy. -/
theorem Spec.Eliminated.line {ps out : List Point} {s : Nat} {left : List Nat} {gone : List (Nat × Nat)}
    (h : Eliminated ps s left gone out) (hr : ps.head? ≠ ps.getLast?) {kept : List Nat} (hp : kept.Pairwise (· < ·))
    (hk : ∀ j, j ∈ kept ↔ j < ps.length ∧ (j = 0 ∨ j + 1 = ps.length ∨ ∃ w, Weighs ps left j w ∧ s ≤ w)) :
    kept.map (ps[·]?) = out.map some := by
  obtain ⟨kept', hp', hk', hh⟩ := h
  rw [sorted_ext hp hp' fun j => (hk j).trans (hk' j).symm]
  rcases hh with ⟨_, hh⟩ | ⟨hh, _⟩
  · exact hh.2
  · exact absurd hh.1 hr

theorem lightestFirst_two (s n : Nat) (a b : Point) : lightestFirst s n [a, b] = [[a, b]] := by
  cases n <;> rfl

theorem lightestFirst_three (s n : Nat) (a b c : Point) : lightestFirst s (n + 1) [a, b, c] =
    if weightOf a b c < s then [[a, c]] else [[a, b, c]] := by
  simp [lightestFirst, removals, lightestFirst_two]

theorem mem_lightestFirst_four (s n : Nat) (a b c d : Point) (out : List Point) :
    (s ≤ weightOf a b c → s ≤ weightOf b c d → out = [a, b, c, d] → out ∈ lightestFirst s (n + 1) [a, b, c, d]) ∧
    (weightOf a b c < s → weightOf a b c ≤ weightOf b c d → out ∈ lightestFirst s n [a, c, d] →
      out ∈ lightestFirst s (n + 1) [a, b, c, d]) ∧
    (weightOf b c d < s → weightOf b c d ≤ weightOf a b c → out ∈ lightestFirst s n [a, b, d] →
      out ∈ lightestFirst s (n + 1) [a, b, c, d]) := by
  have e : ∀ w, w = min (weightOf a b c) (weightOf b c d) → lightestFirst s (n + 1) [a, b, c, d] =
      if w < s then ([(weightOf a b c, [a, c, d]), (weightOf b c d, [a, b, d])].filter (·.1 = w)).flatMap
        (fun x => lightestFirst s n x.2) else [[a, b, c, d]] := by
    rintro w rfl
    simp [lightestFirst, removals, List.min?]
  refine ⟨fun h1 h2 h3 => ?_, fun h1 h2 h3 => ?_, fun h1 h2 h3 => ?_⟩
  · rw [e _ rfl, if_neg (by omega), h3]
    exact List.mem_singleton_self _
  · rw [e (weightOf a b c) (by omega), if_pos h1, List.mem_flatMap]
    exact ⟨_, List.mem_filter.mpr ⟨List.mem_cons_self, by simp⟩, h3⟩
  · rw [e (weightOf b c d) (by omega), if_pos h1, List.mem_flatMap]
    exact ⟨_, List.mem_filter.mpr ⟨List.mem_cons_of_mem _ List.mem_cons_self, by simp⟩, h3⟩

/-- Who goes on from where. -/
theorem Spec.Run.last {ps : List Point} {s : Nat} {left : List Nat} {gone : List (Nat × Nat)} (h : Run ps s left gone) :
    (left = List.range ps.length ∧ gone = []) ∨ ∃ left' gone' j w, Run ps s left' gone' ∧ Weighs ps left' j w ∧ w < s ∧
      left = left'.erase j ∧ gone = (j, max w (lastGone gone')) :: gone' := by
  cases h with
  | start => exact .inl ⟨rfl, rfl⟩
  | step h1 h2 h3 => exact .inr ⟨_, _, _, _, h1, h2, h3, rfl, rfl⟩

/-- C43: a line of at most four points becomes what taking out lightest points first
makes of it (with the weights of the code). -/
theorem C43_short_partial (m : Build) (ps out : List Point) (s : Nat) (hs : s ≤ u64Max) (hn : ps.length ≤ 4)
    (hr : ps.head? ≠ ps.getLast?) (h : simplifyEdge m ps s = .ok out) : out ∈ lightestFirst s ps.length ps := by
  obtain ⟨left, gone, hrun, hstop, he, h0, h1⟩ := C91_first m ps out s hs h
  have hinj : ∀ {l : List Point}, l.map some = out.map some → out = l := fun h =>
    (List.map_injective_iff.mpr (Option.some_injective _) h).symm
  match ps, hn, hr with
  | [], _, hr => exact absurd rfl hr
  | [a], _, hr => exact absurd rfl hr
  | [a, b], _, hr =>
    have : out = [a, b] := hinj (he.line hr (kept := [0, 1]) (by decide) fun j => by
      constructor
      · intro hj
        simp only [List.mem_cons, List.not_mem_nil, or_false] at hj
        rcases hj with rfl | rfl <;> simp
      · rintro ⟨hj, _⟩
        simp only [List.length_cons, List.length_nil] at hj
        simp only [List.mem_cons, List.not_mem_nil]
        omega)
    rw [lightestFirst_two, this]
    exact List.mem_singleton_self _
  | [a, b, c], _, hr =>
    have hw : Weighs [a, b, c] [0, 1, 2] 1 (weightOf a b c) :=
      ⟨0, 2, a, b, c, by unfold Nearest; decide, rfl, rfl, rfl, rfl⟩
    have hone : ∀ {left : List Nat} {j w : Nat}, Weighs [a, b, c] left j w → j = 1 ∧ j ∈ left := fun hw => by
      have := hw.inner
      simp only [List.length_cons, List.length_nil] at this
      exact ⟨by omega, this.1⟩
    show out ∈ lightestFirst s (2 + 1) _
    rw [lightestFirst_three]
    rcases hrun.last with ⟨rfl, rfl⟩ | ⟨left', gone', j, w, r1, r2, r3, rfl, rfl⟩
    · have hge := h0 rfl 1 _ hw
      rw [if_neg (by omega)]
      have : out = [a, b, c] := hinj (he.line hr (kept := [0, 1, 2]) (by decide) fun j => by
        constructor
        · intro hj
          simp only [List.mem_cons, List.not_mem_nil, or_false] at hj
          rcases hj with rfl | rfl | rfl
          · simp
          · exact ⟨by simp, .inr (.inr ⟨_, hw, hge⟩)⟩
          · simp
        · rintro ⟨hj, _⟩
          simp only [List.length_cons, List.length_nil] at hj
          simp only [List.mem_cons, List.not_mem_nil]
          omega)
      rw [this]
      exact List.mem_singleton_self _
    · rcases r1.last with ⟨rfl, rfl⟩ | ⟨left2, gone2, j2, w2, q1, q2, q3, rfl, rfl⟩
      · obtain ⟨rfl, _⟩ := hone r2
        rw [r2.unique hw] at r3
        rw [if_pos r3]
        have : out = [a, c] := hinj (he.line hr (kept := [0, 2]) (by decide) fun j => by
          constructor
          · intro hj
            simp only [List.mem_cons, List.not_mem_nil, or_false] at hj
            rcases hj with rfl | rfl <;> simp
          · rintro ⟨hj, hj'⟩
            simp only [List.length_cons, List.length_nil] at hj hj'
            simp only [List.mem_cons, List.not_mem_nil]
            rcases hj' with hj' | hj' | ⟨w, hj', _⟩
            · omega
            · omega
            · obtain ⟨rfl, hm⟩ := hone hj'
              exact absurd hm (by decide))
        rw [this]
        exact List.mem_singleton_self _
      · obtain ⟨rfl, _⟩ := hone q2
        obtain ⟨rfl, hm⟩ := hone r2
        exact absurd hm (by rw [q1.nodup.mem_erase_iff]; simp)
  | _ :: _ :: _ :: _ :: _ :: _, hn, _ => simp only [List.length_cons] at hn; omega
  | [a, b, c, d], _, hr =>
    have hw1 : Weighs [a, b, c, d] [0, 1, 2, 3] 1 (weightOf a b c) :=
      ⟨0, 2, a, b, c, by unfold Nearest; decide, rfl, rfl, rfl, rfl⟩
    have hw2 : Weighs [a, b, c, d] [0, 1, 2, 3] 2 (weightOf b c d) :=
      ⟨1, 3, b, c, d, by unfold Nearest; decide, rfl, rfl, rfl, rfl⟩
    have hv1 : Weighs [a, b, c, d] [0, 1, 3] 1 (weightOf a b d) :=
      ⟨0, 3, a, b, d, by unfold Nearest; decide, rfl, rfl, rfl, rfl⟩
    have hv2 : Weighs [a, b, c, d] [0, 2, 3] 2 (weightOf a c d) :=
      ⟨0, 3, a, c, d, by unfold Nearest; decide, rfl, rfl, rfl, rfl⟩
    have htwo : ∀ {left : List Nat} {j w : Nat}, Weighs [a, b, c, d] left j w → (j = 1 ∨ j = 2) ∧ j ∈ left := fun hw => by
      have := hw.inner
      simp only [List.length_cons, List.length_nil] at this
      exact ⟨by omega, this.1⟩
    obtain ⟨m0, m1, m2⟩ := mem_lightestFirst_four s 3 a b c d out
    -- a single inner point is left
    have htail : ∀ (j k : Nat) (b' : Point) (left : List Nat) (gone : List (Nat × Nat)), [a, b, c, d][k]? = some b' →
        ((j = 1 ∧ k = 2) ∨ (j = 2 ∧ k = 1)) → Weighs [a, b, c, d] [0, k, 3] k (weightOf a b' d) →
        (left = [0, k, 3] ∨ (weightOf a b' d < s ∧ left = [0, 3])) → Stops [a, b, c, d] s left →
        Eliminated [a, b, c, d] s left gone out → out ∈ lightestFirst s 3 [a, b', d] := by
      intro j k b' left gone hb' hjk hwk hleft hstop he
      show out ∈ lightestFirst s (2 + 1) _
      rw [lightestFirst_three]
      rcases hleft with rfl | ⟨hlt, rfl⟩
      · have hge : s ≤ weightOf a b' d := by
          rcases hstop with hst | ⟨x, w, hx, hle⟩
          · have := hst k (by simp)
            simp only [List.length_cons, List.length_nil] at this
            omega
          · obtain ⟨hx1, hx2⟩ := htwo hx
            have : x = k := by
              simp only [List.mem_cons, List.not_mem_nil, or_false] at hx2
              omega
            subst this
            rw [hx.unique hwk] at hle
            exact hle
        rw [if_neg (by omega)]
        have hl := he.line hr (kept := [0, k, 3]) (by
          rcases hjk with ⟨_, rfl⟩ | ⟨_, rfl⟩ <;> decide) fun x => by
            constructor
            · intro hx
              simp only [List.mem_cons, List.not_mem_nil, or_false] at hx
              rcases hx with rfl | rfl | rfl
              · simp
              · exact ⟨by simp; omega, .inr (.inr ⟨_, hwk, hge⟩)⟩
              · simp
            · rintro ⟨hx, hx'⟩
              simp only [List.length_cons, List.length_nil] at hx hx'
              simp only [List.mem_cons, List.not_mem_nil, or_false]
              rcases hx' with hx' | hx' | ⟨w, hx', _⟩
              · omega
              · omega
              · have := (htwo hx').2
                simp only [List.mem_cons, List.not_mem_nil, or_false] at this
                omega
        simp only [List.map_cons, List.map_nil, hb'] at hl
        rw [hinj (l := [a, b', d]) hl]
        exact List.mem_singleton_self _
      · rw [if_pos hlt]
        have : out = [a, d] := hinj (he.line hr (kept := [0, 3]) (by decide) fun j => by
          constructor
          · intro hj
            simp only [List.mem_cons, List.not_mem_nil, or_false] at hj
            rcases hj with rfl | rfl <;> simp
          · rintro ⟨hj, hj'⟩
            simp only [List.length_cons, List.length_nil] at hj hj'
            simp only [List.mem_cons, List.not_mem_nil]
            rcases hj' with hj' | hj' | ⟨w, hj', _⟩
            · omega
            · omega
            · have := (htwo hj').2
              simp only [List.mem_cons, List.not_mem_nil, or_false] at this
              omega)
        rw [this]
        exact List.mem_singleton_self _
    -- what is left after the first point went
    have hfirst : ∀ {left' : List Nat} {j w v : Nat} {left : List Nat} {gone : List (Nat × Nat)},
        left' = [0, 1, 2, 3] → Weighs [a, b, c, d] left' j w → w < s → w ≤ weightOf a b c → w ≤ weightOf b c d →
        (left = left'.erase j ∨ ∃ j2 w2, Weighs [a, b, c, d] (left'.erase j) j2 w2 ∧ w2 < s ∧ left = (left'.erase j).erase j2) →
        Stops [a, b, c, d] s left → Eliminated [a, b, c, d] s left gone out → out ∈ lightestFirst s 4 [a, b, c, d] := by
      intro left' j w v left gone hl' hw hlt hm1 hm2 hleft hstop he
      subst hl'
      rcases (htwo hw).1 with rfl | rfl
      · rw [hw.unique hw1] at hlt hm2
        refine m1 hlt hm2 (htail 1 2 c left gone rfl (by omega) hv2 ?_ hstop he)
        rcases hleft with rfl | ⟨j2, w2, q1, q2, rfl⟩
        · exact .inl rfl
        · obtain rfl : j2 = 2 := by
            have := (htwo q1)
            have h3 : j2 ∈ [0, 2, 3] := this.2
            simp only [List.mem_cons, List.not_mem_nil, or_false] at h3
            omega
          rw [q1.unique hv2] at q2
          exact .inr ⟨q2, rfl⟩
      · rw [hw.unique hw2] at hlt hm1
        refine m2 hlt hm1 (htail 2 1 b left gone rfl (by omega) hv1 ?_ hstop he)
        rcases hleft with rfl | ⟨j2, w2, q1, q2, rfl⟩
        · exact .inl rfl
        · obtain rfl : j2 = 1 := by
            have := (htwo q1)
            have h3 : j2 ∈ [0, 1, 3] := this.2
            simp only [List.mem_cons, List.not_mem_nil, or_false] at h3
            omega
          rw [q1.unique hv1] at q2
          exact .inr ⟨q2, rfl⟩
    rcases hrun.last with ⟨rfl, rfl⟩ | ⟨left', gone', j, w, r1, r2, r3, rfl, rfl⟩
    · have hge1 := h0 rfl 1 _ hw1
      have hge2 := h0 rfl 2 _ hw2
      refine m0 hge1 hge2 (hinj (he.line hr (kept := [0, 1, 2, 3]) (by decide) fun j => ?_))
      constructor
      · intro hj
        simp only [List.mem_cons, List.not_mem_nil, or_false] at hj
        rcases hj with rfl | rfl | rfl | rfl
        · simp
        · exact ⟨by simp, .inr (.inr ⟨_, hw1, hge1⟩)⟩
        · exact ⟨by simp, .inr (.inr ⟨_, hw2, hge2⟩)⟩
        · simp
      · rintro ⟨hj, _⟩
        simp only [List.length_cons, List.length_nil] at hj
        simp only [List.mem_cons, List.not_mem_nil]
        omega
    · rcases r1.last with ⟨rfl, rfl⟩ | ⟨left2, gone2, j2, w2, q1, q2, q3, rfl, rfl⟩
      · have hx := h1 _ rfl
        have e1 := hx 1 _ hw1
        have e2 := hx 2 _ hw2
        simp only [lastGone, Nat.max_zero] at e1 e2
        exact hfirst (v := 0) rfl r2 r3 e1 e2 (.inl rfl) hstop he
      · rcases q1.last with ⟨rfl, rfl⟩ | ⟨left3, gone3, j3, w3, p1, p2, p3, rfl, rfl⟩
        · have hx := h1 (j2, max w2 (lastGone [])) rfl
          have e1 := hx 1 _ hw1
          have e2 := hx 2 _ hw2
          simp only [lastGone, Nat.max_zero] at e1 e2
          exact hfirst (v := 0) rfl q2 q3 e1 e2 (.inr ⟨j, w, r2, r3, rfl⟩) hstop he
        · -- three points cannot go
          have n1 := htwo p2
          have n2 := htwo q2
          have n3 := htwo r2
          have k2 := n2.2
          have k3 := n3.2
          rw [p1.nodup.mem_erase_iff] at k2
          rw [(p1.nodup.erase _).mem_erase_iff, p1.nodup.mem_erase_iff] at k3
          omega

-- the four points of which two go
example : simplifyEdge .debug [⟨1, 1⟩, ⟨3, 0⟩, ⟨3, 1⟩, ⟨0, 0⟩] 9 = .ok [⟨1, 1⟩, ⟨0, 0⟩] ∧
    simplifyEdge .debug [⟨1, 1⟩, ⟨3, 0⟩, ⟨3, 1⟩, ⟨0, 0⟩] 3 = .ok [⟨1, 1⟩, ⟨3, 1⟩, ⟨0, 0⟩] := by decide +kernel

-- a point that goes, and the state in which the run stops
example : Run [⟨1, 1⟩, ⟨1, 10⟩, ⟨2, 2⟩] 9 [0, 2] [(1, 8)] :=
  .step (left := [0, 1, 2]) (gone := []) (j := 1) (w := 8) .start
    ⟨0, 2, ⟨1, 1⟩, ⟨1, 10⟩, ⟨2, 2⟩, by unfold Nearest; decide, rfl, rfl, rfl, by decide⟩ (by omega)

example : simplifyEdge .debug [⟨1, 1⟩, ⟨1, 10⟩, ⟨2, 2⟩] 9 = .ok [⟨1, 1⟩, ⟨2, 2⟩] := by decide +kernel

-- the order is not always that of the weights: lightest first, only the ends would be left
example : simplifyEdge .debug [⟨1, 1⟩, ⟨3, 0⟩, ⟨3, 1⟩, ⟨2, 1⟩, ⟨0, 0⟩] 3 = .ok [⟨1, 1⟩, ⟨2, 1⟩, ⟨0, 0⟩] := by decide +kernel

-- a ring whose points all count alike keeps the first two
example : simplifyEdge .debug [⟨0, 0⟩, ⟨0, 1⟩, ⟨0, 2⟩, ⟨0, 3⟩, ⟨0, 0⟩] 1 =
    .ok [⟨0, 0⟩, ⟨0, 1⟩, ⟨0, 2⟩, ⟨0, 0⟩] := by decide +kernel

end TopoGeo
