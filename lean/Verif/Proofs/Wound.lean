import Verif.Spec.Wound
import Verif.Proofs.BuildSafe
/-!
# The side of a segment that a ring winds around
-/

namespace TopoGeo
open Spec

/-! ## Turning a ray, with signs -/

theorem passing_turned {px py qx qy x y : ℚ}
    (hne : ((px ≤ x ∧ x < qx) ∨ (qx ≤ x ∧ x < px)) → py + (x - px) * (qy - py) / (qx - px) ≠ y) :
    ((if (py ≤ y ∧ y < qy) ∧ x < px + (y - py) * (qx - px) / (qy - py) then (1 : Int) else 0) -
      (if (qy ≤ y ∧ y < py) ∧ x < px + (y - py) * (qx - px) / (qy - py) then 1 else 0)) +
    ((if (px ≤ x ∧ x < qx) ∧ y < py + (x - px) * (qy - py) / (qx - px) then 1 else 0) -
      (if (qx ≤ x ∧ x < px) ∧ y < py + (x - px) * (qy - py) / (qx - px) then 1 else 0)) =
    (if x < qx ∧ y < qy then 1 else 0) - (if x < px ∧ y < py then 1 else 0) := by
  have ne' : ((px ≤ x ∧ x < qx) ∨ (qx ≤ x ∧ x < px)) → (x - px) * (qy - py) ≠ (y - py) * (qx - px) := by
    intro h h'
    have hd : qx - px ≠ 0 := by rcases h with h | h <;> intro h0 <;> linarith [h.1, h.2]
    refine hne h ?_
    rw [h', mul_div_assoc, div_self hd]
    ring
  have p1 : py < qy → (x < px + (y - py) * (qx - px) / (qy - py) ↔ (x - px) * (qy - py) < (y - py) * (qx - px)) :=
    fun h => lt_add_div_pos (by linarith)
  have p2 : qy < py → (x < px + (y - py) * (qx - px) / (qy - py) ↔ (y - py) * (qx - px) < (x - px) * (qy - py)) :=
    fun h => lt_add_div_neg (by linarith)
  have q1 : px < qx → (y < py + (x - px) * (qy - py) / (qx - px) ↔ (y - py) * (qx - px) < (x - px) * (qy - py)) :=
    fun h => lt_add_div_pos (by linarith)
  have q2 : qx < px → (y < py + (x - px) * (qy - py) / (qx - px) ↔ (x - px) * (qy - py) < (y - py) * (qx - px)) :=
    fun h => lt_add_div_neg (by linarith)
  have hid : (x - px) * (qy - py) - (y - py) * (qx - px) = (x - px) * (qy - y) - (qx - x) * (y - py) := by ring
  generalize px + (y - py) * (qx - px) / (qy - py) = X at *
  generalize py + (x - px) * (qy - py) / (qx - px) = Y at *
  generalize (x - px) * (qy - py) = u at *
  generalize (y - py) * (qx - px) = w at *
  clear hne
  have e1 := @not_le _ _ px x
  have e2 := @not_le _ _ qx x
  have e3 := @not_le _ _ py y
  have e4 := @not_le _ _ qy y
  simp only [← e1, ← e2, ← e3, ← e4] at ne' ⊢
  by_cases h1 : px ≤ x <;> by_cases h2 : qx ≤ x <;> by_cases h3 : py ≤ y <;> by_cases h4 : qy ≤ y <;>
    simp only [h1, h2, h3, h4, not_true_eq_false, not_false_eq_true, true_and, and_true, false_and, and_false, or_false, false_or,
      or_self, if_true, if_false, forall_const] at ne' ⊢ <;> (try simp only [not_le] at h1 h2 h3 h4)
  all_goals try omega
  · rw [if_neg fun h => by have := (p1 (by linarith)).mp h; nlinarith]; omega
  · rw [if_neg fun h => by have := (p2 (by linarith)).mp h; nlinarith]; omega
  · rw [if_neg fun h => by have := (q1 (by linarith)).mp h; nlinarith]; omega
  · simp only [p1 (h3.trans_lt h4), q1 (h1.trans_lt h2)]
    rcases lt_or_gt_of_ne ne' with h | h <;> simp [h, h.not_gt]
  · simp only [p2 (h4.trans_lt h3), q1 (h1.trans_lt h2)]
    split <;> omega
  · rw [if_pos ((q1 (by linarith)).mpr (by nlinarith [mul_pos (sub_pos.mpr h2) (sub_pos.mpr h3)]))]; omega
  · rw [if_neg fun h => by have := (q2 (by linarith)).mp h; nlinarith]; omega
  · simp only [p1 (h3.trans_lt h4), q2 (h2.trans_lt h1)]
    split <;> omega
  · simp only [p2 (h4.trans_lt h3), q2 (h2.trans_lt h1)]
    rcases lt_or_gt_of_ne ne' with h | h <;> simp [h, h.not_gt]
  · rw [if_pos ((q2 (by linarith)).mpr (by nlinarith [mul_pos (sub_pos.mpr h1) (sub_pos.mpr h4)]))]; omega
  · rw [if_pos ((p1 (by linarith)).mpr (by nlinarith [mul_pos (sub_pos.mpr h1) (sub_pos.mpr h4)]))]; omega
  · rw [if_pos ((p2 (by linarith)).mpr (by nlinarith [mul_pos (sub_pos.mpr h2) (sub_pos.mpr h3)]))]; omega

/-- How the segment passes the ray from `z` on, at `T`. -/
def alongPassing (mask : ClipMask) (T z : ℚ) (s : Point × Point) : Int :=
  (if ((tested mask s.1 : ℚ) ≤ T ∧ T < tested mask s.2) ∧ z < spanAt mask T s then 1 else 0) -
  (if ((tested mask s.2 : ℚ) ≤ T ∧ T < tested mask s.1) ∧ z < spanAt mask T s then 1 else 0)

/-- The sense in which rings wind when the axes are exchanged. -/
def sense : ClipMask → Int
  | .minX _ | .maxX _ => -1
  | .minY _ | .maxY _ => 1

theorem sum_differences (g : Point → Int) {l : List (Point × Point)} (h : Balanced l) :
    (l.map fun s => g s.2 - g s.1).sum = 0 := by
  have hp : (l.map (·.1)).Perm (l.map (·.2)) := by
    rw [List.perm_iff_count]
    intro p
    have := h p
    simp only [List.count, List.countP_map]
    simpa [Function.comp_def, beq_eq_decide] using this
  have h1 : (l.map fun s => g s.2 - g s.1).sum = ((l.map (·.2)).map g).sum - ((l.map (·.1)).map g).sum := by
    clear h hp
    induction l with
    | nil => rfl
    | cons s l ih => simp only [List.map_cons, List.sum_cons, ih]; omega
  rw [h1, (hp.map g).sum_eq]
  omega

theorem winds_along {mask : ClipMask} {T z : ℚ} {l : List (Point × Point)} (hc : Balanced l)
    (hne : ∀ s ∈ l, Spans mask T s → spanAt mask T s ≠ z) :
    windsAround l (pointAt mask T z).1 (pointAt mask T z).2 = sense mask * (l.map (alongPassing mask T z)).sum := by
  have turned : ∀ c, mask = .minX c ∨ mask = .maxX c →
      (l.map fun s => passing T z s + alongPassing mask T z s).sum = 0 := by
    intro c hm
    rw [← sum_differences (fun a => if T < (a.xi : ℚ) ∧ z < (a.yi : ℚ) then 1 else 0) hc]
    congr 1
    refine List.map_congr_left fun s hs => ?_
    have hs' := hne s hs
    rcases hm with rfl | rfl
    · exact passing_turned hs'
    · exact passing_turned hs'
  have split : ∀ (l : List (Point × Point)) (f g : Point × Point → Int),
      (l.map fun s => f s + g s).sum = (l.map f).sum + (l.map g).sum := by
    intro l f g
    induction l with
    | nil => rfl
    | cons s l ih => simp only [List.map_cons, List.sum_cons, ih]; omega
  cases mask with
  | minX c =>
    have := turned c (.inl rfl)
    rw [split] at this
    show (l.map (passing T z)).sum = -1 * _
    omega
  | maxX c =>
    have := turned c (.inr rfl)
    rw [split] at this
    show (l.map (passing T z)).sum = -1 * _
    omega
  | minY c =>
    show (l.map (passing z T)).sum = 1 * _
    rw [one_mul]
    rfl
  | maxY c =>
    show (l.map (passing z T)).sum = 1 * _
    rw [one_mul]
    rfl

/-- The direction of a segment. -/
def direction (mask : ClipMask) (T : ℚ) (s : Point × Point) : Int :=
  (if (tested mask s.1 : ℚ) ≤ T ∧ T < tested mask s.2 then 1 else 0) -
  (if (tested mask s.2 : ℚ) ≤ T ∧ T < tested mask s.1 then 1 else 0)

theorem direction_cases {mask : ClipMask} {T : ℚ} {s : Point × Point} (h : Spans mask T s) :
    direction mask T s = 1 ∨ direction mask T s = -1 := by
  unfold direction
  rcases h with h | h
  · rw [if_pos h, if_neg fun h' => by linarith [h.1, h.2, h'.1, h'.2]]; exact .inl rfl
  · rw [if_neg fun h' => by linarith [h.1, h.2, h'.1, h'.2], if_pos h]; exact .inr rfl

theorem sum_of_once {α : Type} {P : α → Prop} [DecidablePred P] (f : α → Int) {l : List α} {a : α} (ha : a ∈ l) (hP : P a)
    (h : l.countP (fun x => P x) ≤ 1) : (l.map fun x => if P x then f x else 0).sum = f a := by
  induction l with
  | nil => simp at ha
  | cons b l ih =>
    rw [List.countP_cons] at h
    rw [List.map_cons, List.sum_cons]
    by_cases hb : P b
    · have h0 : l.countP (fun x => P x) = 0 := by simp only [hb, decide_true, if_true] at h; omega
      rw [List.countP_eq_zero] at h0
      have hz : (l.map fun x => if P x then f x else 0).sum = 0 := by
        rw [List.map_congr_left (g := fun _ => 0) fun x hx => by rw [if_neg (by simpa using h0 x hx)]]
        simp
      rw [hz, if_pos hb]
      rcases List.mem_cons.mp ha with rfl | ha
      · omega
      · exact absurd (by simpa using hP) (h0 a ha)
    · rw [if_neg hb]
      rcases List.mem_cons.mp ha with rfl | ha
      · exact absurd hP hb
      · rw [ih ha (by simpa [hb] using h)]
        omega

/-- Where parts wind around each point at most once and no part has the place
twice, no segment is there twice in the same direction. -/
theorem walked_le_one {parts : List (List (Point × Point))} (hw : WoundApart parts) {p q : Point} (hpq : p ≠ q) :
    parts.flatten.countP (fun s => s = (p, q)) ≤ 1 := by
  obtain ⟨mask, hm⟩ : ∃ mask : ClipMask, (tested mask p : ℚ) ≠ tested mask q := by
    by_cases hx : p.x = q.x
    · refine ⟨.minY 0, fun h => hpq ?_⟩
      simp only [tested] at h
      have : p.y = q.y := UInt32.toNat_inj.mp (by exact_mod_cast h)
      cases p; cases q; simp_all
    · refine ⟨.minX 0, fun h => hx ?_⟩
      simp only [tested] at h
      exact UInt32.toNat_inj.mp (by exact_mod_cast h)
  obtain ⟨T, hT, hclear⟩ := exists_clear mask (p, q) hm parts.flatten
  have hclear := fun r (hr : r ∈ parts) s (hs : s ∈ r) => hclear s (List.mem_flatten.mpr ⟨r, hr, hs⟩)
  generalize hcz : spanAt mask T (p, q) = c at hclear
  have hline : ∀ r ∈ parts, timesAt mask T c r ≤ 1 := by
    intro r hr
    refine countP_le_one_of_pairwise (hw.once r hr) ?_
    intro a ha b hb hPa hPb hn
    simp only [decide_eq_true_eq] at hPa hPb
    obtain ⟨h1, h2⟩ := hclear r hr a ha
    obtain ⟨h3, h4⟩ := hclear r hr b hb
    exact hn (runsAlong_of_line (fun U => (h2 hPa.2 U).trans (h4 hPb.2 U).symm) hPa.1 hPb.1 h1 h3)
  obtain ⟨w, w0, hsmall⟩ := exists_small parts.flatten
    (fun d s => spanAt mask T s = c ∨ d < |spanAt mask T s - c|) (by
      intro s hs
      by_cases h : spanAt mask T s = c
      · exact ⟨1, one_pos, fun _ _ _ => .inl h⟩
      · have : 0 < |spanAt mask T s - c| := abs_pos.mpr (sub_ne_zero.mpr h)
        exact ⟨|spanAt mask T s - c| / 2, by positivity, fun d _ hd => .inr (by linarith)⟩)
  have hsmall := fun r (hr : r ∈ parts) s (hs : s ∈ r) => hsmall w w0 le_rfl s (List.mem_flatten.mpr ⟨r, hr, hs⟩)
  have he1 := fun r hr => winds_along (mask := mask) (T := T) (z := c - w) (hw.closed r hr) (by
      intro s hs _ h
      rcases hsmall r hr s hs with h' | h'
      · linarith
      · rw [h, show c - w - c = -w by ring, abs_neg, abs_of_pos w0] at h'; linarith)
  have he2 := fun r hr => winds_along (mask := mask) (T := T) (z := c + w) (hw.closed r hr) (by
      intro s hs _ h
      rcases hsmall r hr s hs with h' | h'
      · linarith
      · rw [h, show c + w - c = w by ring, abs_of_pos w0] at h'; linarith)
  have hjump : ∀ r ∈ parts, (r.map (alongPassing mask T (c - w))).sum = (r.map (alongPassing mask T (c + w))).sum +
      (r.map fun s => if Spans mask T s ∧ spanAt mask T s = c then direction mask T s else 0).sum := by
    intro r hr
    have hs := hsmall r hr
    clear he1 he2
    clear hr
    induction r with
    | nil => rfl
    | cons s l ih =>
      have ih := ih fun s' hs' => hs s' (List.mem_cons_of_mem _ hs')
      have h1 : alongPassing mask T (c - w) s = alongPassing mask T (c + w) s +
          (if Spans mask T s ∧ spanAt mask T s = c then direction mask T s else 0) := by
        unfold alongPassing direction
        rcases hs s List.mem_cons_self with h | h
        · have e1 : c - w < c := by linarith
          have e2 : ¬ c + w < c := by linarith
          rw [h]
          unfold Spans
          by_cases hA : (tested mask s.1 : ℚ) ≤ T ∧ T < tested mask s.2 <;>
            by_cases hB : (tested mask s.2 : ℚ) ≤ T ∧ T < tested mask s.1 <;> simp [hA, hB, e1, e2]
        · have e0 : spanAt mask T s ≠ c := by
            intro h0
            rw [h0, sub_self, abs_zero] at h
            linarith
          have e1 : c - w < spanAt mask T s ↔ c + w < spanAt mask T s := by
            constructor
            · intro h'
              by_contra hcon
              have : |spanAt mask T s - c| ≤ w := abs_le.mpr ⟨by linarith, by linarith⟩
              linarith
            · intro h'
              linarith
          simp only [e0, and_false, if_false, e1]
          omega
      simp only [List.map_cons, List.sum_cons, h1, ih]
      omega
  have hsense : sense mask = 1 ∨ sense mask = -1 := by cases mask <;> simp [sense]
  have hstep : ∀ r ∈ parts, (p, q) ∈ r →
      windsAround r (pointAt mask T (c - w)).1 (pointAt mask T (c - w)).2 =
        windsAround r (pointAt mask T (c + w)).1 (pointAt mask T (c + w)).2 + sense mask * direction mask T (p, q) := by
    intro r hr hm
    rw [he1 r hr, he2 r hr, hjump r hr, sum_of_once (P := fun s => Spans mask T s ∧ spanAt mask T s = c) _ hm ⟨hT, hcz⟩ (hline r hr)]
    exact mul_add ..
  have hdir : sense mask * direction mask T (p, q) = 1 ∨ sense mask * direction mask T (p, q) = -1 := by
    rcases hsense with h | h <;> rcases direction_cases hT with h' | h' <;> rw [h, h'] <;> simp
  have hcount : ∀ r ∈ parts, r.countP (fun s => s = (p, q)) ≤ 1 := by
    intro r hr
    refine le_trans (List.countP_mono_left fun s _ h => ?_) (hline r hr)
    simp only [decide_eq_true_eq] at h ⊢
    subst h
    exact ⟨hT, hcz⟩
  obtain ⟨z, hz⟩ : ∃ z, ∀ r ∈ parts, (r.countP (fun s => s = (p, q)) : Int) ≤
      windsAround r (pointAt mask T z).1 (pointAt mask T z).2 := by
    rcases hdir with h | h
    · refine ⟨c - w, fun r hr => ?_⟩
      have h1 := hw.around r hr
      by_cases hm : (p, q) ∈ r
      · have := hstep r hr hm
        have := h1 (pointAt mask T (c + w)).1 (pointAt mask T (c + w)).2
        have := hcount r hr
        omega
      · rw [List.countP_eq_zero.mpr fun s hs h => hm (by simpa using (of_decide_eq_true h) ▸ hs)]
        exact h1 _ _
    · refine ⟨c + w, fun r hr => ?_⟩
      have h1 := hw.around r hr
      by_cases hm : (p, q) ∈ r
      · have := hstep r hr hm
        have := h1 (pointAt mask T (c - w)).1 (pointAt mask T (c - w)).2
        have := hcount r hr
        omega
      · rw [List.countP_eq_zero.mpr fun s hs h => hm (by simpa using (of_decide_eq_true h) ▸ hs)]
        exact h1 _ _
  have hall := hw.apart (pointAt mask T z).1 (pointAt mask T z).2
  have hsum : ∀ (l : List (List (Point × Point))), (∀ r ∈ l, (r.countP (fun s => s = (p, q)) : Int) ≤
      windsAround r (pointAt mask T z).1 (pointAt mask T z).2) →
      (l.flatten.countP (fun s => s = (p, q)) : Int) ≤ windsAround l.flatten (pointAt mask T z).1 (pointAt mask T z).2 := by
    intro l
    induction l with
    | nil => intro _; simp [windsAround]
    | cons r l ih =>
      intro h
      have h1 := h r List.mem_cons_self
      have h2 := ih fun r' hr' => h r' (List.mem_cons_of_mem _ hr')
      simp only [windsAround, List.flatten_cons, List.countP_append, List.map_append, List.sum_append, Nat.cast_add] at h1 h2 ⊢
      omega
  have := hsum parts hz
  omega

theorem WoundApart.nodup {parts : List (List (Point × Point))} (hw : WoundApart parts) : parts.flatten.Nodup := by
  rw [List.nodup_iff_count_le_one]
  intro s
  by_cases h : s ∈ parts.flatten
  · obtain ⟨r, hr, hs⟩ := List.mem_flatten.mp h
    have := walked_le_one hw (hw.moves r hr s hs)
    simpa [List.count, beq_eq_decide] using this
  · rw [List.count_eq_zero_of_not_mem h]; omega

end TopoGeo
