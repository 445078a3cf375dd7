import Verif.Spec.ClipSafe
import Verif.Proofs.ClipCover
import Verif.Proofs.Cover
/-!
# Points close to the mask line

A point just inside of the mask line is inside of a region if, along the line,
the region passes the line an odd number of times behind it.
-/

namespace TopoGeo
open Spec

/-! ## Small numbers -/

theorem exists_small {α : Type} (l : List α) (P : ℚ → α → Prop)
    (h : ∀ a ∈ l, ∃ e : ℚ, 0 < e ∧ ∀ d, 0 < d → d ≤ e → P d a) :
    ∃ e : ℚ, 0 < e ∧ ∀ d, 0 < d → d ≤ e → ∀ a ∈ l, P d a := by
  induction l with
  | nil => exact ⟨1, one_pos, by simp⟩
  | cons a l ih =>
    obtain ⟨e1, h1, h2⟩ := h a (by simp)
    obtain ⟨e2, h3, h4⟩ := ih fun b hb => h b (List.mem_cons_of_mem _ hb)
    refine ⟨min e1 e2, lt_min h1 h3, fun d hd hle b hb => ?_⟩
    rcases List.mem_cons.mp hb with rfl | hb
    · exact h2 d hd (hle.trans (min_le_left _ _))
    · exact h4 d hd (hle.trans (min_le_right _ _)) b hb

/-! ## Rays along the mask line -/

/-- The line at `T`, parallel to the mask line, has an end on each side. -/
def Spans (mask : ClipMask) (T : ℚ) (s : Point × Point) : Prop :=
  ((tested mask s.1 : ℚ) ≤ T ∧ T < tested mask s.2) ∨ ((tested mask s.2 : ℚ) ≤ T ∧ T < tested mask s.1)

instance (mask : ClipMask) (T : ℚ) (s : Point × Point) : Decidable (Spans mask T s) := by unfold Spans; infer_instance

/-- Where the segment meets that line. -/
def spanAt (mask : ClipMask) (T : ℚ) (s : Point × Point) : ℚ :=
  other mask s.1 + (T - tested mask s.1) * (other mask s.2 - other mask s.1) / (tested mask s.2 - tested mask s.1 : ℚ)

/-- The line that is `d` inside of the mask line. -/
def inward : ClipMask → ℚ → ℚ
  | .minX c, d | .minY c, d => c.toNat + d
  | .maxX c, d | .maxY c, d => c.toNat - d

theorem spans_inward (mask : ClipMask) {d : ℚ} (h0 : 0 < d) (h1 : d < 1) (s : Point × Point) :
    Spans mask (inward mask d) s ↔ PassesLine mask s := by
  have up : ∀ (a c : Nat), (a : ℚ) ≤ c + d ↔ a ≤ c := by
    intro a c
    constructor
    · intro h
      by_contra hlt
      have : (c : ℚ) + 1 ≤ a := by exact_mod_cast (by omega : c + 1 ≤ a)
      linarith
    · intro h
      have : (a : ℚ) ≤ c := by exact_mod_cast h
      linarith
  have down : ∀ (a c : Nat), (a : ℚ) ≤ c - d ↔ a < c := by
    intro a c
    constructor
    · intro h
      by_contra hlt
      have : (c : ℚ) ≤ a := by exact_mod_cast (by omega : c ≤ a)
      linarith
    · intro h
      have : (a : ℚ) + 1 ≤ c := by exact_mod_cast h
      linarith
  unfold Spans PassesLine
  cases mask <;> simp only [tested, inward, depth, Int.cast_natCast] <;> simp only [← not_le, up, down] <;> omega

theorem spanAt_inward (mask : ClipMask) {s : Point × Point} {z : ℚ} (hz : meetsAt mask s ≠ z) :
    ∃ e : ℚ, 0 < e ∧ ∀ d, 0 < d → d ≤ e →
      spanAt mask (inward mask d) s ≠ z ∧ (z < spanAt mask (inward mask d) s ↔ z < meetsAt mask s) := by
  obtain ⟨k, hk⟩ : ∃ k : ℚ, ∀ d, spanAt mask (inward mask d) s = meetsAt mask s + k * d := by
    unfold spanAt meetsAt
    cases mask with
    | minX c =>
      exact ⟨(other (.minX c) s.2 - other (.minX c) s.1) / (tested (.minX c) s.2 - tested (.minX c) s.1 : ℚ), fun d => by
        simp only [inward, bound, Int.cast_natCast]; ring⟩
    | minY c =>
      exact ⟨(other (.minY c) s.2 - other (.minY c) s.1) / (tested (.minY c) s.2 - tested (.minY c) s.1 : ℚ), fun d => by
        simp only [inward, bound, Int.cast_natCast]; ring⟩
    | maxX c =>
      exact ⟨-((other (.maxX c) s.2 - other (.maxX c) s.1) / (tested (.maxX c) s.2 - tested (.maxX c) s.1 : ℚ)), fun d => by
        simp only [inward, bound, Int.cast_natCast]; ring⟩
    | maxY c =>
      exact ⟨-((other (.maxY c) s.2 - other (.maxY c) s.1) / (tested (.maxY c) s.2 - tested (.maxY c) s.1 : ℚ)), fun d => by
        simp only [inward, bound, Int.cast_natCast]; ring⟩
  simp only [hk]
  generalize meetsAt mask s = w at hz ⊢
  have hpos : 0 < |w - z| := abs_pos.mpr (sub_ne_zero.mpr hz)
  have hk0 : 0 < |k| + 1 := by positivity
  refine ⟨|w - z| / (|k| + 1), by positivity, fun d d0 d1 => ?_⟩
  rw [le_div_iff₀ hk0] at d1
  have hkd : |k * d| < |w - z| := by
    rw [abs_mul, abs_of_pos d0]
    nlinarith
  rw [abs_lt] at hkd
  rcases lt_or_gt_of_ne hz with h | h
  · rw [abs_of_neg (by linarith)] at hkd
    exact ⟨by linarith [hkd.2] |> ne_of_lt, by constructor <;> intro <;> linarith [hkd.2]⟩
  · rw [abs_of_pos (by linarith)] at hkd
    refine ⟨?_, by constructor <;> intro <;> linarith [hkd.1]⟩
    intro h'
    linarith [hkd.1]

/-! ## Turning a ray by a quarter -/

theorem lt_add_div_pos {x a n d : ℚ} (hd : 0 < d) : x < a + n / d ↔ (x - a) * d < n := by
  rw [← sub_lt_iff_lt_add', lt_div_iff₀ hd]

theorem lt_add_div_neg {x a n d : ℚ} (hd : d < 0) : x < a + n / d ↔ n < (x - a) * d := by
  rw [← sub_lt_iff_lt_add', lt_div_iff_of_neg hd]

theorem ray_turned {px py qx qy x y : ℚ}
    (hne : ((px ≤ x ∧ x < qx) ∨ (qx ≤ x ∧ x < px)) → py + (x - px) * (qy - py) / (qx - px) ≠ y) :
    ((if ((py ≤ y ∧ y < qy) ∨ (qy ≤ y ∧ y < py)) ∧ x < px + (y - py) * (qx - px) / (qy - py) then 1 else 0) +
      (if ((px ≤ x ∧ x < qx) ∨ (qx ≤ x ∧ x < px)) ∧ y < py + (x - px) * (qy - py) / (qx - px) then 1 else 0)) % 2 =
    ((if x < px ∧ y < py then 1 else 0) + (if x < qx ∧ y < qy then 1 else 0)) % 2 := by
  have ne' : ((px ≤ x ∧ x < qx) ∨ (qx ≤ x ∧ x < px)) → (x - px) * (qy - py) ≠ (y - py) * (qx - px) := by
    intro h h'
    have hd : qx - px ≠ 0 := by rcases h with h | h <;> intro h0 <;> linarith [h.1, h.2]
    refine hne h ?_
    rw [h', mul_div_assoc, div_self hd]
    ring
  have hid : (x - px) * (qy - py) - (y - py) * (qx - px) = (x - px) * (qy - y) - (qx - x) * (y - py) := by ring
  have p1 : py < qy → (x < px + (y - py) * (qx - px) / (qy - py) ↔ (x - px) * (qy - py) < (y - py) * (qx - px)) :=
    fun h => lt_add_div_pos (by linarith)
  have p2 : qy < py → (x < px + (y - py) * (qx - px) / (qy - py) ↔ (y - py) * (qx - px) < (x - px) * (qy - py)) :=
    fun h => lt_add_div_neg (by linarith)
  have q1 : px < qx → (y < py + (x - px) * (qy - py) / (qx - px) ↔ (y - py) * (qx - px) < (x - px) * (qy - py)) :=
    fun h => lt_add_div_pos (by linarith)
  have q2 : qx < px → (y < py + (x - px) * (qy - py) / (qx - px) ↔ (x - px) * (qy - py) < (y - py) * (qx - px)) :=
    fun h => lt_add_div_neg (by linarith)
  generalize px + (y - py) * (qx - px) / (qy - py) = X at *
  generalize py + (x - px) * (qy - py) / (qx - px) = Y at *
  generalize (x - px) * (qy - py) = u at *
  generalize (y - py) * (qx - px) = w at *
  clear hne
  have e1 := @not_le _ _ px x
  have e2 := @not_le _ _ qx x
  have e3 := @not_le _ _ py y
  have e4 := @not_le _ _ qy y
  simp only [← e1, ← e2, ← e3, ← e4] at ne' ⊢
  by_cases h1 : px ≤ x <;> by_cases h2 : qx ≤ x <;> by_cases h3 : py ≤ y <;> by_cases h4 : qy ≤ y <;>
    simp only [h1, h2, h3, h4, not_true_eq_false, not_false_eq_true, true_and, and_true, false_and, and_false, or_false, false_or,
      or_self, if_true, if_false, forall_const] at ne' ⊢ <;> (try simp only [not_le] at h1 h2 h3 h4)
  · rw [if_neg fun h => by have := (p1 (by linarith)).mp h; nlinarith]
  · rw [if_neg fun h => by have := (p2 (by linarith)).mp h; nlinarith]
  · rw [if_neg fun h => by have := (q1 (by linarith)).mp h; nlinarith]
  · simp only [p1 (h3.trans_lt h4), q1 (h1.trans_lt h2)]
    rcases lt_or_gt_of_ne ne' with h | h <;> simp [h, h.not_gt]
  · simp only [p2 (h4.trans_lt h3), q1 (h1.trans_lt h2)]
    split <;> rfl
  · rw [if_pos ((q1 (by linarith)).mpr (by nlinarith [mul_pos (sub_pos.mpr h2) (sub_pos.mpr h3)]))]
  · rw [if_neg fun h => by have := (q2 (by linarith)).mp h; nlinarith]
  · simp only [p1 (h3.trans_lt h4), q2 (h2.trans_lt h1)]
    split <;> rfl
  · simp only [p2 (h4.trans_lt h3), q2 (h2.trans_lt h1)]
    rcases lt_or_gt_of_ne ne' with h | h <;> simp [h, h.not_gt]
  · rw [if_pos ((q2 (by linarith)).mpr (by nlinarith [mul_pos (sub_pos.mpr h1) (sub_pos.mpr h4)]))]
  · rw [if_pos ((p1 (by linarith)).mpr (by nlinarith [mul_pos (sub_pos.mpr h1) (sub_pos.mpr h4)]))]
  · rw [if_pos ((p2 (by linarith)).mpr (by nlinarith [mul_pos (sub_pos.mpr h2) (sub_pos.mpr h3)]))]

/-! ## Around a ring -/

theorem even_around {F : Point × Point → Nat} {g : Point → Nat} {paths : List (List Point)} (hc : ClosedRing paths)
    (hF : ∀ s ∈ paths.flatMap segs, F s % 2 = (g s.1 + g s.2) % 2) : ((paths.flatMap segs).map F).sum % 2 = 0 := by
  have h1 : ∀ (l : List Point) (p q : Point), (∀ s ∈ segs l, F s % 2 = (g s.1 + g s.2) % 2) → l.head? = some p →
      l.getLast? = some q → (((segs l).map F).sum + g p) % 2 = g q % 2 := by
    intro l
    induction l with
    | nil => intro p q _ hp; cases hp
    | cons a l ih =>
      intro p q hF hp hq
      obtain rfl : a = p := by simpa using hp
      cases l with
      | nil =>
        obtain rfl : a = q := by simpa using hq
        simp [segs]
      | cons b l =>
        rw [segs] at hF ⊢
        have := ih b q (fun s hs => hF s (List.mem_cons_of_mem _ hs)) rfl (by simpa using hq)
        have h0 := hF (a, b) (by simp)
        simp only [List.map_cons, List.sum_cons] at h0 ⊢
        omega
  have h2 : ∀ (ps : List (List Point)) (a b : Point), (∀ s ∈ ps.flatMap segs, F s % 2 = (g s.1 + g s.2) % 2) → Leads a ps b →
      (((ps.flatMap segs).map F).sum + g a) % 2 = g b % 2 := by
    intro ps
    induction ps with
    | nil =>
      intro a b _ h
      obtain rfl : a = b := h
      simp
    | cons e ps ih =>
      rintro a b hF ⟨h3, c, h4, h5⟩
      rw [List.flatMap_cons] at hF ⊢
      have h6 := h1 e a c (fun s hs => hF s (List.mem_append_left _ hs)) h3 h4
      have h7 := ih c b (fun s hs => hF s (List.mem_append_right _ hs)) h5
      rw [List.map_append, List.sum_append]
      omega
  obtain ⟨_, a, ha⟩ := hc
  have := h2 _ a a hF ha
  omega

/-- The ray along the mask line from `z` on crosses the segment. -/
def AlongCrosses (mask : ClipMask) (T z : ℚ) (s : Point × Point) : Prop := Spans mask T s ∧ z < spanAt mask T s

instance (mask : ClipMask) (T z : ℚ) (s : Point × Point) : Decidable (AlongCrosses mask T z s) := by
  unfold AlongCrosses; infer_instance

/-- The point at `T` across and `z` along the mask line. -/
def pointAt : ClipMask → ℚ → ℚ → ℚ × ℚ
  | .minX _, T, z | .maxX _, T, z => (T, z)
  | .minY _, T, z | .maxY _, T, z => (z, T)

/-- Whether a point is behind. -/
def behind (x y : ℚ) (a : Point) : Nat := if x < (a.xi : ℚ) ∧ y < (a.yi : ℚ) then 1 else 0

theorem sum_two {α : Type} (l : List α) (P Q : α → Prop) [DecidablePred P] [DecidablePred Q] :
    (l.map fun a => (if P a then 1 else 0) + (if Q a then 1 else 0)).sum = l.countP (fun a => P a) + l.countP (fun a => Q a) := by
  induction l with
  | nil => rfl
  | cons a l ih =>
    rw [List.map_cons, List.sum_cons, ih, List.countP_cons, List.countP_cons]
    simp only [decide_eq_true_eq]
    omega

theorem encloses_along {mask : ClipMask} {T z : ℚ} {rings : List (List (List Point))} (hc : ∀ paths ∈ rings, ClosedRing paths)
    (hne : ∀ s ∈ rings.flatMap fun paths => paths.flatMap segs, Spans mask T s → spanAt mask T s ≠ z) :
    Encloses (rings.flatMap fun paths => paths.flatMap segs) (pointAt mask T z).1 (pointAt mask T z).2 ↔
      Odd ((rings.flatMap fun paths => paths.flatMap segs).countP fun s => AlongCrosses mask T z s) := by
  have turned : ∀ c, mask = .minX c ∨ mask = .maxX c → ((rings.flatMap fun paths => paths.flatMap segs).map fun s =>
      (if RayCrosses T z s then 1 else 0) + (if AlongCrosses mask T z s then 1 else 0)).sum % 2 = 0 := by
    intro c hm
    induction rings with
    | nil => rfl
    | cons paths rings ih =>
      rw [List.flatMap_cons] at hne ⊢
      rw [List.map_append, List.sum_append]
      have h1 := ih (fun p hp => hc p (List.mem_cons_of_mem _ hp)) (fun s hs => hne s (List.mem_append_right _ hs))
      have h2 := even_around (g := behind T z) (hc paths (by simp))
        (F := fun s => (if RayCrosses T z s then 1 else 0) + (if AlongCrosses mask T z s then 1 else 0)) (by
          intro s hs
          have hs' := hne s (List.mem_append_left _ hs)
          rcases hm with rfl | rfl
          · exact ray_turned hs'
          · exact ray_turned hs')
      omega
  have odd_of : ∀ {P : Point × Point → Prop} [DecidablePred P], ((rings.flatMap fun paths => paths.flatMap segs).map fun s =>
      (if RayCrosses T z s then 1 else 0) + (if P s then 1 else 0)).sum % 2 = 0 →
      (Odd ((rings.flatMap fun paths => paths.flatMap segs).countP fun s => RayCrosses T z s) ↔
        Odd ((rings.flatMap fun paths => paths.flatMap segs).countP fun s => P s)) := by
    intro P _ h
    rw [sum_two] at h
    rw [Nat.odd_iff, Nat.odd_iff]
    omega
  cases mask with
  | minX c => exact odd_of (turned c (.inl rfl))
  | maxX c => exact odd_of (turned c (.inr rfl))
  | minY c => exact Iff.rfl
  | maxY c => exact Iff.rfl

theorem within_inward (mask : ClipMask) {d : ℚ} (h : 0 < d) (z : ℚ) :
    Within mask (pointAt mask (inward mask d) z).1 (pointAt mask (inward mask d) z).2 := by
  cases mask <;> simp only [Within, pointAt, inward] <;> linarith

/-! ## How often the regions pass the mask line in a point -/

theorem pathsOf_closed {δ : Type} {t : Topology δ} (h : RingsClosed t) {ring : TopoRing} (hr : ring ∈ allRings t) :
    ClosedRing (pathsOf t ring) := by
  obtain ⟨paths, h1, h2⟩ := h ring hr
  rw [pathsOf_reads h1]
  exact h2

theorem encloses_near {δ : Type} {t : Topology δ} (hclosed : RingsClosed t) (mask : ClipMask) {z : ℚ}
    (hz : ∀ r ∈ t.regions, ∀ s ∈ topoRegionSegs t r, PassesLine mask s → meetsAt mask s ≠ z) :
    ∃ e : ℚ, 0 < e ∧ ∀ d, 0 < d → d ≤ e → ∀ r ∈ t.regions,
      (Encloses (topoRegionSegs t r) (pointAt mask (inward mask d) z).1 (pointAt mask (inward mask d) z).2 ↔
        Odd ((topoRegionSegs t r).countP fun s => PassesLine mask s ∧ z < meetsAt mask s)) := by
  obtain ⟨e, e0, he⟩ := exists_small (t.regions.flatMap (topoRegionSegs t))
    (fun d s => PassesLine mask s → spanAt mask (inward mask d) s ≠ z ∧ (z < spanAt mask (inward mask d) s ↔ z < meetsAt mask s)) (by
      intro s hs
      obtain ⟨r, hr, hs⟩ := List.mem_flatMap.mp hs
      by_cases hp : PassesLine mask s
      · obtain ⟨e, e0, he⟩ := spanAt_inward mask (hz r hr s hs hp)
        exact ⟨e, e0, fun d d0 d1 _ => he d d0 d1⟩
      · exact ⟨1, one_pos, fun _ _ _ h => absurd h hp⟩)
  refine ⟨min e (1 / 2), lt_min e0 (by norm_num), fun d d0 d1 r hr => ?_⟩
  have hd1 : d < 1 := lt_of_le_of_lt (d1.trans (min_le_right _ _)) (by norm_num)
  have he' := fun s (hs : s ∈ topoRegionSegs t r) => he d d0 (d1.trans (min_le_left _ _)) s (List.mem_flatMap.mpr ⟨r, hr, hs⟩)
  have heq : topoRegionSegs t r = ((r.outerRings ++ r.innerRings).map (pathsOf t)).flatMap fun paths => paths.flatMap segs := by
    rw [List.flatMap_map]; rfl
  have h := encloses_along (mask := mask) (T := inward mask d) (z := z)
    (rings := (r.outerRings ++ r.innerRings).map (pathsOf t)) (by
      intro paths hp
      obtain ⟨ring, hring, rfl⟩ := List.mem_map.mp hp
      exact pathsOf_closed hclosed (List.mem_flatMap.mpr ⟨r, hr, hring⟩))
    (by
      rw [← heq]
      intro s hs hsp
      exact (he' s hs ((spans_inward mask d0 hd1 s).mp hsp)).1)
  rw [← heq] at h
  rw [h]
  have : ((topoRegionSegs t r).countP fun s => AlongCrosses mask (inward mask d) z s) =
      (topoRegionSegs t r).countP fun s => PassesLine mask s ∧ z < meetsAt mask s := by
    refine List.countP_congr fun s hs => ?_
    simp only [decide_eq_true_eq, AlongCrosses, spans_inward mask d0 hd1 s]
    constructor
    · rintro ⟨h1, h2⟩; exact ⟨h1, (he' s hs h1).2.mp h2⟩
    · rintro ⟨h1, h2⟩; exact ⟨h1, (he' s hs h1).2.mpr h2⟩
  rw [this]

/-- If regions do not overlap and none passes the line twice in a point, apart from
what is counted as `k`, then no more than two pass the line in that point. -/
theorem meets_le_two_at {δ : Type} {t : Topology δ} (hclosed : RingsClosed t) {mask : ClipMask} (hno : NoOverlap mask t)
    (c : ℚ) (k : TopoRegion δ → Nat) (honce : ∀ r ∈ t.regions, timesPassed mask t r c ≤ 1 + 2 * k r) :
    (t.regions.map fun r => timesPassed mask t r c - 2 * k r).sum ≤ 2 := by
  obtain ⟨w, w0, hw⟩ := exists_small (t.regions.flatMap (topoRegionSegs t))
    (fun d s => meetsAt mask s = c ∨ d < |meetsAt mask s - c|) (by
      intro s hs
      by_cases h : meetsAt mask s = c
      · exact ⟨1, one_pos, fun _ _ _ => .inl h⟩
      · have : 0 < |meetsAt mask s - c| := abs_pos.mpr (sub_ne_zero.mpr h)
        exact ⟨|meetsAt mask s - c| / 2, by positivity, fun d _ hd => .inr (by linarith)⟩)
  have hw := fun r (hr : r ∈ t.regions) s (hs : s ∈ topoRegionSegs t r) => hw w w0 le_rfl s (List.mem_flatMap.mpr ⟨r, hr, hs⟩)
  obtain ⟨e1, e10, he1⟩ := encloses_near hclosed mask (z := c - w) (by
    intro r hr s hs _ h
    rcases hw r hr s hs with h' | h'
    · linarith
    · rw [h, show c - w - c = -w by ring, abs_neg, abs_of_pos w0] at h'; linarith)
  obtain ⟨e2, e20, he2⟩ := encloses_near hclosed mask (z := c + w) (by
    intro r hr s hs _ h
    rcases hw r hr s hs with h' | h'
    · linarith
    · rw [h, show c + w - c = w by ring, abs_of_pos w0] at h'; linarith)
  have he1 := he1 (min e1 e2) (lt_min e10 e20) (min_le_left _ _)
  have he2 := he2 (min e1 e2) (lt_min e10 e20) (min_le_right _ _)
  have hc1 := hno _ _ (within_inward mask (lt_min e10 e20) (c - w))
  have hc2 := hno _ _ (within_inward mask (lt_min e10 e20) (c + w))
  have hr : ∀ r ∈ t.regions, timesPassed mask t r c - 2 * k r ≤
      (if Encloses (topoRegionSegs t r) (pointAt mask (inward mask (min e1 e2)) (c - w)).1 (pointAt mask (inward mask (min e1 e2)) (c - w)).2 then 1 else 0) +
      (if Encloses (topoRegionSegs t r) (pointAt mask (inward mask (min e1 e2)) (c + w)).1 (pointAt mask (inward mask (min e1 e2)) (c + w)).2 then 1 else 0) := by
    intro r hr
    have h1 := honce r hr
    have h2 : ((topoRegionSegs t r).countP fun s => PassesLine mask s ∧ c - w < meetsAt mask s) =
        ((topoRegionSegs t r).countP fun s => PassesLine mask s ∧ c + w < meetsAt mask s) +
        timesPassed mask t r c := by
      unfold timesPassed
      rw [← sum_two, List.countP_eq_length_filter, ← List.countP_eq_length_filter]
      have hw := hw r hr
      generalize topoRegionSegs t r = l at hw
      clear h1
      induction l with
      | nil => rfl
      | cons s l ih =>
        rw [List.countP_cons, List.map_cons, List.sum_cons, ih fun a ha => hw a (List.mem_cons_of_mem _ ha)]
        have : (if PassesLine mask s ∧ c - w < meetsAt mask s then 1 else 0) =
            (if PassesLine mask s ∧ c + w < meetsAt mask s then 1 else 0) + (if PassesLine mask s ∧ meetsAt mask s = c then 1 else 0) := by
          by_cases hp : PassesLine mask s
          · simp only [hp, true_and]
            rcases hw s (by simp) with h | h
            · rw [if_pos (by linarith), if_neg (by linarith), if_pos h]
            · have hne : meetsAt mask s ≠ c := by rintro h'; rw [h'] at h; simp at h; linarith
              rw [if_neg hne]
              rcases lt_or_gt_of_ne hne with h' | h'
              · rw [abs_of_neg (by linarith)] at h
                rw [if_neg (by linarith), if_neg (by linarith)]
              · rw [abs_of_pos (by linarith)] at h
                rw [if_pos (by linarith), if_pos (by linarith)]
          · simp [hp]
        simp only [decide_eq_true_eq]
        omega
    simp only [he1 r hr, he2 r hr, Nat.odd_iff]
    rw [h2]
    split <;> split <;> omega
  have key : ∀ rs : List (TopoRegion δ), (∀ r ∈ rs, r ∈ t.regions) →
      (rs.map fun r => timesPassed mask t r c - 2 * k r).sum ≤
      (rs.countP fun r => Encloses (topoRegionSegs t r) (pointAt mask (inward mask (min e1 e2)) (c - w)).1 (pointAt mask (inward mask (min e1 e2)) (c - w)).2) +
      (rs.countP fun r => Encloses (topoRegionSegs t r) (pointAt mask (inward mask (min e1 e2)) (c + w)).1 (pointAt mask (inward mask (min e1 e2)) (c + w)).2) := by
    intro rs
    induction rs with
    | nil => intro _; simp
    | cons r rs ih =>
      intro h
      have h1 := ih fun a ha => h a (List.mem_cons_of_mem _ ha)
      have h2 := hr r (h r (by simp))
      rw [List.map_cons, List.sum_cons, List.countP_cons, List.countP_cons]
      simp only [decide_eq_true_eq]
      omega
  have := key t.regions fun _ h => h
  unfold cover at hc1 hc2
  omega

theorem meets_le_two {δ : Type} {t : Topology δ} (hclosed : RingsClosed t) {mask : ClipMask} (hno : NoOverlap mask t)
    (honce : PassesOnce mask t) (c : ℚ) :
    (t.regions.map fun r => timesPassed mask t r c - 2 * timesTouched mask t r c).sum ≤ 2 :=
  meets_le_two_at hclosed hno c _ fun r hr => honce r hr c

end TopoGeo
