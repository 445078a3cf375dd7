import Mathlib.Algebra.Order.Field.Basic
import Mathlib.Tactic.FieldSimp
import Mathlib.Tactic.Linarith
import Mathlib.Tactic.Ring
import Verif.Spec.ClipCover
import Verif.Proofs.ClipHalves
import Verif.Proofs.EvenOdd
/-!
# Counting crossings of a clipped ring

The count is taken along a horizontal ray that never meets the mask line, so that
what is outside of the mask does not matter.
-/

namespace TopoGeo

open Spec

/-! ## Sums along paths -/

/-- The sum of `F` over the segments of a path. -/
def sumAlong (F : Point → Point → Nat) : List Point → Nat
  | p :: q :: rest => F p q + sumAlong F (q :: rest)
  | _ => 0

theorem sumAlong_append (F : Point → Point → Nat) (l l' : List Point) (p : Point) :
    sumAlong F (l ++ p :: l') = sumAlong F (l ++ [p]) + sumAlong F (p :: l') := by
  induction l with
  | nil => simp [sumAlong]
  | cons a l ih =>
    cases l with
    | nil => simp [sumAlong]
    | cons b l =>
      simp only [List.cons_append, sumAlong] at ih ⊢
      rw [ih]
      omega

theorem sumAlong_reverse {F : Point → Point → Nat} (hF : ∀ p q, F p q = F q p) (l : List Point) :
    sumAlong F l.reverse = sumAlong F l := by
  induction l with
  | nil => rfl
  | cons a l ih =>
    cases l with
    | nil => rfl
    | cons b l =>
      rw [List.reverse_cons, List.reverse_cons, List.append_assoc, List.singleton_append, sumAlong_append,
        ← List.reverse_cons, ih]
      simp only [sumAlong]
      rw [hF b a]
      omega

theorem sumAlong_facing {F : Point → Point → Nat} (hF : ∀ p q, F p q = F q p) (d : Direction) (l : List Point) :
    sumAlong F (facing d l) = sumAlong F l := by
  cases d
  · rfl
  · exact sumAlong_reverse hF l

/-- What counts of a segment once it is clipped. -/
def seenSum (F : Point → Point → Nat) (mask : ClipMask) (X : Point → Point → Point) : List Point → Nat
  | p :: q :: rest => sumAlong F (visiblePart mask X p q) + seenSum F mask X (q :: rest)
  | _ => 0

theorem sumAlong_last (F : Point → Point → Nat) (last : Option Point) (x : Point) (l : List Point)
    (h : ∀ y, last = some y → F y x = 0) : sumAlong F (last.toList ++ x :: l) = sumAlong F (x :: l) := by
  cases last with
  | none => rfl
  | some y =>
    simp only [Option.toList_some, List.singleton_append, sumAlong]
    rw [h y rfl]
    omega

theorem clipRest_sumAlong {F : Point → Point → Nat} {m : Build} {mask : ClipMask}
    (hF : ∀ p q, depth mask p = 0 → depth mask q = 0 → F p q = 0) {pts : List Point} {prev : Point}
    {last : Option Point} {l : List Point} (hi : LastInv mask prev last) (h : clipRest m mask prev last pts = .ok l) :
    sumAlong F (last.toList ++ l) = seenSum F mask (crossing m mask) (prev :: pts) := by
  induction pts generalizing prev last l with
  | nil =>
    obtain rfl := Except.ok.inj h
    cases last <;> simp [sumAlong, seenSum]
  | cons q rest ih =>
    rw [seenSum]
    simp only [clipRest] at h
    have hseen : ¬ 0 < depth mask prev → ¬ 0 < depth mask q →
        sumAlong F (visiblePart mask (crossing m mask) prev q) = 0 := by
      intro h1 h2
      unfold visiblePart
      rw [if_neg (by omega)]
      rfl
    have hx : ∀ x, mask.intersect m prev q = .ok x → crossing m mask prev q = x := by
      intro x hx
      unfold crossing
      rw [hx]
    by_cases hq0 : depth mask q = 0
    · rw [if_pos hq0] at h
      have hinv : LastInv mask q (some q) :=
        ⟨fun _ => rfl, fun _ x hx => by obtain rfl := Option.some.inj hx; exact hq0⟩
      by_cases hp : 0 < depth mask prev
      · rw [if_pos hp, bind_ok] at h
        obtain ⟨l', h1, h⟩ := h
        obtain rfl := Except.ok.inj h
        rw [hi.1 hp, ← ih hinv h1]
        unfold visiblePart
        rw [if_pos (Or.inl hp), if_neg (by omega), if_neg (by omega)]
        simp [sumAlong]
      · rw [if_neg hp] at h
        have hinv' : LastInv mask q last := ⟨fun h' => by omega, fun _ => hi.2 hp⟩
        rw [ih hinv' h, hseen hp (by omega)]
        omega
    · rw [if_neg hq0] at h
      by_cases hq : 0 < depth mask q
      · rw [if_pos hq] at h
        have hinv : LastInv mask q (some q) := ⟨fun _ => rfl, fun h' => absurd hq h'⟩
        by_cases hp : depth mask prev < 0
        · rw [if_pos hp, bind_ok] at h
          obtain ⟨x, h0, h⟩ := h
          rw [bind_ok] at h
          obtain ⟨l', h1, h⟩ := h
          obtain rfl := Except.ok.inj h
          have hxl := intersect_onLine h0
          rw [sumAlong_last F last x _ fun y hy => hF y x (hi.2 (by omega) y hy) hxl, ← ih hinv h1]
          unfold visiblePart
          rw [if_pos (Or.inr hq), if_pos hp, hx x h0]
          simp [sumAlong]
        · rw [if_neg hp] at h
          have hv : sumAlong F (visiblePart mask (crossing m mask) prev q) = F prev q := by
            unfold visiblePart
            rw [if_pos (Or.inr hq), if_neg hp, if_neg (by omega)]
            simp [sumAlong]
          rw [hv]
          by_cases hc : depth mask prev = 0 ∧ last ≠ some prev
          · rw [if_pos hc, bind_ok] at h
            obtain ⟨l', h1, h⟩ := h
            obtain rfl := Except.ok.inj h
            rw [sumAlong_last F last prev _ fun y hy => hF y prev (hi.2 (by omega) y hy) hc.1, ← ih hinv h1]
            simp [sumAlong]
          · rw [if_neg hc, bind_ok] at h
            obtain ⟨l', h1, h⟩ := h
            obtain rfl := Except.ok.inj h
            have hl : last = some prev := by
              by_cases hp0 : 0 < depth mask prev
              · exact hi.1 hp0
              · by_contra hl
                exact hc ⟨by omega, hl⟩
            rw [hl, ← ih hinv h1]
            simp [sumAlong]
      · rw [if_neg hq] at h
        by_cases hp : 0 < depth mask prev
        · rw [if_pos hp, bind_ok] at h
          obtain ⟨x, h0, h⟩ := h
          rw [bind_ok] at h
          obtain ⟨l', h1, h⟩ := h
          obtain rfl := Except.ok.inj h
          have hxl := intersect_onLine h0
          have hinv : LastInv mask q (some x) := ⟨fun h' => absurd h' hq, fun _ y hy => by obtain rfl := Option.some.inj hy; exact hxl⟩
          rw [hi.1 hp, ← ih hinv h1]
          unfold visiblePart
          rw [if_pos (Or.inl hp), if_neg (by omega), if_pos (by omega), hx x h0]
          simp [sumAlong]
        · rw [if_neg hp] at h
          have hinv' : LastInv mask q last := ⟨fun h' => by omega, fun _ => hi.2 hp⟩
          rw [ih hinv' h, hseen hp (by omega)]
          omega

theorem clipEdge_sumAlong {F : Point → Point → Nat} {m : Build} {mask : ClipMask}
    (hF : ∀ p q, depth mask p = 0 → depth mask q = 0 → F p q = 0) {edge out : List Point}
    (h : clipEdge m mask edge = .ok out) : sumAlong F out = seenSum F mask (crossing m mask) edge := by
  match edge, h with
  | [], h => obtain rfl := Except.ok.inj h; rfl
  | [_], h => obtain rfl := Except.ok.inj h; rfl
  | p :: q :: rest, h =>
    rw [clipEdge_eq] at h
    split at h
    · rename_i hp
      rw [bind_ok] at h
      obtain ⟨l', h1, h⟩ := h
      obtain rfl := Except.ok.inj h
      exact clipRest_sumAlong (last := some p) hF ⟨fun _ => rfl, fun h' => absurd hp h'⟩ h1
    · rename_i hp
      exact clipRest_sumAlong (last := none) hF ⟨fun h' => absurd h' hp, fun _ x hx => by cases hx⟩ h

/-- The segments of the pieces of a clipped ring count as what is left of its edges. -/
theorem pieces_sumAlong {F : Point → Point → Nat} {m : Build} {mask : ClipMask} {edges : List TopoEdge}
    {cs : List (List Point)} (hsymm : ∀ p q, F p q = F q p) (hF : ∀ p q, depth mask p = 0 → depth mask q = 0 → F p q = 0)
    (hcs : ClippedBy m mask edges cs) (hlen : ∀ e ∈ edges, 2 ≤ e.points.length) {ring : TopoRing}
    {paths : List (List Point)} (hw : ReadsAs edges paths ring) (hc : ClosedRing paths) :
    (((clippedPieces cs ring).map (Piece.path cs)).map (sumAlong F)).sum =
      (ring.directedEdges.map fun de => sumAlong F (cs[de.edge]?.getD [])).sum := by
  have hplug := clippedPieces_onLine hcs hlen hw hc
  have key : ∀ l : List Piece, (∀ pc ∈ l, PlugOnLine mask pc) → ((l.map (Piece.path cs)).map (sumAlong F)).sum =
      (((l.filter Piece.isKept).map (Piece.path cs)).map (sumAlong F)).sum := by
    intro l hl
    induction l with
    | nil => rfl
    | cons pc l ih =>
      have ih := ih fun a ha => hl a (List.mem_cons_of_mem _ ha)
      have hp := hl pc (by simp)
      cases he : pc.edge with
      | kept i =>
        rw [List.filter_cons_of_pos (by simp [Piece.isKept, he])]
        simp only [List.map_cons, List.sum_cons, ih]
      | plug p q =>
        rw [List.filter_cons_of_neg (by simp [Piece.isKept, he])]
        unfold PlugOnLine at hp
        rw [he] at hp
        have : sumAlong F (pc.path cs) = 0 := by
          rw [Piece.path, sumAlong_facing hsymm, he, PieceEdge.points]
          simp only [sumAlong, hF p q hp.1 hp.2]
        simp only [List.map_cons, List.sum_cons, ih, this, zero_add]
  rw [key _ hplug, C31_visible_edges]
  generalize ring.directedEdges = des
  induction des with
  | nil => rfl
  | cons de des ih =>
    rw [List.map_cons, List.sum_cons, ← ih, List.filterMap_cons]
    unfold visiblePiece
    by_cases hn : cs[de.edge]?.getD [] = []
    · rw [if_pos hn, hn]
      simp [sumAlong]
    · rw [if_neg hn]
      simp only [List.map_cons, List.sum_cons, Piece.path, PieceEdge.points, sumAlong_facing hsymm]

/-! ## Rays that do not meet the mask line -/

/-- The segment has an end on each side of the horizontal line at `y`. -/
def Straddles (y : ℚ) (p q : Point) : Prop := ((p.yi : ℚ) ≤ y ∧ y < q.yi) ∨ ((q.yi : ℚ) ≤ y ∧ y < p.yi)

instance (y : ℚ) (p q : Point) : Decidable (Straddles y p q) := by unfold Straddles; infer_instance

/-- Whether a ray from `(x, y)` crosses the segment. The ray goes to the left if the
mask line is to the right. -/
def awayCrosses (mask : ClipMask) (x y : ℚ) (p q : Point) : Nat :=
  match mask with
  | .maxX _ => if Straddles y p q ∧ ¬ RayCrosses x y (p, q) then 1 else 0
  | _ => if RayCrosses x y (p, q) then 1 else 0

theorem straddles_comm (y : ℚ) (p q : Point) : Straddles y p q ↔ Straddles y q p := or_comm

theorem awayCrosses_comm (mask : ClipMask) (x y : ℚ) (p q : Point) : awayCrosses mask x y p q = awayCrosses mask x y q p := by
  have h1 := rayCrosses_swap x y (p, q)
  simp only [Prod.swap] at h1
  unfold awayCrosses
  simp only [h1, straddles_comm y p q]

theorem sumAlong_crossings (x y : ℚ) (path : List Point) :
    sumAlong (fun p q => if RayCrosses x y (p, q) then 1 else 0) path = crossings x y path := by
  induction path with
  | nil => rfl
  | cons p l ih =>
    cases l with
    | nil => rfl
    | cons q l =>
      unfold crossings at ih ⊢
      rw [sumAlong, ih, segs, List.countP_cons]
      simp only [decide_eq_true_eq]
      omega

/-- A closed ring is crossed by the line at `y` an even number of times. -/
theorem even_straddles {y : ℚ} {paths : List (List Point)} (hc : ClosedRing paths) :
    Even (paths.map (sumAlong fun p q => if Straddles y p q then 1 else 0)).sum := by
  have h1 : ∀ (l : List Point) (p q : Point), l.head? = some p → l.getLast? = some q →
      (sumAlong (fun p q => if Straddles y p q then 1 else 0) l + (if (p.yi : ℚ) ≤ y then 1 else 0)) % 2 =
        (if (q.yi : ℚ) ≤ y then 1 else 0) := by
    intro l
    induction l with
    | nil => intro p q hp; cases hp
    | cons a l ih =>
      intro p q hp hq
      obtain rfl : a = p := by simpa using hp
      cases l with
      | nil =>
        obtain rfl : a = q := by simpa using hq
        simp only [sumAlong]
        split <;> rfl
      | cons b l =>
        have := ih b q rfl (by simpa using hq)
        rw [← this]
        simp only [sumAlong]
        have hs : (if Straddles y a b then 1 else 0) % 2 =
            ((if (a.yi : ℚ) ≤ y then 1 else 0) + (if (b.yi : ℚ) ≤ y then 1 else 0)) % 2 := by
          unfold Straddles
          by_cases ha : (a.yi : ℚ) ≤ y <;> by_cases hb : (b.yi : ℚ) ≤ y
          · simp [ha, hb, not_lt.mpr ha, not_lt.mpr hb]
          · simp [ha, hb, not_le.mp hb]
          · simp [ha, hb, not_le.mp ha]
          · simp [ha, hb]
        omega
  have h2 : ∀ (ps : List (List Point)) (a b : Point), Leads a ps b →
      ((ps.map (sumAlong fun p q => if Straddles y p q then 1 else 0)).sum + (if (a.yi : ℚ) ≤ y then 1 else 0)) % 2 =
        (if (b.yi : ℚ) ≤ y then 1 else 0) := by
    intro ps
    induction ps with
    | nil =>
      intro a b h
      obtain rfl : a = b := h
      simp only [List.map_nil, List.sum_nil]
      split <;> rfl
    | cons e ps ih =>
      rintro a b ⟨h3, c, h4, h5⟩
      have h6 := h1 e a c h3 h4
      have h7 := ih c b h5
      rw [List.map_cons, List.sum_cons]
      omega
  obtain ⟨_, a, ha⟩ := hc
  have := h2 _ a a ha
  rw [Nat.even_iff]
  split at this <;> omega

/-- Along a closed ring it does not matter which way the ray goes. -/
theorem encloses_away {mask : ClipMask} {x y : ℚ} {paths : List (List Point)} (hc : ClosedRing paths) :
    Encloses (paths.flatMap segs) x y ↔ Odd (paths.map (sumAlong (awayCrosses mask x y))).sum := by
  have h0 : (paths.flatMap segs).countP (fun s => RayCrosses x y s) =
      (paths.map (sumAlong fun p q => if RayCrosses x y (p, q) then 1 else 0)).sum := by
    have := countP_flatMap_segs x y id paths
    simp only [id_eq] at this
    rw [this]
    congr 1
    exact List.map_congr_left fun p _ => (sumAlong_crossings x y p).symm
  unfold Encloses
  rw [h0]
  cases mask with
  | minX _ => rfl
  | minY _ => rfl
  | maxY _ => rfl
  | maxX c =>
    have h1 := even_straddles (y := y) hc
    have h2 : (paths.map (sumAlong fun p q => if Straddles y p q then 1 else 0)).sum =
        (paths.map (sumAlong fun p q => if RayCrosses x y (p, q) then 1 else 0)).sum +
        (paths.map (sumAlong (awayCrosses (.maxX c) x y))).sum := by
      have hl : ∀ l, sumAlong (fun p q => if Straddles y p q then 1 else 0) l =
          sumAlong (fun p q => if RayCrosses x y (p, q) then 1 else 0) l + sumAlong (awayCrosses (.maxX c) x y) l := by
        intro l
        induction l with
        | nil => rfl
        | cons p l ih =>
          cases l with
          | nil => rfl
          | cons q l =>
            simp only [sumAlong]
            rw [ih]
            have : (if Straddles y p q then 1 else 0) = (if RayCrosses x y (p, q) then 1 else 0) + awayCrosses (.maxX c) x y p q := by
              unfold awayCrosses
              by_cases hr : RayCrosses x y (p, q)
              · have : Straddles y p q := hr.1
                simp [hr, this]
              · simp [hr]
            omega
      clear h0 h1 hc
      induction paths with
      | nil => rfl
      | cons p ps ih =>
        simp only [List.map_cons, List.sum_cons]
        rw [ih, hl]
        omega
    rw [h2, Nat.even_add] at h1
    rw [← Nat.not_even_iff_odd, ← Nat.not_even_iff_odd, h1]

/-! ## Segments that meet the mask line -/

theorem ray_between {px rx x y py ry : ℚ} (hs : (py ≤ y ∧ y < ry) ∨ (ry ≤ y ∧ y < py)) :
    ∃ j, 0 ≤ j ∧ j ≤ 1 ∧ j * (ry - py) = y - py ∧ px + (y - py) * (rx - px) / (ry - py) = px + j * (rx - px) := by
  have hne : ry - py ≠ 0 := by rcases hs with ⟨h1, h2⟩ | ⟨h1, h2⟩ <;> intro h0 <;> linarith
  refine ⟨(y - py) / (ry - py), ?_, ?_, ?_, ?_⟩
  · rcases hs with ⟨h1, h2⟩ | ⟨h1, h2⟩
    · exact div_nonneg (by linarith) (by linarith)
    · exact div_nonneg_of_nonpos (by linarith) (by linarith)
  · rcases hs with ⟨h1, h2⟩ | ⟨h1, h2⟩
    · rw [div_le_one (by linarith)]; linarith
    · rw [div_le_one_of_neg (by linarith)]; linarith
  · exact div_mul_cancel₀ _ hne
  · ring

theorem awayCrosses_far {mask : ClipMask} {x y : ℚ} (hw : Within mask x y) {p q : Point} (hp : depth mask p ≤ 0)
    (hq : depth mask q ≤ 0) : awayCrosses mask x y p q = 0 := by
  cases mask with
  | minY c =>
    have h1 : (p.yi : ℚ) ≤ c.toNat := by simp only [depth] at hp; unfold Point.yi; exact_mod_cast (by omega : (p.y.toNat : Int) ≤ c.toNat)
    have h2 : (q.yi : ℚ) ≤ c.toNat := by simp only [depth] at hq; unfold Point.yi; exact_mod_cast (by omega : (q.y.toNat : Int) ≤ c.toNat)
    simp only [Within] at hw
    simp only [awayCrosses]
    rw [if_neg]
    rintro ⟨⟨h3, h4⟩ | ⟨h3, h4⟩, _⟩ <;> simp only at h3 h4 <;> linarith
  | maxY c =>
    have h1 : (c.toNat : ℚ) ≤ p.yi := by simp only [depth] at hp; unfold Point.yi; exact_mod_cast (by omega : (c.toNat : Int) ≤ p.y.toNat)
    have h2 : (c.toNat : ℚ) ≤ q.yi := by simp only [depth] at hq; unfold Point.yi; exact_mod_cast (by omega : (c.toNat : Int) ≤ q.y.toNat)
    simp only [Within] at hw
    simp only [awayCrosses]
    rw [if_neg]
    rintro ⟨⟨h3, h4⟩ | ⟨h3, h4⟩, _⟩ <;> simp only at h3 h4 <;> linarith
  | minX c =>
    have h1 : (p.xi : ℚ) ≤ c.toNat := by simp only [depth] at hp; unfold Point.xi; exact_mod_cast (by omega : (p.x.toNat : Int) ≤ c.toNat)
    have h2 : (q.xi : ℚ) ≤ c.toNat := by simp only [depth] at hq; unfold Point.xi; exact_mod_cast (by omega : (q.x.toNat : Int) ≤ c.toNat)
    simp only [Within] at hw
    simp only [awayCrosses]
    rw [if_neg]
    rintro ⟨hs, h3⟩
    obtain ⟨j, j0, j1, _, he⟩ := ray_between (px := p.xi) (rx := q.xi) (x := x) hs
    simp only at h3
    rw [he] at h3
    nlinarith
  | maxX c =>
    have h1 : (c.toNat : ℚ) ≤ p.xi := by simp only [depth] at hp; unfold Point.xi; exact_mod_cast (by omega : (c.toNat : Int) ≤ p.x.toNat)
    have h2 : (c.toNat : ℚ) ≤ q.xi := by simp only [depth] at hq; unfold Point.xi; exact_mod_cast (by omega : (c.toNat : Int) ≤ q.x.toNat)
    simp only [Within] at hw
    simp only [awayCrosses]
    rw [if_neg]
    rintro ⟨hs, h3⟩
    apply h3
    obtain ⟨j, j0, j1, _, he⟩ := ray_between (px := p.xi) (rx := q.xi) (x := x) hs
    refine ⟨hs, ?_⟩
    simp only
    rw [he]
    nlinarith

/-- A ray to the right, from a point left of `p` and right of `r`. -/
theorem ray_right {px py rx ry x y : ℚ} (h1 : rx < x) (h2 : x < px)
    (hne : py + (x - px) * ((ry - py) / (rx - px)) ≠ y) :
    (((py ≤ y ∧ y < ry) ∨ (ry ≤ y ∧ y < py)) ∧ x < px + (y - py) * (rx - px) / (ry - py)) ↔
      if py ≤ y then y < py + (x - px) * ((ry - py) / (rx - px)) else py + (x - px) * ((ry - py) / (rx - px)) < y := by
  obtain ⟨k, hk⟩ : ∃ k, k = (x - px) / (rx - px) := ⟨_, rfl⟩
  have hd : rx - px < 0 := by linarith
  have hk0 : 0 < k := by rw [hk]; exact div_pos_of_neg_of_neg (by linarith) hd
  have hk1 : k < 1 := by rw [hk, div_lt_one_of_neg hd]; linarith
  have hkx : k * (rx - px) = x - px := by rw [hk]; exact div_mul_cancel₀ _ hd.ne
  have e : py + (x - px) * ((ry - py) / (rx - px)) = py + k * (ry - py) := by rw [hk]; ring
  rw [e] at hne ⊢
  split
  · rename_i hy
    constructor
    · rintro ⟨hs, hr⟩
      obtain ⟨j, j0, j1, hj, he⟩ := ray_between (px := px) (rx := rx) (x := x) hs
      rw [he] at hr
      have hlt : j < k := by nlinarith
      have : 0 < ry - py := by rcases hs with ⟨a, b⟩ | ⟨a, b⟩ <;> linarith
      nlinarith
    · intro hlt
      have hpos : 0 < ry - py := by by_contra hcon; nlinarith
      have hs : (py ≤ y ∧ y < ry) ∨ (ry ≤ y ∧ y < py) := Or.inl ⟨hy, by nlinarith⟩
      obtain ⟨j, j0, j1, hj, he⟩ := ray_between (px := px) (rx := rx) (x := x) hs
      refine ⟨hs, ?_⟩
      rw [he]
      have : j < k := by by_contra hcon; nlinarith
      nlinarith
  · rename_i hy
    constructor
    · rintro ⟨hs, hr⟩
      obtain ⟨j, j0, j1, hj, he⟩ := ray_between (px := px) (rx := rx) (x := x) hs
      rw [he] at hr
      have hlt : j < k := by nlinarith
      have : ry - py < 0 := by rcases hs with ⟨a, b⟩ | ⟨a, b⟩ <;> linarith
      nlinarith
    · intro hlt
      have hpos : ry - py < 0 := by by_contra hcon; nlinarith
      have hs : (py ≤ y ∧ y < ry) ∨ (ry ≤ y ∧ y < py) := Or.inr ⟨by nlinarith, by linarith⟩
      obtain ⟨j, j0, j1, hj, he⟩ := ray_between (px := px) (rx := rx) (x := x) hs
      refine ⟨hs, ?_⟩
      rw [he]
      have : j < k := by by_contra hcon; nlinarith
      nlinarith

/-- A ray to the left, from a point right of `p` and left of `r`. -/
theorem ray_left {px py rx ry x y : ℚ} (h1 : x < rx) (h2 : px ≤ x)
    (hne : py + (x - px) * ((ry - py) / (rx - px)) ≠ y) :
    (((py ≤ y ∧ y < ry) ∨ (ry ≤ y ∧ y < py)) ∧ ¬ x < px + (y - py) * (rx - px) / (ry - py)) ↔
      if py ≤ y then y < py + (x - px) * ((ry - py) / (rx - px)) else py + (x - px) * ((ry - py) / (rx - px)) < y := by
  obtain ⟨k, hk⟩ : ∃ k, k = (x - px) / (rx - px) := ⟨_, rfl⟩
  have hd : 0 < rx - px := by linarith
  have hk0 : 0 ≤ k := by rw [hk]; exact div_nonneg (by linarith) hd.le
  have hk1 : k < 1 := by rw [hk, div_lt_one hd]; linarith
  have hkx : k * (rx - px) = x - px := by rw [hk]; exact div_mul_cancel₀ _ hd.ne'
  have e : py + (x - px) * ((ry - py) / (rx - px)) = py + k * (ry - py) := by rw [hk]; ring
  rw [e] at hne ⊢
  split
  · rename_i hy
    constructor
    · rintro ⟨hs, hr⟩
      obtain ⟨j, j0, j1, hj, he⟩ := ray_between (px := px) (rx := rx) (x := x) hs
      rw [he] at hr
      have hle : j ≤ k := by nlinarith
      have : 0 < ry - py := by rcases hs with ⟨a, b⟩ | ⟨a, b⟩ <;> linarith
      exact lt_of_le_of_ne (by nlinarith) (Ne.symm hne)
    · intro hlt
      have hpos : 0 < ry - py := by by_contra hcon; nlinarith
      have hs : (py ≤ y ∧ y < ry) ∨ (ry ≤ y ∧ y < py) := Or.inl ⟨hy, by nlinarith⟩
      obtain ⟨j, j0, j1, hj, he⟩ := ray_between (px := px) (rx := rx) (x := x) hs
      refine ⟨hs, ?_⟩
      rw [he]
      have : j < k := by by_contra hcon; nlinarith
      nlinarith
  · rename_i hy
    constructor
    · rintro ⟨hs, hr⟩
      obtain ⟨j, j0, j1, hj, he⟩ := ray_between (px := px) (rx := rx) (x := x) hs
      rw [he] at hr
      have hle : j ≤ k := by nlinarith
      have : ry - py < 0 := by rcases hs with ⟨a, b⟩ | ⟨a, b⟩ <;> linarith
      exact lt_of_le_of_ne (by nlinarith) hne
    · intro hlt
      have hpos : ry - py < 0 := by by_contra hcon; nlinarith
      have hs : (py ≤ y ∧ y < ry) ∨ (ry ≤ y ∧ y < py) := Or.inr ⟨by nlinarith, by linarith⟩
      obtain ⟨j, j0, j1, hj, he⟩ := ray_between (px := px) (rx := rx) (x := x) hs
      refine ⟨hs, ?_⟩
      rw [he]
      have : j < k := by by_contra hcon; nlinarith
      nlinarith

/-- Away from the segment, the rounded segment is on the same side. -/
theorem same_side {tp op tq oq b oX T A : ℚ} (hT : (b ≤ T ∧ T ≤ tp ∧ tq < b ∧ b < tp) ∨ (tp ≤ T ∧ T ≤ b ∧ b < tq ∧ tp < b))
    (hr : |(oX - op) * (tq - tp) - (b - tp) * (oq - op)| < |tq - tp|)
    (hn : ¬ ∃ u : ℚ, 0 ≤ u ∧ u ≤ 1 ∧ T = tp + u * (tq - tp) ∧ A < op + u * (oq - op) + 1 ∧ op + u * (oq - op) < A + 1) :
    (A < op + (T - tp) * ((oq - op) / (tq - tp)) ∧ A < op + (T - tp) * ((oX - op) / (b - tp))) ∨
      (op + (T - tp) * ((oq - op) / (tq - tp)) < A ∧ op + (T - tp) * ((oX - op) / (b - tp)) < A) := by
  obtain ⟨u, hu⟩ : ∃ u, u = (T - tp) / (tq - tp) := ⟨_, rfl⟩
  obtain ⟨s, hs⟩ : ∃ s, s = (T - tp) / (b - tp) := ⟨_, rfl⟩
  obtain ⟨w, hw⟩ : ∃ w, w = (b - tp) / (tq - tp) := ⟨_, rfl⟩
  have hd : tq - tp ≠ 0 := by rcases hT with h | h <;> intro h0 <;> linarith
  have hb : b - tp ≠ 0 := by rcases hT with h | h <;> intro h0 <;> linarith
  have e1 : op + (T - tp) * ((oq - op) / (tq - tp)) = op + u * (oq - op) := by rw [hu]; ring
  have e2 : op + (T - tp) * ((oX - op) / (b - tp)) = op + s * (oX - op) := by rw [hs]; ring
  have eu : u * (tq - tp) = T - tp := by rw [hu]; exact div_mul_cancel₀ _ hd
  have esw : u = s * w := by rw [hu, hs, hw]; field_simp
  have ew : w * (tq - tp) = b - tp := by rw [hw]; exact div_mul_cancel₀ _ hd
  have hu0 : 0 ≤ u := by
    rw [hu]
    rcases hT with h | h
    · exact div_nonneg_of_nonpos (by linarith) (by linarith)
    · exact div_nonneg (by linarith) (by linarith)
  have hu1 : u ≤ 1 := by
    rw [hu]
    rcases hT with h | h
    · rw [div_le_one_of_neg (by linarith)]; linarith
    · rw [div_le_one (by linarith)]; linarith
  have hs0 : 0 ≤ s := by
    rw [hs]
    rcases hT with h | h
    · exact div_nonneg_of_nonpos (by linarith) (by linarith)
    · exact div_nonneg (by linarith) (by linarith)
  have hs1 : s ≤ 1 := by
    rw [hs]
    rcases hT with h | h
    · rw [div_le_one_of_neg (by linarith)]; linarith
    · rw [div_le_one (by linarith)]; linarith
  have hc : |oX - op - w * (oq - op)| < 1 := by
    have : (oX - op) * (tq - tp) - (b - tp) * (oq - op) = (oX - op - w * (oq - op)) * (tq - tp) := by rw [← ew]; ring
    rw [this, abs_mul] at hr
    have hpos : 0 < |tq - tp| := abs_pos.mpr hd
    by_contra hcon
    nlinarith
  rw [abs_lt] at hc
  have hdiff : s * (oX - op) - u * (oq - op) = s * (oX - op - w * (oq - op)) := by rw [esw]; ring
  have h1 : -1 < s * (oX - op - w * (oq - op)) := by nlinarith
  have h2 : s * (oX - op - w * (oq - op)) < 1 := by nlinarith
  rw [e1, e2]
  by_cases hlo : A < op + u * (oq - op) + 1
  · have : ¬ op + u * (oq - op) < A + 1 := fun h => hn ⟨u, hu0, hu1, by linarith, hlo, h⟩
    exact Or.inl ⟨by linarith, by linarith⟩
  · exact Or.inr ⟨by linarith, by linarith⟩

theorem abs_of_natAbs {a b : Int} (h : a.natAbs < b.natAbs) : |(a : ℚ)| < |(b : ℚ)| := by
  have : |a| < |b| := by
    rw [Int.abs_eq_natAbs, Int.abs_eq_natAbs]
    exact_mod_cast h
  exact_mod_cast this

/-- Where a segment leaves the mask, what is left of it counts as all of it does,
unless the point is near. -/
theorem awayCrosses_cut {mask : ClipMask} {x y : ℚ} (hw : Within mask x y) {p q X : Point} (hp : 0 < depth mask p)
    (hq : depth mask q < 0) (hX : depth mask X = 0)
    (hr : ((other mask X - other mask p) * (tested mask q - tested mask p) -
      (bound mask - tested mask p) * (other mask q - other mask p)).natAbs < (tested mask q - tested mask p).natAbs)
    (hn : ¬ NearSegment mask p q x y) : awayCrosses mask x y p q = awayCrosses mask x y p X := by
  have hr' := abs_of_natAbs hr
  push_cast at hr'
  cases mask with
  | minY c =>
    simp only [depth] at hp hq hX
    simp only [Within] at hw
    simp only [tested, other, bound] at hr'
    simp only [NearSegment, tested, other, across, alongside] at hn
    have a1 : (c.toNat : ℚ) < p.yi := by unfold Point.yi; exact_mod_cast (by omega : (c.toNat : Int) < p.y.toNat)
    have a2 : (q.yi : ℚ) < c.toNat := by unfold Point.yi; exact_mod_cast (by omega : (q.y.toNat : Int) < c.toNat)
    have a3 : (X.yi : ℚ) = c.toNat := by unfold Point.yi; exact_mod_cast (by omega : (X.y.toNat : Int) = c.toNat)
    simp only [awayCrosses]
    refine if_congr ?_ rfl rfl
    unfold RayCrosses
    simp only
    by_cases hy : y < p.yi
    · have key := same_side (tp := p.yi) (op := p.xi) (tq := q.yi) (oq := q.xi) (b := c.toNat) (oX := X.xi) (T := y) (A := x)
        (Or.inl ⟨hw.le, hy.le, a2, a1⟩) hr' hn
      rw [a3, mul_div_assoc, mul_div_assoc]
      have b1 : (q.yi : ℚ) ≤ y := by linarith
      have b2 : ¬ (p.yi : ℚ) ≤ y := by linarith
      have b3 : (c.toNat : ℚ) ≤ y := hw.le
      simp only [b1, b2, b3, hy, false_and, true_and, or_true]
      rcases key with ⟨h1, h2⟩ | ⟨h1, h2⟩
      · simp only [h1, h2]
      · simp only [not_lt.mpr h1.le, not_lt.mpr h2.le]
    · have b1 : ¬ y < q.yi := by linarith
      have b2 : ¬ y < X.yi := by linarith
      simp only [b1, b2, hy, and_false, or_self, false_and]
  | maxY c =>
    simp only [depth] at hp hq hX
    simp only [Within] at hw
    simp only [tested, other, bound] at hr'
    simp only [NearSegment, tested, other, across, alongside] at hn
    have a1 : (p.yi : ℚ) < c.toNat := by unfold Point.yi; exact_mod_cast (by omega : (p.y.toNat : Int) < c.toNat)
    have a2 : (c.toNat : ℚ) < q.yi := by unfold Point.yi; exact_mod_cast (by omega : (c.toNat : Int) < q.y.toNat)
    have a3 : (X.yi : ℚ) = c.toNat := by unfold Point.yi; exact_mod_cast (by omega : (X.y.toNat : Int) = c.toNat)
    simp only [awayCrosses]
    refine if_congr ?_ rfl rfl
    unfold RayCrosses
    simp only
    by_cases hy : (p.yi : ℚ) ≤ y
    · have key := same_side (tp := p.yi) (op := p.xi) (tq := q.yi) (oq := q.xi) (b := c.toNat) (oX := X.xi) (T := y) (A := x)
        (Or.inr ⟨hy, hw.le, a2, a1⟩) hr' hn
      rw [a3, mul_div_assoc, mul_div_assoc]
      have b1 : y < q.yi := by linarith
      have b2 : ¬ y < p.yi := by linarith
      simp only [b1, b2, hw, hy, and_false, and_true, or_false, true_and]
      rcases key with ⟨h1, h2⟩ | ⟨h1, h2⟩
      · simp only [h1, h2]
      · simp only [not_lt.mpr h1.le, not_lt.mpr h2.le]
    · have b1 : ¬ (q.yi : ℚ) ≤ y := by linarith
      have b2 : ¬ (X.yi : ℚ) ≤ y := by linarith
      simp only [b1, b2, hy, false_and, or_self]
  | minX c =>
    simp only [depth] at hp hq hX
    simp only [Within] at hw
    simp only [tested, other, bound] at hr'
    simp only [NearSegment, tested, other, across, alongside] at hn
    have a1 : (c.toNat : ℚ) < p.xi := by unfold Point.xi; exact_mod_cast (by omega : (c.toNat : Int) < p.x.toNat)
    have a2 : (q.xi : ℚ) < c.toNat := by unfold Point.xi; exact_mod_cast (by omega : (q.x.toNat : Int) < c.toNat)
    have a3 : (X.xi : ℚ) = c.toNat := by unfold Point.xi; exact_mod_cast (by omega : (X.x.toNat : Int) = c.toNat)
    simp only [awayCrosses]
    refine if_congr ?_ rfl rfl
    unfold RayCrosses
    simp only
    by_cases hx : x < p.xi
    · have key := same_side (tp := p.xi) (op := p.yi) (tq := q.xi) (oq := q.yi) (b := c.toNat) (oX := X.yi) (T := x) (A := y)
        (Or.inl ⟨hw.le, hx.le, a2, a1⟩) hr' hn
      rw [ray_right (by linarith) hx (by rcases key with h | h; exacts [h.1.ne', h.1.ne]),
        ray_right (by linarith) hx (by rw [a3]; rcases key with h | h; exacts [h.2.ne', h.2.ne]), a3]
      rcases key with ⟨h1, h2⟩ | ⟨h1, h2⟩
      · simp only [h1, h2, not_lt.mpr h1.le, not_lt.mpr h2.le]
      · simp only [h1, h2, not_lt.mpr h1.le, not_lt.mpr h2.le]
    · constructor
      · rintro ⟨hs, h⟩
        obtain ⟨j, j0, j1, _, he⟩ := ray_between (px := p.xi) (rx := q.xi) (x := x) hs
        rw [he] at h
        nlinarith
      · rintro ⟨hs, h⟩
        obtain ⟨j, j0, j1, _, he⟩ := ray_between (px := p.xi) (rx := X.xi) (x := x) hs
        rw [he] at h
        nlinarith
  | maxX c =>
    simp only [depth] at hp hq hX
    simp only [Within] at hw
    simp only [tested, other, bound] at hr'
    simp only [NearSegment, tested, other, across, alongside] at hn
    have a1 : (p.xi : ℚ) < c.toNat := by unfold Point.xi; exact_mod_cast (by omega : (p.x.toNat : Int) < c.toNat)
    have a2 : (c.toNat : ℚ) < q.xi := by unfold Point.xi; exact_mod_cast (by omega : (c.toNat : Int) < q.x.toNat)
    have a3 : (X.xi : ℚ) = c.toNat := by unfold Point.xi; exact_mod_cast (by omega : (X.x.toNat : Int) = c.toNat)
    simp only [awayCrosses]
    refine if_congr ?_ rfl rfl
    have hns : ∀ r : Point, (Straddles y p r ∧ ¬ RayCrosses x y (p, r)) ↔
        ((((p.yi : ℚ) ≤ y ∧ y < r.yi) ∨ ((r.yi : ℚ) ≤ y ∧ y < p.yi)) ∧
          ¬ x < p.xi + (y - p.yi) * (r.xi - p.xi) / (r.yi - p.yi)) := by
      intro r
      unfold Straddles RayCrosses
      simp only
      constructor
      · rintro ⟨h1, h2⟩
        exact ⟨h1, fun h => h2 ⟨h1, h⟩⟩
      · rintro ⟨h1, h2⟩
        exact ⟨h1, fun h => h2 h.2⟩
    rw [hns, hns]
    by_cases hx : (p.xi : ℚ) ≤ x
    · have key := same_side (tp := p.xi) (op := p.yi) (tq := q.xi) (oq := q.yi) (b := c.toNat) (oX := X.yi) (T := x) (A := y)
        (Or.inr ⟨hx, hw.le, a2, a1⟩) hr' hn
      rw [ray_left (by linarith) hx (by rcases key with h | h; exacts [h.1.ne', h.1.ne]),
        ray_left (by linarith) hx (by rw [a3]; rcases key with h | h; exacts [h.2.ne', h.2.ne]), a3]
      rcases key with ⟨h1, h2⟩ | ⟨h1, h2⟩
      · simp only [h1, h2, not_lt.mpr h1.le, not_lt.mpr h2.le]
      · simp only [h1, h2, not_lt.mpr h1.le, not_lt.mpr h2.le]
    · constructor
      · rintro ⟨hs, h⟩
        obtain ⟨j, j0, j1, _, he⟩ := ray_between (px := p.xi) (rx := q.xi) (x := x) hs
        rw [he] at h
        nlinarith
      · rintro ⟨hs, h⟩
        obtain ⟨j, j0, j1, _, he⟩ := ray_between (px := p.xi) (rx := X.xi) (x := x) hs
        rw [he] at h
        nlinarith

theorem nearSegment_comm {mask : ClipMask} {p q : Point} {x y : ℚ} (h : NearSegment mask p q x y) : NearSegment mask q p x y := by
  obtain ⟨u, h0, h1, h2, h3, h4⟩ := h
  refine ⟨1 - u, by linarith, by linarith, ?_, ?_, ?_⟩
  · rw [h2]; ring
  · have : (other mask q : ℚ) + (1 - u) * (other mask p - other mask q) = other mask p + u * (other mask q - other mask p) := by ring
    rw [this]; exact h3
  · have : (other mask q : ℚ) + (1 - u) * (other mask p - other mask q) = other mask p + u * (other mask q - other mask p) := by ring
    rw [this]; exact h4

/-- Where the line cuts a segment at a right angle, what is left of it always counts
as all of it does. -/
theorem awayCrosses_straight {mask : ClipMask} {x y : ℚ} (hw : Within mask x y) {p q X : Point} (hp : 0 < depth mask p)
    (hq : depth mask q < 0) (hX : depth mask X = 0) (ho : other mask p = other mask q) (hoX : other mask X = other mask p) :
    awayCrosses mask x y p q = awayCrosses mask x y p X := by
  cases mask with
  | minY c =>
    simp only [depth] at hp hq hX
    simp only [Within] at hw
    simp only [other] at ho hoX
    have a1 : (c.toNat : ℚ) < p.yi := by unfold Point.yi; exact_mod_cast (by omega : (c.toNat : Int) < p.y.toNat)
    have a2 : (q.yi : ℚ) < c.toNat := by unfold Point.yi; exact_mod_cast (by omega : (q.y.toNat : Int) < c.toNat)
    have a3 : (X.yi : ℚ) = c.toNat := by unfold Point.yi; exact_mod_cast (by omega : (X.y.toNat : Int) = c.toNat)
    have e1 : (q.xi : ℚ) - p.xi = 0 := by unfold Point.xi; rw [sub_eq_zero]; exact_mod_cast ho.symm
    have e2 : (X.xi : ℚ) - p.xi = 0 := by unfold Point.xi; rw [sub_eq_zero]; exact_mod_cast hoX
    simp only [awayCrosses]
    refine if_congr ?_ rfl rfl
    unfold RayCrosses
    simp only [e1, e2, mul_zero, zero_div, add_zero]
    by_cases hy : y < p.yi
    · have b1 : (q.yi : ℚ) ≤ y := by linarith
      have b2 : (X.yi : ℚ) ≤ y := by linarith
      simp only [b1, b2, hy, and_self, or_true]
    · have b1 : ¬ y < q.yi := by linarith
      have b2 : ¬ y < X.yi := by linarith
      simp only [b1, b2, hy, and_false, or_self, false_and]
  | maxY c =>
    simp only [depth] at hp hq hX
    simp only [Within] at hw
    simp only [other] at ho hoX
    have a1 : (p.yi : ℚ) < c.toNat := by unfold Point.yi; exact_mod_cast (by omega : (p.y.toNat : Int) < c.toNat)
    have a2 : (c.toNat : ℚ) < q.yi := by unfold Point.yi; exact_mod_cast (by omega : (c.toNat : Int) < q.y.toNat)
    have a3 : (X.yi : ℚ) = c.toNat := by unfold Point.yi; exact_mod_cast (by omega : (X.y.toNat : Int) = c.toNat)
    have e1 : (q.xi : ℚ) - p.xi = 0 := by unfold Point.xi; rw [sub_eq_zero]; exact_mod_cast ho.symm
    have e2 : (X.xi : ℚ) - p.xi = 0 := by unfold Point.xi; rw [sub_eq_zero]; exact_mod_cast hoX
    simp only [awayCrosses]
    refine if_congr ?_ rfl rfl
    unfold RayCrosses
    simp only [e1, e2, mul_zero, zero_div, add_zero]
    by_cases hy : (p.yi : ℚ) ≤ y
    · have b1 : y < q.yi := by linarith
      have b2 : y < X.yi := by linarith
      simp only [b1, b2, hy, and_self, true_or]
    · have b1 : ¬ (q.yi : ℚ) ≤ y := by linarith
      have b2 : ¬ (X.yi : ℚ) ≤ y := by linarith
      simp only [b1, b2, hy, false_and, or_self]
  | minX c | maxX c =>
    simp only [other] at ho hoX
    have e1 : (q.yi : ℚ) = p.yi := by unfold Point.yi; exact_mod_cast ho.symm
    have e2 : (X.yi : ℚ) = p.yi := by unfold Point.yi; exact_mod_cast hoX
    have hs : ∀ z : ℚ, ¬ (z ≤ y ∧ y < z) := fun z h => absurd h.2 (not_lt.mpr h.1)
    simp only [awayCrosses, Straddles, RayCrosses, e1, e2, hs, or_self, false_and]

/-- What is left of an edge counts as all of it does. -/
theorem seenSum_away {m : Build} {mask : ClipMask} {x y : ℚ} (hw : Within mask x y) {edge : List Point}
    (hX : ∀ p q, [p, q] ∈ pairs edge → Crosses mask p q →
      InI64 ((bound mask - tested mask p) * (other mask q - other mask p)))
    (hn : ∀ s ∈ segs edge, CutAskew mask s → ¬ NearSegment mask s.1 s.2 x y) :
    seenSum (awayCrosses mask x y) mask (crossing m mask) edge = sumAlong (awayCrosses mask x y) edge := by
  induction edge with
  | nil => rfl
  | cons p l ih =>
    cases l with
    | nil => rfl
    | cons q l =>
      rw [seenSum, sumAlong, ih (fun a b hab => hX a b (by rw [pairs]; exact List.mem_cons_of_mem _ hab))
        (fun s hs => hn s (by rw [segs]; exact List.mem_cons_of_mem _ hs))]
      congr 1
      have hnear := hn (p, q) (by simp [segs])
      simp only [CutAskew] at hnear
      by_cases hc : Crosses mask p q
      · obtain ⟨r, h1, h2, _, _, h3⟩ := C25_intersect m hc (hX p q (by simp [pairs]) hc)
        have hr : crossing m mask p q = r := by unfold crossing; rw [h1]
        have hz := (depth_zero_iff mask r).mpr h2
        unfold crossProduct at h3
        unfold visiblePart
        rw [hr]
        by_cases ho : other mask p = other mask q
        · have hor : other mask r = other mask p := by
            rw [← ho, sub_self, mul_zero, sub_zero, Int.natAbs_mul] at h3
            have : (other mask r - other mask p).natAbs = 0 := by
              by_contra h0
              have := Nat.le_mul_of_pos_left (tested mask q - tested mask p).natAbs (Nat.pos_of_ne_zero h0)
              omega
            omega
          rcases id hc with ⟨hp, hq⟩ | ⟨hp, hq⟩
          · rw [if_pos (Or.inr hq), if_pos hp]
            simp only [sumAlong, add_zero]
            rw [awayCrosses_comm mask x y r q, awayCrosses_comm mask x y p q]
            exact (awayCrosses_straight hw hq hp hz ho.symm (hor.trans ho)).symm
          · rw [if_pos (Or.inl hp), if_neg (by omega), if_pos hq]
            simp only [sumAlong, add_zero]
            exact (awayCrosses_straight hw hp hq hz ho hor).symm
        rcases id hc with ⟨hp, hq⟩ | ⟨hp, hq⟩
        · rw [if_pos (Or.inr hq), if_pos hp]
          simp only [sumAlong, add_zero]
          rw [awayCrosses_comm mask x y r q, awayCrosses_comm mask x y p q]
          refine (awayCrosses_cut hw hq hp hz ?_ fun h => hnear ⟨hc, ho⟩ (nearSegment_comm h)).symm
          have e : (other mask r - other mask q) * (tested mask p - tested mask q) -
              (bound mask - tested mask q) * (other mask p - other mask q) =
              - ((other mask r - other mask p) * (tested mask q - tested mask p) -
                (bound mask - tested mask p) * (other mask q - other mask p)) := by ring
          rw [e, Int.natAbs_neg, ← Int.natAbs_neg (tested mask p - tested mask q), neg_sub]
          exact h3
        · rw [if_pos (Or.inl hp), if_neg (by omega), if_pos hq]
          simp only [sumAlong, add_zero]
          exact (awayCrosses_cut hw hp hq hz h3 (hnear ⟨hc, ho⟩)).symm
      · unfold visiblePart
        unfold Crosses at hc
        by_cases h1 : 0 < depth mask p ∨ 0 < depth mask q
        · rw [if_pos h1, if_neg (by omega), if_neg (by omega)]
          simp [sumAlong]
        · rw [if_neg h1, awayCrosses_far hw (by omega) (by omega)]
          rfl

/-- What is left of a ring encloses what the ring encloses inside of the mask. -/
theorem ring_encloses {δ : Type} {m : Build} {mask : ClipMask} {t : Topology δ} {cs : List (List Point)}
    (hcs : ClippedBy m mask t.edges cs) (hlen : ∀ e ∈ t.edges, 2 ≤ e.points.length) (hprod : ProductsFit mask t)
    {ring : TopoRing} {paths : List (List Point)} (hr : ReadsAs t.edges paths ring) (hc : ClosedRing paths) {x y : ℚ}
    (hw : Within mask x y) (hn : ¬ NearCut mask (topoRingSegs t ring) x y) :
    Encloses (((clippedPieces cs ring).map (Piece.path cs)).flatMap segs) x y ↔ Encloses (topoRingSegs t ring) x y := by
  have hpaths := pathsOf_reads hr
  have h1 : Encloses (((clippedPieces cs ring).map (Piece.path cs)).flatMap segs) x y ↔
      Odd (((clippedPieces cs ring).map (Piece.path cs)).map (sumAlong (awayCrosses mask x y))).sum := by
    by_cases h0 : clippedPieces cs ring = []
    · rw [h0]
      simp [Encloses]
    · exact encloses_away (clippedPieces_closed h0)
  have h2 : Encloses (topoRingSegs t ring) x y ↔ Odd (paths.map (sumAlong (awayCrosses mask x y))).sum := by
    unfold topoRingSegs
    rw [hpaths]
    exact encloses_away hc
  rw [h1, h2, pieces_sumAlong (awayCrosses_comm mask x y) (fun p q hp hq => awayCrosses_far hw hp.le hq.le) hcs hlen hr hc,
    ← hpaths, pathsOf, List.map_map]
  have : (ring.directedEdges.map fun de => sumAlong (awayCrosses mask x y) (cs[de.edge]?.getD [])) =
      ring.directedEdges.map (sumAlong (awayCrosses mask x y) ∘ pathOf t) := by
    apply List.map_congr_left
    intro de hde
    have hwd : ∃ path, walk t.edges de = some path := by
      have : walk t.edges de ∈ paths.map some := by
        rw [← show ring.directedEdges.map (walk t.edges) = paths.map some from hr]
        exact List.mem_map_of_mem hde
      obtain ⟨path, _, h⟩ := List.mem_map.mp this
      exact ⟨path, h.symm⟩
    obtain ⟨path, hpath⟩ := hwd
    have hpo : pathOf t de = path := by unfold pathOf; rw [hpath]; rfl
    have hmem : ∀ s ∈ segs path, s ∈ topoRingSegs t ring := fun s hs =>
      List.mem_flatMap.mpr ⟨path, by rw [pathsOf, ← hpo]; exact List.mem_map_of_mem hde, hs⟩
    unfold walk at hpath
    obtain ⟨e, he, hep⟩ := Option.map_eq_some_iff.mp hpath
    obtain ⟨c, hc1, hc2⟩ := forall₂_getElem?_exists hcs he
    have hside : ∀ s ∈ segs e.points, CutAskew mask s → ¬ NearSegment mask s.1 s.2 x y := by
      intro s hs hcr hnear
      apply hn
      cases hdir : de.direction with
      | forward =>
        rw [hdir] at hep
        exact ⟨s, hmem s (by rw [← hep]; exact hs), hcr, hnear⟩
      | backward =>
        rw [hdir] at hep
        refine ⟨s.swap, hmem _ ?_, ⟨crosses_comm.mpr hcr.1, Ne.symm hcr.2⟩, nearSegment_comm hnear⟩
        rw [← hep, segs_reverse, List.mem_reverse]
        exact List.mem_map_of_mem hs
    rw [Function.comp_apply, hpo, hc1, Option.getD_some,
      clipEdge_sumAlong (fun p q hp hq => awayCrosses_far hw hp.le hq.le) hc2,
      seenSum_away hw (hprod e (List.mem_of_getElem? he)) hside, ← hep]
    cases de.direction with
    | forward => rfl
    | backward => exact (sumAlong_reverse (awayCrosses_comm mask x y) _).symm
  rw [this]

end TopoGeo
