import Verif.Proofs.Clip
/-!
# Clipping a single edge (C24 – C29)
-/

namespace TopoGeo

open Spec

/-! ## C24 — every point is inside, on the edge or outside of a mask -/

/-- **C24.** `ClipMask::test` is the sign of the depth of the point, which is
the signed distance from the mask line. -/
theorem C24_test (mask : ClipMask) (p : Point) :
    (mask.test p = .inside ↔ 0 < depth mask p) ∧ (mask.test p = .onEdge ↔ tested mask p = bound mask) ∧
    (mask.test p = .outside ↔ depth mask p < 0) :=
  ⟨test_inside, test_onEdge.trans (depth_zero_iff mask p), test_outside⟩

/-- **C24.** Which side is the inside, for each of the four masks. -/
theorem C24_sides (c : UInt32) (p : Point) :
    ((ClipMask.minX c).test p = .inside ↔ c.toNat < p.x.toNat) ∧
    ((ClipMask.maxX c).test p = .inside ↔ p.x.toNat < c.toNat) ∧
    ((ClipMask.minY c).test p = .inside ↔ c.toNat < p.y.toNat) ∧
    ((ClipMask.maxY c).test p = .inside ↔ p.y.toNat < c.toNat) := by
  refine ⟨?_, ?_, ?_, ?_⟩ <;> rw [test_inside] <;> simp only [depth] <;> omega

/-- **C24.** The two masks with the same line swap inside and outside. -/
theorem C24_mirror (mask : ClipMask) (p : Point) :
    ((mirror mask).test p = .inside ↔ mask.test p = .outside) ∧
    ((mirror mask).test p = .outside ↔ mask.test p = .inside) ∧
    ((mirror mask).test p = .onEdge ↔ mask.test p = .onEdge) := by
  have h : depth (mirror mask) p = - depth mask p := by cases mask <;> simp only [mirror, depth] <;> omega
  simp only [test_inside, test_outside, test_onEdge, h]
  omega

/-! ## C25 — intersections -/

/-- The product that `intersect` forms. -/
def crossProduct (mask : ClipMask) (p q : Point) : Int :=
  (bound mask - tested mask p) * (other mask q - other mask p)

/-- **C25.** If the product fits in an `i64`, then in both builds `intersect`
returns a point on the mask line, whose other coordinate is between those of
the end points and less than one unit away from the exact crossing. -/
theorem C25_intersect (m : Build) {mask : ClipMask} {p q : Point} (hc : Crosses mask p q)
    (hin : InI64 (crossProduct mask p q)) :
    ∃ r, mask.intersect m p q = .ok r ∧ tested mask r = bound mask ∧
      min (other mask p) (other mask q) ≤ other mask r ∧ other mask r ≤ max (other mask p) (other mask q) ∧
      ((other mask r - other mask p) * (tested mask q - tested mask p) - crossProduct mask p q).natAbs <
        (tested mask q - tested mask p).natAbs := by
  obtain ⟨mk, h1, h2⟩ := intersect_eq m mask p q
  have hb := crosses_between hc
  have hp := other_bounds mask p
  have hq := other_bounds mask q
  have ht := tdiv_between (n := bound mask - tested mask p) (d := tested mask q - tested mask p)
    (e := other mask q - other mask p) (by omega)
  rw [interpolate_fits hp hq hb hin, ok_bind] at h2
  refine ⟨_, h2, (h1 _).1, ?_⟩
  have hv : 0 ≤ other mask p + (crossProduct mask p q).tdiv (tested mask q - tested mask p) ∧
      other mask p + (crossProduct mask p q).tdiv (tested mask q - tested mask p) < 2 ^ 32 := by
    unfold crossProduct
    rcases le_total 0 (other mask q - other mask p) with he | he
    · have := ht.1 he; omega
    · have := ht.2 he; omega
  have hr : other mask (mk (asU32 (other mask p + (crossProduct mask p q).tdiv (tested mask q - tested mask p)))) =
      other mask p + (crossProduct mask p q).tdiv (tested mask q - tested mask p) := by
    rw [(h1 _).2, asU32_toNat hv]
  unfold crossProduct at *
  rw [hr]
  refine ⟨?_, ?_, ?_⟩
  · rcases le_total 0 (other mask q - other mask p) with he | he
    · have := ht.1 he; omega
    · have := ht.2 he; omega
  · rcases le_total 0 (other mask q - other mask p) with he | he
    · have := ht.1 he; omega
    · have := ht.2 he; omega
  · rw [show ∀ a b : Int, a + b - a = b from by intros; omega]
    exact tdiv_error (by omega)

/-- **C25.** In a checked build `intersect` panics exactly if the product does
not fit. -/
theorem C25_debug {mask : ClipMask} {p q : Point} (hc : Crosses mask p q) :
    mask.intersect .debug p q = .error .overflow ↔ ¬ InI64 (crossProduct mask p q) := by
  constructor
  · intro h hin
    obtain ⟨r, hr, _⟩ := C25_intersect .debug hc hin
    rw [hr] at h; cases h
  · intro hin
    obtain ⟨mk, h1, h2⟩ := intersect_eq .debug mask p q
    rw [h2, interpolate_debug hin]
    rfl

/-- **C25.** Whatever happens, a returned point is on the mask line, and a
release build always returns one. -/
theorem C25_release_on_line {mask : ClipMask} {p q : Point} (hc : Crosses mask p q) :
    ∃ r, mask.intersect .release p q = .ok r ∧ tested mask r = bound mask := by
  cases h : mask.intersect .release p q with
  | ok r => exact ⟨r, rfl, (depth_zero_iff mask r).mp (intersect_onLine h)⟩
  | error e => cases (intersect_error hc h).1

/-- If the product wraps, the quotient is congruent to an offset between zero and
`e` all the same. -/
theorem wrapped_quotient {n d e : Int} (h : (0 < n ∧ n < d) ∨ (n < 0 ∧ d < n)) (hd : d.natAbs < 2 ^ 32)
    (he : e.natAbs < 2 ^ 32) (hin : ¬ InI64 (n * e)) :
    ∃ v, (v - (wrap64 (n * e)).tdiv d) % 2 ^ 32 = 0 ∧ ((0 ≤ v ∧ v ≤ e) ∨ (e ≤ v ∧ v ≤ 0)) ∧
      ((wrap64 (n * e)).tdiv d).natAbs < 2 ^ 32 := by
  have key : ∀ N D E : Nat, 0 < N → N < D → D < 2 ^ 32 → E < 2 ^ 32 → 2 ^ 63 ≤ N * E →
      (2 ^ 64 - N * E) / D ≤ 2 ^ 32 - 1 ∧ 2 ^ 32 - E ≤ (2 ^ 64 - N * E) / D ∧ N * E < 2 ^ 64 := by
    intro N D E h1 h2 h3 h4 h5
    have h6 : N * E ≤ D * E := Nat.mul_le_mul_right _ h2.le
    have h7 : D * E < 2 ^ 32 * 2 ^ 32 := by nlinarith
    have h8 : 2 ^ 31 < N := by
      by_contra hn
      have : N * E ≤ 2 ^ 31 * (2 ^ 32 - 1) := Nat.mul_le_mul (by omega) (by omega)
      omega
    refine ⟨?_, ?_, by omega⟩
    · have : (2 ^ 64 - N * E) / D < 2 ^ 32 := by
        apply Nat.div_lt_of_lt_mul
        have : 2 ^ 31 * 2 ^ 32 < D * 2 ^ 32 := by nlinarith
        omega
      omega
    · rw [Nat.le_div_iff_mul_le (by omega)]
      have h9 : (2 ^ 32 - E) * D + E * D = 2 ^ 32 * D := by rw [← Nat.add_mul]; congr 1; omega
      have h10 : 2 ^ 32 * D ≤ 2 ^ 32 * 2 ^ 32 := by nlinarith
      rw [Nat.mul_comm E D] at h9
      omega
  have hP : (n * e).natAbs = n.natAbs * e.natAbs := Int.natAbs_mul n e
  have hbig : 2 ^ 63 ≤ n.natAbs * e.natAbs := by
    unfold InI64 at hin; omega
  obtain ⟨k1, k2, k3⟩ := key n.natAbs d.natAbs e.natAbs (by omega) (by omega) hd he hbig
  generalize hK : (2 ^ 64 - n.natAbs * e.natAbs) / d.natAbs = K at k1 k2
  have hW : (wrap64 (n * e)).natAbs = 2 ^ 64 - n.natAbs * e.natAbs := by
    unfold wrap64; unfold InI64 at hin; omega
  have hq : ((wrap64 (n * e)).tdiv d).natAbs = K := by rw [Int.natAbs_tdiv, hW]; exact hK
  have hsign : (0 ≤ e → (wrap64 (n * e)).tdiv d ≤ 0) ∧ (e ≤ 0 → 0 ≤ (wrap64 (n * e)).tdiv d) := by
    have hs : (0 < n * e → wrap64 (n * e) ≤ 0) ∧ (n * e < 0 → 0 ≤ wrap64 (n * e)) := by
      unfold wrap64; unfold InI64 at hin; omega
    rcases h with ⟨h1, h2⟩ | ⟨h1, h2⟩
    · constructor
      · intro h0
        have : 0 ≤ n * e := Int.mul_nonneg h1.le h0
        have := Int.tdiv_nonneg (a := -wrap64 (n * e)) (b := d) (by have := hs.1; omega) (by omega)
        rw [Int.neg_tdiv] at this
        omega
      · intro h0
        have : n * e ≤ 0 := Int.mul_nonpos_of_nonneg_of_nonpos h1.le h0
        exact Int.tdiv_nonneg (hs.2 (by omega)) (by omega)
    · constructor
      · intro h0
        have : n * e ≤ 0 := Int.mul_nonpos_of_nonpos_of_nonneg h1.le h0
        have := Int.tdiv_nonneg (a := wrap64 (n * e)) (b := -d) (hs.2 (by omega)) (by omega)
        rw [Int.tdiv_neg] at this
        omega
      · intro h0
        have : 0 ≤ n * e := Int.mul_nonneg_of_nonpos_of_nonpos h1.le h0
        have := Int.tdiv_nonneg (a := -wrap64 (n * e)) (b := -d) (by have := hs.1; omega) (by omega)
        rw [Int.neg_tdiv_neg] at this
        omega
  rcases le_total 0 e with h0 | h0
  · have := hsign.1 h0
    exact ⟨2 ^ 32 - K, by omega, Or.inl (by omega), by omega⟩
  · have := hsign.2 h0
    exact ⟨K - 2 ^ 32, by omega, Or.inr (by omega), by omega⟩

/-- **C25.** In a release build the crossing is between the end points even if the
product wraps. -/
theorem C25_release_between {mask : ClipMask} {p q : Point} (hc : Crosses mask p q) :
    ∃ r, mask.intersect .release p q = .ok r ∧ tested mask r = bound mask ∧
      min (other mask p) (other mask q) ≤ other mask r ∧ other mask r ≤ max (other mask p) (other mask q) := by
  by_cases hin : InI64 (crossProduct mask p q)
  · obtain ⟨r, h1, h2, h3, h4, _⟩ := C25_intersect .release hc hin
    exact ⟨r, h1, h2, h3, h4⟩
  obtain ⟨mk, h1, h2⟩ := intersect_eq .release mask p q
  have hb := crosses_between hc
  have hp := other_bounds mask p
  have hq := other_bounds mask q
  have ht : ∀ x, 0 ≤ tested mask x ∧ tested mask x < 2 ^ 32 := fun x => by cases mask <;> exact u32_bounds _
  have htp := ht p
  have htq := ht q
  unfold crossProduct at hin
  obtain ⟨v, h3, h4, h5⟩ := wrapped_quotient (n := bound mask - tested mask p) (d := tested mask q - tested mask p)
    (e := other mask q - other mask p) (by omega) (by omega) (by omega) hin
  unfold interpolate i64Div at h2
  rw [i64_release, ok_bind, if_neg (by omega), if_neg (by omega), ok_bind,
    i64_of_inI64 (by unfold InI64; omega), ok_bind] at h2
  refine ⟨_, h2, (h1 _).1, ?_⟩
  have hv : (asU32 (other mask p + (wrap64 ((bound mask - tested mask p) * (other mask q - other mask p))).tdiv
      (tested mask q - tested mask p))).toNat = (other mask p + v : Int) := by
    rw [← asU32_toNat (z := other mask p + v) (by omega)]
    have hmod : (other mask p + (wrap64 ((bound mask - tested mask p) * (other mask q - other mask p))).tdiv
      (tested mask q - tested mask p)) % 2 ^ 32 = (other mask p + v) % 2 ^ 32 := by omega
    exact congrArg (fun z : Int => ((UInt32.ofNat z.toNat).toNat : Int)) hmod
  rw [(h1 _).2, hv]
  omega

-- non-vacuity: a product that wraps
example : Crosses (.minX 4000000000) ⟨0, 0⟩ ⟨4294967295, 4294967295⟩ ∧
    ¬ InI64 (crossProduct (.minX 4000000000) ⟨0, 0⟩ ⟨4294967295, 4294967295⟩) := by
  unfold Crosses InI64
  decide +kernel

/-- **C25.** The product always fits if the coordinates are below `2 ^ 31`. -/
theorem C25_small {mask : ClipMask} {p q : Point} (hc : Crosses mask p q)
    (hp : tested mask p < 2 ^ 31 ∧ other mask p < 2 ^ 31) (hq : tested mask q < 2 ^ 31 ∧ other mask q < 2 ^ 31) :
    InI64 (crossProduct mask p q) := by
  have hb := crosses_between hc
  have h1 := other_bounds mask p
  have h2 := other_bounds mask q
  have h3 : 0 ≤ tested mask p ∧ 0 ≤ tested mask q := by
    cases mask <;> exact ⟨(u32_bounds _).1, (u32_bounds _).1⟩
  have ha : (bound mask - tested mask p).natAbs ≤ 2 ^ 31 := by omega
  have hd : (other mask q - other mask p).natAbs ≤ 2 ^ 31 := by omega
  have := Nat.mul_le_mul ha hd
  rw [← Int.natAbs_mul] at this
  unfold InI64 crossProduct
  omega

example : Crosses (.minX 20) ⟨50, 50⟩ ⟨10, 100⟩ ∧ InI64 (crossProduct (.minX 20) ⟨50, 50⟩ ⟨10, 100⟩) := by
  unfold Crosses InI64
  decide +kernel

/-- The rounding goes towards the first end point, so the crossing of a segment
depends on the direction in which it is walked. -/
example : (ClipMask.minX 20).intersect .debug ⟨50, 50⟩ ⟨10, 100⟩ = .ok ⟨20, 87⟩ ∧
    (ClipMask.minX 20).intersect .debug ⟨10, 100⟩ ⟨50, 50⟩ = .ok ⟨20, 88⟩ := by decide +kernel

/-- C25 without the condition on the product, for a release build. -/
def C25_release_full : Prop :=
  ∀ (mask : ClipMask) (p q : Point), Crosses mask p q →
    ∃ r, mask.intersect .release p q = .ok r ∧
      min (other mask p) (other mask q) ≤ other mask r ∧ other mask r ≤ max (other mask p) (other mask q) ∧
      ((other mask r - other mask p) * (tested mask q - tested mask p) - crossProduct mask p q).natAbs <
        (tested mask q - tested mask p).natAbs

/-- **C25, refuted for release builds.** The crossing of the diagonal from
`(0, 0)` to the opposite corner with `x = 4000000000` is far off. -/
theorem C25_release_refuted : ¬ C25_release_full := by
  intro h
  obtain ⟨r, hr, _, _, h3⟩ := h (.minX 4000000000) ⟨0, 0⟩ ⟨4294967295, 4294967295⟩
    (by unfold Crosses; decide +kernel)
  have h' : ((ClipMask.minX 4000000000).intersect .release ⟨0, 0⟩ ⟨4294967295, 4294967295⟩).toOption.map
      (fun r => decide (((other (.minX 4000000000) r - 0) * 4294967295 -
        crossProduct (.minX 4000000000) ⟨0, 0⟩ ⟨4294967295, 4294967295⟩).natAbs < 4294967295)) = some false := by
    decide +kernel
  rw [hr] at h'
  simp only [Except.toOption, Option.map_some, Option.some.injEq, decide_eq_false_iff_not] at h'
  exact h' h3

/-! ## C26 — a clipped edge never leaves the mask -/

/-- **C26.** -/
theorem C26_stays_inside {m : Build} {mask : ClipMask} {edge out : List Point}
    (h : clipEdge m mask edge = .ok out) : ∀ p ∈ out, 0 ≤ depth mask p := by
  match edge, h with
  | [], h => obtain rfl := Except.ok.inj h; simp
  | [_], h => obtain rfl := Except.ok.inj h; simp
  | p :: q :: rest, h =>
    rw [clipEdge_eq] at h
    split at h
    · rename_i hp
      rw [bind_ok] at h
      obtain ⟨l', h1, h⟩ := h
      obtain rfl := Except.ok.inj h
      intro x hx
      rw [List.mem_cons] at hx
      rcases hx with rfl | hx
      · exact hp.le
      · exact clipRest_inside h1 x hx
    · exact clipRest_inside h

example : clipEdge .debug (.minX 20) [⟨10, 10⟩, ⟨30, 10⟩, ⟨40, 20⟩, ⟨5, 20⟩, ⟨20, 30⟩] =
    .ok [⟨20, 10⟩, ⟨30, 10⟩, ⟨40, 20⟩, ⟨20, 20⟩] := by decide +kernel

/-! ## C27 — visible edges are left alone and invisible ones removed -/

/-- **C27.** An edge that is inside is returned as it is. -/
theorem C27_inside (m : Build) {mask : ClipMask} {edge : List Point} (hlen : 2 ≤ edge.length)
    (h : ∀ p ∈ edge, 0 < depth mask p) : clipEdge m mask edge = .ok edge := by
  match edge, hlen, h with
  | p :: q :: rest, _, h =>
    have hp := h p (by simp)
    rw [clipEdge_eq, if_pos hp, clipRest_all_inside hp (fun x hx => h x (by simp only [List.mem_cons] at hx ⊢; tauto))]
    rfl

/-- **C27.** An edge of which no point is inside is removed. -/
theorem C27_outside (m : Build) {mask : ClipMask} {edge : List Point}
    (h : edge.length < 2 ∨ ∀ p ∈ edge, depth mask p ≤ 0) : clipEdge m mask edge = .ok [] := by
  match edge, h with
  | [], _ => rfl
  | [_], _ => rfl
  | p :: q :: rest, h =>
    have h : ∀ x ∈ p :: q :: rest, depth mask x ≤ 0 := by
      rcases h with h | h
      · simp at h; omega
      · exact h
    have hp := h p (by simp)
    rw [clipEdge_eq, if_neg (by omega)]
    exact clipRest_none_inside (by omega)
      (fun x hx => by have := h x (by simp only [List.mem_cons] at hx ⊢; tauto); omega)

/-- **C27.** The inside points of the output are those of the input, in order. -/
theorem C27_inside_points {m : Build} {mask : ClipMask} {edge out : List Point} (hlen : 2 ≤ edge.length)
    (h : clipEdge m mask edge = .ok out) :
    out.filter (fun p => 0 < depth mask p) = edge.filter (fun p => 0 < depth mask p) := by
  match edge, hlen, h with
  | p :: q :: rest, _, h =>
    rw [clipEdge_eq] at h
    split at h
    · rename_i hp
      rw [bind_ok] at h
      obtain ⟨l', h1, h⟩ := h
      obtain rfl := Except.ok.inj h
      have := clipRest_filter h1
      rw [List.filter_cons_of_pos (by simpa using hp), List.filter_cons_of_pos (by simpa using hp), this]
    · rename_i hp
      rw [List.filter_cons_of_neg (a := p) (by simpa using hp)]
      exact clipRest_filter h

/-- **C27.** The output is empty exactly if no point is inside. -/
theorem C27_empty_iff {m : Build} {mask : ClipMask} {edge out : List Point}
    (h : clipEdge m mask edge = .ok out) :
    out = [] ↔ edge.length < 2 ∨ ∀ p ∈ edge, depth mask p ≤ 0 := by
  constructor
  · intro he
    subst he
    by_cases hlen : edge.length < 2
    · exact Or.inl hlen
    · refine Or.inr fun p hp => ?_
      have := C27_inside_points (by omega) h
      by_contra hd
      have hm : p ∈ edge.filter (fun p => 0 < depth mask p) := List.mem_filter.mpr ⟨hp, by simpa using hd⟩
      rw [← this] at hm
      simp at hm
  · intro he
    rw [C27_outside m he] at h
    exact (Except.ok.inj h).symm

example : (∀ p ∈ [(⟨30, 10⟩ : Point), ⟨40, 20⟩], 0 < depth (.minX 20) p) ∧
    (∀ p ∈ [(⟨10, 10⟩ : Point), ⟨20, 20⟩], depth (.minX 20) p ≤ 0) := by decide +kernel

/-! ## C28 — the output is precisely the visible pieces -/

/-- **C28.** There are crossing points `X`, those `intersect` computes, such
that the output is, up to repeated points, the concatenation of the visible
parts of the segments of the edge. -/
theorem C28_visible {m : Build} {mask : ClipMask} {edge out : List Point}
    (h : clipEdge m mask edge = .ok out) :
    ∃ X : Point → Point → Point, (∀ p q r, mask.intersect m p q = .ok r → X p q = r) ∧
      unrepeat out = unrepeat (visibleParts mask X edge).flatten := by
  refine ⟨crossing m mask, fun p q r hr => by unfold crossing; rw [hr], ?_⟩
  match edge, h with
  | [], h => obtain rfl := Except.ok.inj h; rfl
  | [_], h => obtain rfl := Except.ok.inj h; rfl
  | p :: q :: rest, h =>
    rw [clipEdge_eq] at h
    split at h
    · rename_i hp
      rw [bind_ok] at h
      obtain ⟨l', h1, h⟩ := h
      obtain rfl := Except.ok.inj h
      have := clipRest_visible (prev := p) (ret := [p]) (fun _ => rfl) h1
      rw [List.singleton_append, List.singleton_append] at this
      rw [this]
      obtain ⟨t, ht⟩ : ∃ t, (visibleParts mask (crossing m mask) (p :: q :: rest)).flatten = p :: t := by
        simp only [visibleParts, List.flatten_cons, visiblePart]
        rw [if_pos (Or.inl hp), if_neg (by omega)]
        split <;> exact ⟨_, rfl⟩
      rw [ht, unrepeat_cons_cons_self]
    · rename_i hp
      exact clipRest_visible (ret := []) (fun h' => absurd h' hp) h

/-- **C28.** No `intersect` in the visible parts failed. -/
theorem C28_crossings {m : Build} {mask : ClipMask} {edge out : List Point}
    (h : clipEdge m mask edge = .ok out) :
    ∀ p q, [p, q] ∈ pairs edge → Crosses mask p q → ∃ r, mask.intersect m p q = .ok r := by
  have key : ∀ (pts : List Point) (prev : Point) (last : Option Point) (l : List Point),
      clipRest m mask prev last pts = .ok l →
      ∀ p q, [p, q] ∈ pairs (prev :: pts) → Crosses mask p q → ∃ r, mask.intersect m p q = .ok r := by
    intro pts
    induction pts with
    | nil => intro prev last l _ p q hpq; simp [pairs] at hpq
    | cons c rest ih =>
      intro prev last l h p q hpq hx
      have hrest : ∃ last l, clipRest m mask c last rest = .ok l := by
        simp only [clipRest] at h
        repeat' split at h
        all_goals first
          | exact ⟨_, _, h⟩
          | (rw [bind_ok] at h; obtain ⟨_, h1, h⟩ := h
             first
               | exact ⟨_, _, h1⟩
               | (rw [bind_ok] at h; obtain ⟨_, h1, _⟩ := h; exact ⟨_, _, h1⟩))
      simp only [pairs, List.mem_cons, List.cons.injEq, and_true] at hpq
      rcases hpq with ⟨rfl, rfl⟩ | hpq
      · simp only [clipRest] at h
        rcases hx with ⟨h1, h2⟩ | ⟨h1, h2⟩
        · rw [if_neg (by omega), if_pos h2, if_pos h1, bind_ok] at h
          obtain ⟨r, hr, _⟩ := h
          exact ⟨r, hr⟩
        · rw [if_neg (by omega), if_neg (by omega), if_pos h1, bind_ok] at h
          obtain ⟨r, hr, _⟩ := h
          exact ⟨r, hr⟩
      · obtain ⟨last', l', h'⟩ := hrest
        exact ih c last' l' h' p q (by simpa [pairs] using hpq) hx
  match edge, h with
  | [], _ => intro p q hpq; simp [pairs] at hpq
  | [_], _ => intro p q hpq; simp [pairs] at hpq
  | p :: q :: rest, h =>
    rw [clipEdge_eq] at h
    split at h
    · rw [bind_ok] at h
      obtain ⟨l', h1, _⟩ := h
      exact key _ _ _ _ h1
    · exact key _ _ _ _ h

/-- **C28.** Two consecutive output points are either both on the mask line, or
the visible part of a segment of the edge. -/
theorem C28_steps {m : Build} {mask : ClipMask} {edge out : List Point}
    (h : clipEdge m mask edge = .ok out) :
    ∃ X : Point → Point → Point, (∀ p q r, mask.intersect m p q = .ok r → X p q = r) ∧
      ∀ a b, [a, b] ∈ pairs out → (depth mask a = 0 ∧ depth mask b = 0) ∨
        ∃ p q, [p, q] ∈ pairs edge ∧ visiblePart mask X p q = [a, b] := by
  refine ⟨crossing m mask, fun p q r hr => by unfold crossing; rw [hr], ?_⟩
  match edge, h with
  | [], h => obtain rfl := Except.ok.inj h; simp [pairs]
  | [_], h => obtain rfl := Except.ok.inj h; simp [pairs]
  | p :: q :: rest, h =>
    rw [clipEdge_eq] at h
    split at h
    · rename_i hp
      rw [bind_ok] at h
      obtain ⟨l', h1, h⟩ := h
      obtain rfl := Except.ok.inj h
      exact clipRest_steps (last := some p) ⟨fun _ => rfl, fun h' => absurd hp h'⟩ (fun s hs => hs) h1
    · rename_i hp
      exact clipRest_steps (last := none) ⟨fun h' => absurd h' hp, fun _ x hx => by cases hx⟩ (fun s hs => hs) h

/-- A path that leaves the mask and comes back: the output is joined along the
mask line. -/
example : clipEdge .debug (.minX 20) [⟨30, 10⟩, ⟨10, 10⟩, ⟨10, 30⟩, ⟨30, 30⟩] =
    .ok [⟨30, 10⟩, ⟨20, 10⟩, ⟨20, 30⟩, ⟨30, 30⟩] := by decide +kernel

/-! ## C29 — clipping twice -/

/-- **C29.** Clipping the output again merges points repeated on the mask line
and does nothing else; it cannot panic. -/
theorem C29_twice {m : Build} (m' : Build) {mask : ClipMask} {edge out : List Point}
    (h : clipEdge m mask edge = .ok out) : clipEdge m' mask out = .ok (mergeOnLine mask out) :=
  clipEdge_wc m' (clipEdge_shape h)

/-- **C29.** A third application changes nothing more. -/
theorem C29_thrice {m : Build} (m' : Build) {mask : ClipMask} {edge out : List Point}
    (h : clipEdge m mask edge = .ok out) :
    clipEdge m' mask (mergeOnLine mask out) = .ok (mergeOnLine mask out) := by
  have hidem : ∀ l : List Point, mergeOnLine mask (mergeOnLine mask l) = mergeOnLine mask l := by
    intro l
    have hd : ∀ l : List Point, (mergeOnLine mask l).head? = l.head? := by
      intro l
      induction l with
      | nil => rfl
      | cons a l ih =>
        cases l with
        | nil => rfl
        | cons b l =>
          rw [mergeOnLine]
          split
          · rename_i hab; rw [ih, hab.1]; rfl
          · rfl
    induction l with
    | nil => rfl
    | cons a l ih =>
      cases l with
      | nil => rfl
      | cons b l =>
        rw [mergeOnLine]
        split
        · exact ih
        · rename_i hab
          have hb := hd (b :: l)
          cases hm : mergeOnLine mask (b :: l) with
          | nil => rw [hm] at hb; simp at hb
          | cons c t =>
            rw [hm] at hb ih
            simp only [List.head?_cons, Option.some.injEq] at hb
            subst hb
            rw [mergeOnLine, if_neg hab, ih]
  rw [C29_twice m' (C29_twice m h), hidem]

/-- The second clip can really merge points. -/
example : clipEdge .debug (.minX 20) [⟨30, 10⟩, ⟨10, 10⟩, ⟨30, 10⟩] =
      .ok [⟨30, 10⟩, ⟨20, 10⟩, ⟨20, 10⟩, ⟨30, 10⟩] ∧
    clipEdge .debug (.minX 20) [⟨30, 10⟩, ⟨20, 10⟩, ⟨20, 10⟩, ⟨30, 10⟩] =
      .ok [⟨30, 10⟩, ⟨20, 10⟩, ⟨30, 10⟩] := by decide +kernel

/-- **C29.** A non-empty output has at least two points. -/
theorem C29_two_points {m : Build} {mask : ClipMask} {edge out : List Point}
    (h : clipEdge m mask edge = .ok out) (hne : out ≠ []) : 2 ≤ out.length :=
  wellClipped_length (clipEdge_shape h) hne

/-- `clip_edge` never panics in a release build; in a checked build the only
panic is the overflow of C25. -/
theorem C29_panics {m : Build} {mask : ClipMask} {edge : List Point} {e : Panic}
    (h : clipEdge m mask edge = .error e) : m = .debug ∧ e = .overflow :=
  clipEdge_onlyOverflow m mask edge e h

end TopoGeo
