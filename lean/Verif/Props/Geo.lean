import Verif.Proofs.Geo
/-!
# Properties C01-C06: areas and winding orders (`src/geo/mod.rs`)
-/

namespace TopoGeo

open Spec

/-- The triangle used in the crate's tests. -/
def exTriangle : List Point := [⟨1, 1⟩, ⟨2, 1⟩, ⟨1, 2⟩, ⟨1, 1⟩]

/-- The boundary of the whole `u32` square, clockwise (y grows downwards). -/
def exFullSquare : List Point :=
  [⟨0, 0⟩, ⟨4294967295, 0⟩, ⟨4294967295, 4294967295⟩, ⟨0, 4294967295⟩, ⟨0, 0⟩]

/-! ## C01 -/

/-- C01: a checked build returns the exact shoelace sum or panics with an
arithmetic overflow. -/
theorem C01_debug (ps : List Point) :
    signedArea2 .debug ps = .ok (shoelace ps) ∨ signedArea2 .debug ps = .error .overflow := by
  cases h : signedArea2 .debug ps with
  | ok v => left; rw [signedArea2_debug h]
  | error e => right; rw [(signedArea2_error h).2]

/-- C01: a release build never panics and returns the shoelace sum modulo
2^64. -/
theorem C01_release (ps : List Point) :
    signedArea2 .release ps = .ok (wrap64 (shoelace ps)) := signedArea2_release ps

/-- C01: hence a release build is exact whenever the true value fits. -/
theorem C01_release_exact (ps : List Point) (h : InI64 (shoelace ps)) :
    signedArea2 .release ps = .ok (shoelace ps) := by
  rw [C01_release, wrap64_of_inI64 h]

/-- C01: a checked build succeeds when all coordinates are below `2^k` and
there are at most `2^(62 - 2k)` points. -/
theorem C01_debug_succeeds (ps : List Point) (k : Nat)
    (hx : ∀ p ∈ ps, p.x.toNat < 2 ^ k ∧ p.y.toNat < 2 ^ k)
    (hn : ps.length * 2 ^ (2 * k) ≤ 2 ^ 62) :
    signedArea2 .debug ps = .ok (shoelace ps) := by
  have bound : ∀ p ∈ ps, ∀ q ∈ ps, 0 ≤ p.xi * q.yi ∧ p.xi * q.yi ≤ 2 ^ (2 * k) := by
    intro p hp q hq
    have h1 := (hx p hp).1
    have h2 := (hx q hq).2
    constructor
    · exact Int.mul_nonneg (Int.natCast_nonneg _) (Int.natCast_nonneg _)
    · have : p.x.toNat * q.y.toNat ≤ 2 ^ k * 2 ^ k := Nat.mul_le_mul h1.le h2.le
      have h3 : (2 : Nat) ^ k * 2 ^ k = 2 ^ (2 * k) := by rw [← pow_add]; congr 1; omega
      rw [h3] at this
      unfold Point.xi Point.yi
      exact_mod_cast this
  have main : ∀ (l : List (Point × Point)) (a : Int) (n : Nat),
      (∀ pq ∈ l, pq.1 ∈ ps ∧ pq.2 ∈ ps) →
      (a.natAbs ≤ n * 2 ^ (2 * k)) → (n + l.length) * 2 ^ (2 * k) ≤ 2 ^ 62 →
      signedArea2Loop .debug a l = .ok (a + crossSum l) := by
    intro l
    induction l with
    | nil => intro a n _ _ _; simp [signedArea2Loop, crossSum]
    | cons pq rest ih =>
      intro a n hmem ha hlen
      obtain ⟨p, q⟩ := pq
      obtain ⟨hp, hq⟩ := hmem (p, q) (by simp)
      have b1 := bound p hp q hq
      have b2 := bound q hq p hp
      simp only [List.length_cons] at hlen
      have hone : (2 : Nat) ^ (2 * k) ≤ 2 ^ 62 :=
        le_trans (Nat.le_mul_of_pos_left _ (by omega)) hlen
      have hsum : (n + 1) * 2 ^ (2 * k) ≤ 2 ^ 62 :=
        le_trans (Nat.mul_le_mul_right _ (by omega)) hlen
      rw [Nat.add_mul, Nat.one_mul] at hsum
      have hone' : (2 : Int) ^ (2 * k) ≤ 2 ^ 62 := by exact_mod_cast hone
      have hB : ((2 ^ (2 * k) : Nat) : Int) = 2 ^ (2 * k) := by push_cast; rfl
      generalize hBdef : (2 : Int) ^ (2 * k) = B at *
      generalize hNdef : (2 : Nat) ^ (2 * k) = N at *
      have hcross : cross p q = p.xi * q.yi - q.xi * p.yi := rfl
      have hterm : shoelaceTerm .debug p q = .ok (cross p q) := by
        unfold shoelaceTerm
        rw [i64_of_inI64 (by unfold InI64; omega), ok_bind,
          i64_of_inI64 (by unfold InI64; omega), ok_bind,
          i64_of_inI64 (by unfold InI64; omega), hcross]
      have habs : (a + cross p q).natAbs ≤ (n + 1) * N := by
        rw [Nat.add_mul, Nat.one_mul]; omega
      have hin : InI64 (a + cross p q) := by
        rw [Nat.add_mul, Nat.one_mul] at habs
        unfold InI64; omega
      simp only [signedArea2Loop, hterm, ok_bind, i64_of_inI64 hin]
      rw [ih (a + cross p q) (n + 1) (fun x hx => hmem x (by simp [hx])) habs
        (by rw [show n + 1 + rest.length = n + (rest.length + 1) by omega]; exact hlen)]
      simp [crossSum]; ring
  have hmem : ∀ (l : List Point), (∀ p ∈ l, p ∈ ps) → ∀ pq ∈ tupleWindows l, pq.1 ∈ ps ∧ pq.2 ∈ ps := by
    intro l
    induction l with
    | nil => simp [tupleWindows]
    | cons p t ih =>
      cases t with
      | nil => simp [tupleWindows]
      | cons q t =>
        intro hl pq hpq
        simp only [tupleWindows, List.mem_cons] at hpq
        rcases hpq with rfl | hpq
        · exact ⟨hl _ (by simp), hl _ (by simp)⟩
        · exact ih (fun x hx => hl x (by simp [hx])) pq (by simpa using hpq)
  have hlen : ∀ l : List Point, (tupleWindows l).length ≤ l.length := by
    intro l
    induction l with
    | nil => simp [tupleWindows]
    | cons p t ih =>
      cases t with
      | nil => simp [tupleWindows]
      | cons q t => simp only [tupleWindows, List.length_cons] at ih ⊢; omega
  have := main (tupleWindows ps) 0 0 (hmem ps (fun _ h => h)) (by simp)
    (by rw [Nat.zero_add]; exact le_trans (Nat.mul_le_mul_right _ (hlen ps)) hn)
  simpa [signedArea2, crossSum_tupleWindows] using this

/-- C01: exactly when a checked build succeeds: the two products of each pair of
adjacent points are below 2^63, and the sum over each prefix of the path fits in
an `i64`. -/
theorem C01_debug_iff (ps : List Point) :
    signedArea2 .debug ps = .ok (shoelace ps) ↔
      (∀ (i : Nat) (p q : Point), ps[i]? = some p → ps[i + 1]? = some q →
        (p.x.toNat * q.y.toNat < 2 ^ 63 ∧ q.x.toNat * p.y.toNat < 2 ^ 63)) ∧
      ∀ n, InI64 (shoelace (ps.take n)) := by
  have main : ∀ (ps : List Point) (a : Int), InI64 a →
      (signedArea2Loop .debug a (tupleWindows ps) = .ok (a + shoelace ps) ↔
      (∀ (i : Nat) (p q : Point), ps[i]? = some p → ps[i + 1]? = some q →
        (p.x.toNat * q.y.toNat < 2 ^ 63 ∧ q.x.toNat * p.y.toNat < 2 ^ 63)) ∧
      ∀ n, InI64 (a + shoelace (ps.take n))) := by
    intro ps
    induction ps with
    | nil => intro a ha; simp [tupleWindows, signedArea2Loop, shoelace, ha]
    | cons p t ih =>
      intro a ha
      cases t with
      | nil =>
        have : ∀ n, shoelace ([p].take n) = 0 := by intro n; cases n <;> simp [shoelace]
        simp [tupleWindows, signedArea2Loop, shoelace, this, ha]
      | cons q t =>
        have hpre : ∀ n, shoelace ((p :: q :: t).take (n + 2)) = cross p q + shoelace ((q :: t).take (n + 1)) := by
          intro n; simp [shoelace]
        have hprod : (p.x.toNat * q.y.toNat < 2 ^ 63 ∧ q.x.toNat * p.y.toNat < 2 ^ 63) ↔
            (InI64 (p.xi * q.yi) ∧ InI64 (q.xi * p.yi) ∧ InI64 (p.xi * q.yi - q.xi * p.yi)) := by
          have e1 : p.xi * q.yi = ((p.x.toNat * q.y.toNat : Nat) : Int) := by simp [Point.xi, Point.yi]
          have e2 : q.xi * p.yi = ((q.x.toNat * p.y.toNat : Nat) : Int) := by simp [Point.xi, Point.yi]
          rw [e1, e2]
          unfold InI64
          omega
        have hcr : p.xi * q.yi - q.xi * p.yi = cross p q := by simp [cross, Point.xi, Point.yi]
        have hpairs : (∀ (i : Nat) (p' q' : Point), (p :: q :: t)[i]? = some p' → (p :: q :: t)[i + 1]? = some q' →
            (p'.x.toNat * q'.y.toNat < 2 ^ 63 ∧ q'.x.toNat * p'.y.toNat < 2 ^ 63)) ↔
            (p.x.toNat * q.y.toNat < 2 ^ 63 ∧ q.x.toNat * p.y.toNat < 2 ^ 63) ∧
            ∀ (i : Nat) (p' q' : Point), (q :: t)[i]? = some p' → (q :: t)[i + 1]? = some q' →
            (p'.x.toNat * q'.y.toNat < 2 ^ 63 ∧ q'.x.toNat * p'.y.toNat < 2 ^ 63) := by
          constructor
          · intro h
            exact ⟨h 0 p q rfl rfl, fun i p' q' h1 h2 => h (i + 1) p' q' h1 h2⟩
          · rintro ⟨h1, h2⟩ i p' q' g1 g2
            cases i with
            | zero =>
              obtain rfl := Option.some.inj g1
              obtain rfl := Option.some.inj g2
              exact h1
            | succ i => exact h2 i p' q' g1 g2
        have hsums : (∀ n, InI64 (a + shoelace ((p :: q :: t).take n))) ↔
            ∀ n, InI64 (a + cross p q + shoelace ((q :: t).take n)) := by
          constructor
          · intro h n
            cases n with
            | zero =>
              have := h 2
              rw [hpre] at this
              simpa [shoelace] using this
            | succ n =>
              have := h (n + 2)
              rw [hpre] at this
              rwa [add_assoc]
          · intro h n
            match n with
            | 0 => simpa [shoelace] using ha
            | 1 => simpa [shoelace] using ha
            | n + 2 =>
              rw [hpre, ← add_assoc]
              exact h (n + 1)
        have hstep : signedArea2Loop .debug a (tupleWindows (p :: q :: t)) = .ok (a + shoelace (p :: q :: t)) ↔
            (p.x.toNat * q.y.toNat < 2 ^ 63 ∧ q.x.toNat * p.y.toNat < 2 ^ 63) ∧ InI64 (a + cross p q) ∧
            signedArea2Loop .debug (a + cross p q) (tupleWindows (q :: t)) = .ok (a + cross p q + shoelace (q :: t)) := by
          rw [hprod]
          simp only [tupleWindows, signedArea2Loop, shoelaceTerm, bind_ok, i64_debug, shoelace, ← add_assoc]
          constructor
          · rintro ⟨_, ⟨_, ⟨rfl, h1⟩, _, ⟨rfl, h2⟩, rfl, h3⟩, _, ⟨rfl, h4⟩, h5⟩
            rw [hcr] at h4 h5
            exact ⟨⟨h1, h2, h3⟩, h4, h5⟩
          · rintro ⟨⟨h1, h2, h3⟩, h4, h5⟩
            exact ⟨_, ⟨_, ⟨rfl, h1⟩, _, ⟨rfl, h2⟩, rfl, h3⟩, _, ⟨rfl, by rw [hcr]; exact h4⟩, by rw [hcr]; exact h5⟩
        rw [hstep, hpairs, hsums]
        constructor
        · rintro ⟨h1, h2, h3⟩
          obtain ⟨h4, h5⟩ := (ih _ h2).mp h3
          exact ⟨⟨h1, h4⟩, h5⟩
        · rintro ⟨⟨h1, h4⟩, h5⟩
          have h2 : InI64 (a + cross p q) := by simpa [shoelace] using h5 0
          exact ⟨h1, h2, (ih _ h2).mpr ⟨h4, h5⟩⟩
  have h0 := main ps 0 (by unfold InI64; omega)
  simpa [signedArea2] using h0

-- non-vacuity: a triangle fits; the full square does not, and overflows in both senses
example : InI64 (shoelace exTriangle) ∧ signedArea2 .release exTriangle = .ok 1 := by decide +kernel
example : signedArea2 .debug exFullSquare = .error .overflow ∧
    signedArea2 .release exFullSquare = .ok (-17179869182) ∧
    shoelace exFullSquare = 2 * 4294967295 ^ 2 := by decide +kernel
example : (∀ p ∈ exTriangle, p.x.toNat < 2 ^ 28 ∧ p.y.toNat < 2 ^ 28) ∧
    exTriangle.length * 2 ^ (2 * 28) ≤ 2 ^ 62 := by decide +kernel

/-! ## C02 -/

/-- C02 (mathematics): cutting a path at a vertex splits its shoelace sum. -/
theorem C02_shoelace_cut (l : List Point) (p : Point) (r : List Point) :
    shoelace (l ++ p :: r) = shoelace (l ++ [p]) + shoelace (p :: r) := shoelace_append l p r

/-- C02: in a checked build, if all three runs succeed, the results of the two
pieces add up exactly. -/
theorem C02_debug (l : List Point) (p : Point) (r : List Point) (a b c : Int)
    (ha : signedArea2 .debug (l ++ [p]) = .ok a) (hb : signedArea2 .debug (p :: r) = .ok b)
    (hc : signedArea2 .debug (l ++ p :: r) = .ok c) : c = a + b := by
  rw [signedArea2_debug ha, signedArea2_debug hb, signedArea2_debug hc, shoelace_append]

/-- C02: in a release build the results of the two pieces add up with wrapping
addition, without any restriction. -/
theorem C02_release (l : List Point) (p : Point) (r : List Point) :
    ∃ a b, signedArea2 .release (l ++ [p]) = .ok a ∧ signedArea2 .release (p :: r) = .ok b ∧
      signedArea2 .release (l ++ p :: r) = .ok (wrap64 (a + b)) := by
  refine ⟨_, _, signedArea2_release _, signedArea2_release _, ?_⟩
  rw [signedArea2_release, shoelace_append, wrap64_add_wrap64_left, wrap64_add_wrap64_right]

theorem shoelace_joinPath (es : List (List Point)) (h : Chained es) :
    shoelace (joinPath es) = shoelaceEdges es := by
  induction es with
  | nil => rfl
  | cons e rest ih =>
    cases rest with
    | nil => simp [joinPath, shoelaceEdges]
    | cons f rest =>
      obtain ⟨⟨p, hp1, hp2⟩, h2⟩ := h
      have ih := ih h2
      obtain ⟨f', rfl⟩ : ∃ f', f = p :: f' := by
        cases f with
        | nil => simp at hp2
        | cons x f' => simp at hp2; exact ⟨f', by rw [hp2]⟩
      obtain ⟨e', rfl⟩ : ∃ e', e = e' ++ [p] := by
        have hne : e ≠ [] := by rintro rfl; simp at hp1
        refine ⟨e.dropLast, ?_⟩
        rw [List.getLast?_eq_some_getLast hne] at hp1
        rw [← Option.some.inj hp1]; exact (List.dropLast_concat_getLast hne).symm
      have : joinPath ((e' ++ [p]) :: (p :: f') :: rest) = e' ++ p :: (f' ++ (rest.map List.tail).flatten) := by
        simp [joinPath]
      rw [this, shoelace_append]
      have h3 : joinPath ((p :: f') :: rest) = p :: (f' ++ (rest.map List.tail).flatten) := by
        simp [joinPath]
      rw [h3] at ih
      rw [ih]
      simp [shoelaceEdges]

/-- C02: the edges of a ring add up to the ring that follows them
(mathematically, hence modulo 2^64 in a release build). -/
theorem C02_edges (es : List (List Point)) (h : Chained es) :
    shoelace (joinPath es) = shoelaceEdges es ∧
    edgesAreaLoop .release 0 es = signedArea2 .release (joinPath es) := by
  refine ⟨shoelace_joinPath es h, ?_⟩
  rw [signedArea2_release, shoelace_joinPath es h, edgesAreaLoop_release es 0 (by unfold InI64; omega),
    zero_add]

-- non-vacuity
example : signedArea2 .debug ([⟨1, 1⟩, ⟨5, 1⟩] ++ [⟨5, 7⟩]) = .ok 26 ∧
    signedArea2 .debug (⟨5, 7⟩ :: [⟨2, 9⟩]) = .ok 31 ∧
    signedArea2 .debug ([⟨1, 1⟩, ⟨5, 1⟩] ++ ⟨5, 7⟩ :: [⟨2, 9⟩]) = .ok 57 := by decide +kernel
example : Chained [[⟨1, 1⟩, ⟨2, 1⟩], [⟨2, 1⟩, ⟨1, 2⟩], [⟨1, 2⟩, ⟨1, 1⟩]] :=
  ⟨⟨_, rfl, rfl⟩, ⟨_, rfl, rfl⟩, trivial⟩

/-! ## C03 -/

/-- C03: reversal negates the exact area; in a release build the signed result
is the wrapped negation. -/
theorem C03_signed (ps : List Point) :
    shoelace ps.reverse = -shoelace ps ∧
    ∃ a, signedArea2 .release ps = .ok a ∧ signedArea2 .release ps.reverse = .ok (wrap64 (-a)) := by
  refine ⟨shoelace_reverse ps, _, signedArea2_release _, ?_⟩
  rw [signedArea2_release, shoelace_reverse, wrap64_neg_wrap64]

/-- C03: a checked build, when neither run panics, gives negated results. -/
theorem C03_debug (ps : List Point) (a b : Int) (ha : signedArea2 .debug ps = .ok a)
    (hb : signedArea2 .debug ps.reverse = .ok b) : b = -a := by
  rw [signedArea2_debug ha, signedArea2_debug hb, shoelace_reverse]

/-- C03: `area2` does not change under reversal (release). -/
theorem C03_area2 (ps : List Point) : area2 .release ps.reverse = area2 .release ps := by
  rw [area2, area2, area2AndWindingOrder_release, area2AndWindingOrder_release, shoelace_reverse]
  simp only [ok_bind]
  congr 1
  unfold wrap64; omega

/-- C03: `winding_order` flips under reversal, exactly when the signed area is
neither 0 nor -2^63 (release). -/
theorem C03_winding (ps : List Point) (w : WindingOrder) (a : Int)
    (ha : signedArea2 .release ps = .ok a) (hw : windingOrder .release ps = .ok w) :
    windingOrder .release ps.reverse = .ok (if a = 0 ∨ a = -2 ^ 63 then w else flip w) := by
  rw [signedArea2_release] at ha
  obtain rfl := Except.ok.inj ha
  rw [windingOrder, area2AndWindingOrder_release, ok_bind] at hw
  obtain rfl := Except.ok.inj hw
  rw [windingOrder, area2AndWindingOrder_release, ok_bind, shoelace_reverse]
  congr 1
  by_cases h : 0 ≤ wrap64 (shoelace ps) <;> by_cases h' : 0 ≤ wrap64 (-shoelace ps) <;>
    simp only [h, h', if_true, if_false] <;> split <;>
    first | rfl | (exfalso; unfold wrap64 at *; omega)

theorem area2AndWindingOrder_debug {ps : List Point} {x : Nat × WindingOrder} (h : area2AndWindingOrder .debug ps = .ok x) :
    x = ((shoelace ps).natAbs, if 0 ≤ shoelace ps then .clockwise else .counterClockwise) := by
  rw [area2AndWindingOrder, bind_ok] at h
  obtain ⟨a, h1, h2⟩ := h
  have h3 := splitSign_debug (signedArea2_inI64 h1) h2
  rw [signedArea2_debug h1] at h3
  exact h3

/-- C03: in a checked build, when neither run panics, `area2` does not change
under reversal, and `winding_order` flips exactly when the area is not 0. -/
theorem C03_debug_winding (ps : List Point) (a b : Nat) (w w' : WindingOrder)
    (ha : area2 .debug ps = .ok a) (hb : area2 .debug ps.reverse = .ok b)
    (hw : windingOrder .debug ps = .ok w) (hw' : windingOrder .debug ps.reverse = .ok w') :
    a = b ∧ w' = if a = 0 then w else flip w := by
  simp only [area2, windingOrder, bind_ok] at ha hb hw hw'
  obtain ⟨x, hx, ha⟩ := ha
  obtain ⟨y, hy, hb⟩ := hb
  obtain ⟨x', hx', hw⟩ := hw
  obtain ⟨y', hy', hw'⟩ := hw'
  obtain rfl := Except.ok.inj (hx.symm.trans hx')
  obtain rfl := Except.ok.inj (hy.symm.trans hy')
  have e1 := area2AndWindingOrder_debug hx
  have e2 := area2AndWindingOrder_debug hy
  rw [shoelace_reverse] at e2
  obtain rfl := Except.ok.inj ha
  obtain rfl := Except.ok.inj hb
  obtain rfl := Except.ok.inj hw
  obtain rfl := Except.ok.inj hw'
  rw [e1, e2]
  refine ⟨(Int.natAbs_neg _).symm, ?_⟩
  simp only [Int.natAbs_eq_zero]
  by_cases h0 : shoelace ps = 0
  · simp [h0]
  · rw [if_neg h0]
    by_cases h1 : 0 ≤ shoelace ps
    · rw [if_pos h1, if_neg (by omega)]; rfl
    · rw [if_neg h1, if_pos (by omega)]; rfl

-- non-vacuity: an ordinary triangle flips; the unnegatable area occurs
example : windingOrder .release exTriangle = .ok .clockwise ∧
    windingOrder .release exTriangle.reverse = .ok .counterClockwise := by decide +kernel
example : signedArea2 .release [⟨2147483648, 0⟩, ⟨2147483648, 2147483648⟩, ⟨0, 2147483648⟩, ⟨0, 0⟩, ⟨2147483648, 0⟩]
    = .ok (-2 ^ 63) ∧
    windingOrder .release [⟨2147483648, 0⟩, ⟨2147483648, 2147483648⟩, ⟨0, 2147483648⟩, ⟨0, 0⟩, ⟨2147483648, 0⟩]
    = windingOrder .release [⟨2147483648, 0⟩, ⟨2147483648, 2147483648⟩, ⟨0, 2147483648⟩, ⟨0, 0⟩, ⟨2147483648, 0⟩].reverse := by
  decide +kernel

example : area2 .debug exTriangle = .ok 1 ∧ area2 .debug exTriangle.reverse = .ok 1 ∧
    windingOrder .debug exTriangle = .ok .clockwise ∧ windingOrder .debug exTriangle.reverse = .ok .counterClockwise := by
  decide +kernel

/-! ## C04 -/

/-- C04: moving the start vertex of a closed ring from `p` to `q` leaves the
area unchanged. -/
theorem C04_rotate_shoelace (p q : Point) (l r : List Point) :
    shoelace (q :: r ++ p :: l ++ [q]) = shoelace (p :: l ++ q :: r ++ [p]) := by
  have h1 := shoelace_append (q :: r) p (l ++ [q])
  have h2 := shoelace_append (p :: l) q (r ++ [p])
  simp only [List.cons_append, List.append_assoc] at h1 h2 ⊢
  rw [h1, h2]; ring

/-- C04: all three results of a release build are unchanged by rotation. -/
theorem C04_rotate (p q : Point) (l r : List Point) :
    let before := p :: l ++ q :: r ++ [p]
    let after := q :: r ++ p :: l ++ [q]
    signedArea2 .release after = signedArea2 .release before ∧
    area2 .release after = area2 .release before ∧
    windingOrder .release after = windingOrder .release before := by
  intro before after
  have h : shoelace after = shoelace before := C04_rotate_shoelace p q l r
  refine ⟨?_, ?_, ?_⟩
  · rw [signedArea2_release, signedArea2_release, h]
  · rw [area2, area2, area2AndWindingOrder_release, area2AndWindingOrder_release, h]
  · rw [windingOrder, windingOrder, area2AndWindingOrder_release, area2AndWindingOrder_release, h]

theorem shoelace_moved (dx dy : Int) (ps qs : List Point) (h : List.Forall₂ (Moved dx dy) ps qs) :
    ∀ p ∈ ps.head?, ∀ z ∈ ps.getLast?,
    shoelace qs = shoelace ps + dx * (z.yi - p.yi) - dy * (z.xi - p.xi) := by
  induction h with
  | nil => simp
  | cons h1 h2 ih =>
    rename_i a b as bs
    intro p hp z hz
    simp only [List.head?_cons, Option.mem_def, Option.some.injEq] at hp
    subst hp
    cases h2 with
    | nil =>
      simp only [List.getLast?_singleton, Option.mem_def, Option.some.injEq] at hz
      subst hz
      simp [shoelace]
    | cons h3 h4 =>
      rename_i c d cs ds
      have hz' : z ∈ (c :: cs).getLast? := by simpa [List.getLast?_cons_cons] using hz
      have := ih c (by simp) z hz'
      simp only [shoelace]
      rw [this]
      obtain ⟨hx1, hy1⟩ := h1
      obtain ⟨hx2, hy2⟩ := h3
      simp only [cross, hx1, hx2, hy1, hy2, Point.xi, Point.yi]
      ring

/-- C04: translating a closed ring leaves its area unchanged, and hence the
results of a release build. -/
theorem C04_translate (dx dy : Int) (ps qs : List Point) (hc : Closed ps)
    (h : List.Forall₂ (Moved dx dy) ps qs) :
    shoelace qs = shoelace ps ∧
    signedArea2 .release qs = signedArea2 .release ps ∧
    area2 .release qs = area2 .release ps ∧
    windingOrder .release qs = windingOrder .release ps := by
  have key : shoelace qs = shoelace ps := by
    cases ps with
    | nil => cases h; rfl
    | cons p t =>
      have hl : (p :: t).getLast? = some p := by rw [← hc]; rfl
      have := shoelace_moved dx dy _ _ h p (by simp) p (by simp [hl])
      rw [this]; ring
  refine ⟨key, ?_, ?_, ?_⟩
  · rw [signedArea2_release, signedArea2_release, key]
  · rw [area2, area2, area2AndWindingOrder_release, area2AndWindingOrder_release, key]
  · rw [windingOrder, windingOrder, area2AndWindingOrder_release, area2AndWindingOrder_release, key]

-- non-vacuity
example : Closed exTriangle ∧
    List.Forall₂ (Moved 10 (-1)) exTriangle [⟨11, 0⟩, ⟨12, 0⟩, ⟨11, 1⟩, ⟨11, 0⟩] := by
  refine ⟨by decide, ?_⟩
  repeat constructor

/-! ## C05 -/

theorem signedArea2Loop_inI64_pair {m : Build} (p q : Point) :
    signedArea2 m [p, q] = shoelaceTerm m p q := by
  unfold signedArea2
  simp only [tupleWindows, signedArea2Loop]
  cases h : shoelaceTerm m p q with
  | error e => rfl
  | ok t =>
    have : InI64 t := by
      simp only [shoelaceTerm, bind_ok] at h
      obtain ⟨_, _, _, _, h⟩ := h
      exact i64_ok_inI64 h
    simp [i64_of_inI64 this]

theorem edgesAreaLoop_pairs (m : Build) (l : List (Point × Point)) (a : Int) :
    edgesAreaLoop m a (l.map (fun pq => [pq.1, pq.2])) = signedArea2Loop m a l := by
  induction l generalizing a with
  | nil => rfl
  | cons pq rest ih =>
    obtain ⟨p, q⟩ := pq
    simp only [List.map_cons, edgesAreaLoop, signedArea2Loop, signedArea2Loop_inI64_pair]
    congr 1; funext t; congr 1; funext a'; exact ih a'

/-- C05: a ring given by points and the ring of its reported edges have the
same area and winding, in both builds, including panics. -/
theorem C05_edges_of_points (m : Build) (ps : List Point) :
    (Ring.edges (Ring.points ps).getEdges).area2AndWindingOrder m =
      (Ring.points ps).area2AndWindingOrder m := by
  simp only [Ring.area2AndWindingOrder, Ring.getEdges, edgesAreaLoop_pairs, area2AndWindingOrder,
    signedArea2]

/-- C05: the reported edges chain up to exactly the input points. -/
theorem C05_edges_chain (ps : List Point) (h : 2 ≤ ps.length) :
    Chained (Ring.points ps).getEdges ∧ joinPath (Ring.points ps).getEdges = ps := by
  have chain : ∀ l : List Point, Chained ((tupleWindows l).map (fun pq => [pq.1, pq.2])) := by
    intro l
    induction l with
    | nil => trivial
    | cons p t ih =>
      cases t with
      | nil => trivial
      | cons q t =>
        cases t with
        | nil => trivial
        | cons r t => exact ⟨⟨q, rfl, rfl⟩, ih⟩
  have tails : ∀ (p : Point) (l : List Point),
      (((tupleWindows (p :: l)).map (fun pq => [pq.1, pq.2])).map List.tail).flatten = l := by
    intro p l
    induction l generalizing p with
    | nil => rfl
    | cons q t ih =>
      have := ih q
      simp only [tupleWindows, List.map_cons, List.flatten_cons] at this ⊢
      rw [this]; rfl
  refine ⟨chain ps, ?_⟩
  match ps, h with
  | p :: q :: t, _ =>
    have := tails q t
    simp only [Ring.getEdges, tupleWindows, List.map_cons, joinPath]
    rw [this]; rfl

theorem shoelace_flatten (es : List (List Point)) (h : Chained es) :
    shoelace es.flatten = shoelaceEdges es := by
  induction es with
  | nil => rfl
  | cons e rest ih =>
    cases rest with
    | nil => simp [shoelaceEdges]
    | cons f rest =>
      obtain ⟨⟨p, hp1, hp2⟩, h2⟩ := h
      have ih := ih h2
      obtain ⟨f', rfl⟩ : ∃ f', f = p :: f' := by
        cases f with
        | nil => simp at hp2
        | cons x f' => simp at hp2; exact ⟨f', by rw [hp2]⟩
      obtain ⟨e', rfl⟩ : ∃ e', e = e' ++ [p] := by
        have hne : e ≠ [] := by rintro rfl; simp at hp1
        refine ⟨e.dropLast, ?_⟩
        rw [List.getLast?_eq_some_getLast hne] at hp1
        rw [← Option.some.inj hp1]; exact (List.dropLast_concat_getLast hne).symm
      have e1 : ((e' ++ [p]) :: (p :: f') :: rest).flatten = e' ++ p :: p :: (f' ++ rest.flatten) := by
        simp
      have e2 : ((p :: f') :: rest).flatten = p :: (f' ++ rest.flatten) := by simp
      rw [e2] at ih
      rw [e1, shoelace_append]
      simp only [shoelace, cross_self, zero_add]
      rw [ih]
      simp [shoelaceEdges]

/-- C05: `Ring::points` of a chained edge ring (which repeats the nodes) has
the area and winding of the ring itself: in a release build always, in a
checked build whenever neither computation panics. -/
theorem C05_points_of_edges (es : List Edge) (h : Chained es) :
    (Ring.points (Ring.edges es).getPoints).area2AndWindingOrder .release =
      (Ring.edges es).area2AndWindingOrder .release ∧
    ∀ x y, (Ring.points (Ring.edges es).getPoints).area2AndWindingOrder .debug = .ok x →
      (Ring.edges es).area2AndWindingOrder .debug = .ok y → x = y := by
  have key : ringShoelace (Ring.points (Ring.edges es).getPoints) = ringShoelace (Ring.edges es) := by
    simp only [ringShoelace, Ring.getPoints]; exact shoelace_flatten es h
  refine ⟨?_, ?_⟩
  · rw [ring_area2AndWindingOrder_release, ring_area2AndWindingOrder_release, key]
  · intro x y hx hy
    rw [(ring_area2AndWindingOrder_debug hx).1, (ring_area2AndWindingOrder_debug hy).1, key]

/-- C05, disagreement with the crate's (never compiled, `cfg(Test)`) unit test
`test_edge_ring_points`: the points of an edge ring repeat the shared node. -/
theorem C05_points_of_edges_repeat_nodes :
    (Ring.edges [[⟨1, 1⟩, ⟨1, 2⟩, ⟨2, 1⟩], [⟨2, 1⟩, ⟨1, 1⟩]]).getPoints ≠
      [⟨1, 1⟩, ⟨1, 2⟩, ⟨2, 1⟩, ⟨1, 1⟩] := by decide +kernel

-- non-vacuity
example : (Ring.points exTriangle).area2AndWindingOrder .debug = .ok (1, .clockwise) := by decide +kernel
example : 2 ≤ exTriangle.length ∧ (Ring.points exTriangle).getEdges.length = 3 := by decide +kernel

/-! ## C06 -/

/-- C06: a checked build, if it does not panic, reports the absolute area and
`Clockwise` exactly for non-negative area. -/
theorem C06_debug (r : Ring) (a : Nat) (w : WindingOrder)
    (h : r.area2AndWindingOrder .debug = .ok (a, w)) :
    a = (ringShoelace r).natAbs ∧ (w = .clockwise ↔ 0 ≤ ringShoelace r) := by
  obtain ⟨h, _⟩ := ring_area2AndWindingOrder_debug h
  obtain ⟨rfl, rfl⟩ := Prod.mk.inj h
  refine ⟨rfl, ?_⟩
  split <;> simp_all

/-- C06: a release build does so whenever the double area fits in an `i64`. -/
theorem C06_release_partial (r : Ring) (hin : InI64 (ringShoelace r)) (a : Nat) (w : WindingOrder)
    (h : r.area2AndWindingOrder .release = .ok (a, w)) :
    a = (ringShoelace r).natAbs ∧ (w = .clockwise ↔ 0 ≤ ringShoelace r) := by
  rw [ring_area2AndWindingOrder_release, wrap64_of_inI64 hin] at h
  obtain ⟨rfl, rfl⟩ := Prod.mk.inj (Except.ok.inj h)
  refine ⟨rfl, ?_⟩
  split <;> simp_all

/-- C06 for all rings in a release build, which is refuted below. -/
def C06_release_full : Prop :=
  ∀ (ps : List Point) (a : Nat) (w : WindingOrder), Closed ps →
    (Ring.points ps).area2AndWindingOrder .release = .ok (a, w) →
    a = (shoelace ps).natAbs ∧ (w = .clockwise ↔ 0 ≤ shoelace ps)

/-- C06 fails in a release build for large rings: the clockwise boundary of the
whole `u32` square, onto which the shapefile reader scales its data, is
reported counter-clockwise with a wrong area. -/
theorem C06_release_refuted : ¬ C06_release_full := by
  intro h
  have := h exFullSquare 17179869182 .counterClockwise (by decide +kernel) (by decide +kernel)
  revert this
  decide +kernel

-- non-vacuity
example : (Ring.points exTriangle).area2AndWindingOrder .debug = .ok (1, .clockwise) ∧
    InI64 (ringShoelace (Ring.points exTriangle)) := by decide +kernel

end TopoGeo
