import Verif.Proofs.Basic
/-!
# Helper lemmas on areas
-/

namespace TopoGeo

open Spec

/-! ## The model's loops compute the shoelace sum modulo 2^64 -/

theorem shoelaceTerm_release (p q : Point) :
    shoelaceTerm .release p q = .ok (wrap64 (cross p q)) := by
  simp [shoelaceTerm, i64_release, cross, Point.xi, Point.yi, wrap64_sub_wrap64]

theorem shoelaceTerm_debug {p q : Point} {v : Int} (h : shoelaceTerm .debug p q = .ok v) :
    v = cross p q := by
  simp only [shoelaceTerm, bind_ok, i64_debug] at h
  obtain ⟨a, ⟨rfl, _⟩, b, ⟨rfl, _⟩, rfl, _⟩ := h
  simp [cross, Point.xi, Point.yi]

theorem shoelaceTerm_error {m : Build} {p q : Point} {e : Panic}
    (h : shoelaceTerm m p q = .error e) : m = .debug ∧ e = .overflow := by
  simp only [shoelaceTerm, bind_error, i64_error] at h
  rcases h with h | ⟨_, _, h | ⟨_, _, h⟩⟩ <;> exact ⟨h.1, h.2.1⟩

/-- Sum of cross products over a list of pairs. -/
def crossSum (l : List (Point × Point)) : Int := (l.map (fun pq => cross pq.1 pq.2)).sum

theorem crossSum_tupleWindows (ps : List Point) : crossSum (tupleWindows ps) = shoelace ps := by
  induction ps with
  | nil => rfl
  | cons p t ih =>
    cases t with
    | nil => rfl
    | cons q t => simp [tupleWindows, crossSum, shoelace] at ih ⊢; rw [ih]

theorem signedArea2Loop_release (l : List (Point × Point)) (a : Int) :
    signedArea2Loop .release a l = .ok (if l = [] then a else wrap64 (a + crossSum l)) := by
  induction l generalizing a with
  | nil => rfl
  | cons pq rest ih =>
    obtain ⟨p, q⟩ := pq
    simp only [signedArea2Loop, shoelaceTerm_release, i64_release, ok_bind, ih]
    by_cases hr : rest = []
    · subst hr; simp [crossSum, wrap64_add_wrap64_right]
    · simp only [hr, if_false, reduceCtorEq, crossSum, List.map_cons, List.sum_cons]
      rw [wrap64_add_wrap64_left]
      congr 1
      unfold wrap64; omega

theorem signedArea2Loop_debug {l : List (Point × Point)} {a v : Int}
    (h : signedArea2Loop .debug a l = .ok v) : v = a + crossSum l := by
  induction l generalizing a with
  | nil => simp [signedArea2Loop] at h; simp [crossSum, h]
  | cons pq rest ih =>
    obtain ⟨p, q⟩ := pq
    simp only [signedArea2Loop, bind_ok, i64_debug] at h
    obtain ⟨t, ht, a', ⟨rfl, _⟩, h⟩ := h
    rw [ih h, shoelaceTerm_debug ht]
    simp [crossSum]; ring

theorem signedArea2Loop_error {m : Build} {l : List (Point × Point)} {a : Int} {e : Panic}
    (h : signedArea2Loop m a l = .error e) : m = .debug ∧ e = .overflow := by
  induction l generalizing a with
  | nil => simp [signedArea2Loop] at h
  | cons pq rest ih =>
    obtain ⟨p, q⟩ := pq
    simp only [signedArea2Loop, bind_error, i64_error] at h
    rcases h with h | ⟨t, _, h | ⟨a', _, h⟩⟩
    · exact shoelaceTerm_error h
    · exact ⟨h.1, h.2.1⟩
    · exact ih h

theorem signedArea2_release (ps : List Point) :
    signedArea2 .release ps = .ok (wrap64 (shoelace ps)) := by
  simp only [signedArea2, signedArea2Loop_release, crossSum_tupleWindows, zero_add]
  split
  · rename_i h
    rw [← crossSum_tupleWindows, h]; rfl
  · rfl

theorem signedArea2_debug {ps : List Point} {v : Int} (h : signedArea2 .debug ps = .ok v) :
    v = shoelace ps := by
  have := signedArea2Loop_debug h
  simpa [crossSum_tupleWindows] using this

theorem signedArea2Loop_inI64 {m : Build} {l : List (Point × Point)} {a v : Int}
    (ha : InI64 a) (h : signedArea2Loop m a l = .ok v) : InI64 v := by
  induction l generalizing a with
  | nil => simp [signedArea2Loop] at h; exact h ▸ ha
  | cons pq rest ih =>
    obtain ⟨p, q⟩ := pq
    simp only [signedArea2Loop, bind_ok] at h
    obtain ⟨t, _, a', h1, h⟩ := h
    exact ih (i64_ok_inI64 h1) h

theorem signedArea2_inI64 {m : Build} {ps : List Point} {v : Int}
    (h : signedArea2 m ps = .ok v) : InI64 v :=
  signedArea2Loop_inI64 (by unfold InI64; omega) h

/-- In both builds, a result is the wrapped shoelace sum. -/
theorem signedArea2_ok {m : Build} {ps : List Point} {v : Int} (h : signedArea2 m ps = .ok v) :
    v = wrap64 (shoelace ps) := by
  cases m with
  | release => rw [signedArea2_release] at h; cases h; rfl
  | debug =>
    have h2 := signedArea2_inI64 h
    rw [signedArea2_debug h] at h2 ⊢
    exact (wrap64_of_inI64 h2).symm

theorem signedArea2_error {m : Build} {ps : List Point} {e : Panic}
    (h : signedArea2 m ps = .error e) : m = .debug ∧ e = .overflow :=
  signedArea2Loop_error h

theorem edgesAreaLoop_ok {m : Build} {es : List Edge} {a v : Int}
    (ha : InI64 a) (h : edgesAreaLoop m a es = .ok v) : v = wrap64 (a + shoelaceEdges es) := by
  induction es generalizing a with
  | nil => simp [edgesAreaLoop] at h; simp [shoelaceEdges, ← h, wrap64_of_inI64 ha]
  | cons e rest ih =>
    simp only [edgesAreaLoop, bind_ok] at h
    obtain ⟨t, ht, a', h1, h⟩ := h
    rw [ih (i64_ok_inI64 h1) h, i64_ok_wrap h1, signedArea2_ok ht, wrap64_add_wrap64_left]
    simp only [shoelaceEdges, List.map_cons, List.sum_cons]
    unfold wrap64; omega

theorem edgesAreaLoop_release (es : List Edge) (a : Int) (ha : InI64 a) :
    edgesAreaLoop .release a es = .ok (wrap64 (a + shoelaceEdges es)) := by
  induction es generalizing a with
  | nil => simp [edgesAreaLoop, shoelaceEdges, wrap64_of_inI64 ha]
  | cons e rest ih =>
    simp only [edgesAreaLoop, signedArea2_release, i64_release, ok_bind]
    rw [ih _ (inI64_wrap64 _), wrap64_add_wrap64_left]
    simp only [shoelaceEdges, List.map_cons, List.sum_cons]
    congr 1
    unfold wrap64; omega

theorem edgesAreaLoop_debug {es : List Edge} {a v : Int}
    (h : edgesAreaLoop .debug a es = .ok v) : v = a + shoelaceEdges es := by
  induction es generalizing a with
  | nil => simp [edgesAreaLoop] at h; simp [shoelaceEdges, h]
  | cons e rest ih =>
    simp only [edgesAreaLoop, bind_ok, i64_debug] at h
    obtain ⟨t, ht, a', ⟨rfl, _⟩, h⟩ := h
    rw [ih h, signedArea2_debug ht]
    simp [shoelaceEdges]; ring

theorem edgesAreaLoop_error {m : Build} {es : List Edge} {a : Int} {e : Panic}
    (h : edgesAreaLoop m a es = .error e) : m = .debug ∧ e = .overflow := by
  induction es generalizing a with
  | nil => simp [edgesAreaLoop] at h
  | cons x rest ih =>
    simp only [edgesAreaLoop, bind_error, i64_error] at h
    rcases h with h | ⟨t, _, h | ⟨a', _, h⟩⟩
    · exact signedArea2_error h
    · exact ⟨h.1, h.2.1⟩
    · exact ih h

/-! ## Algebra of the shoelace sum -/

theorem cross_swap (p q : Point) : cross q p = -cross p q := by
  unfold cross; ring

theorem cross_self (p : Point) : cross p p = 0 := by
  unfold cross; ring

theorem shoelace_append (l : List Point) (p : Point) (r : List Point) :
    shoelace (l ++ p :: r) = shoelace (l ++ [p]) + shoelace (p :: r) := by
  induction l with
  | nil => simp [shoelace]
  | cons a t ih =>
    cases t with
    | nil => simp [shoelace]
    | cons b t => simp only [List.cons_append, shoelace] at ih ⊢; rw [ih]; ring

theorem shoelace_append_pair (l : List Point) (p q : Point) :
    shoelace (l ++ [p, q]) = shoelace (l ++ [p]) + cross p q := by
  rw [shoelace_append]; simp [shoelace]

theorem shoelace_reverse (l : List Point) : shoelace l.reverse = -shoelace l := by
  induction l with
  | nil => simp [shoelace]
  | cons a t ih =>
    cases t with
    | nil => simp [shoelace]
    | cons b t =>
      simp only [List.reverse_cons, List.append_assoc, List.cons_append, List.nil_append,
        shoelace_append_pair] at ih ⊢
      rw [ih, cross_swap]; simp [shoelace]

theorem wrap64_neg_wrap64 (a : Int) : wrap64 (-wrap64 a) = wrap64 (-a) := by
  unfold wrap64; omega

theorem emod_wrap64 (a : Int) : (wrap64 a).emod (2 ^ 64) = a.emod (2 ^ 64) := by
  show wrap64 a % 2 ^ 64 = a % 2 ^ 64
  unfold wrap64; omega

theorem splitSign_release {a : Int} (h : InI64 a) :
    splitSign .release a = .ok (a.natAbs, if 0 ≤ a then .clockwise else .counterClockwise) := by
  unfold splitSign
  unfold InI64 at h
  have key : ∀ b : Int, 0 ≤ b → b < 2 ^ 64 → (b.emod (2 ^ 64)).toNat = b.natAbs := by
    intro b h1 h2
    have : b.emod (2 ^ 64) = b := Int.emod_eq_of_lt h1 h2
    rw [this]; omega
  split
  · rename_i h0
    rw [key a h0 (by omega)]
  · rename_i h0
    rw [i64_release, ok_bind, emod_wrap64, key (-a) (by omega) (by omega)]
    simp

theorem splitSign_debug {a : Int} (h : InI64 a) {r : Nat × WindingOrder}
    (hr : splitSign .debug a = .ok r) :
    r = (a.natAbs, if 0 ≤ a then .clockwise else .counterClockwise) := by
  have hrel := splitSign_release h
  unfold splitSign at hr hrel
  split at hr
  · rename_i h0; rw [if_pos h0] at hrel
    rw [← Except.ok.inj hr, Except.ok.inj hrel]
  · rename_i h0; rw [if_neg h0] at hrel
    simp only [bind_ok, i64_debug] at hr
    obtain ⟨n, ⟨rfl, hn⟩, hr⟩ := hr
    rw [i64_release, wrap64_of_inI64 hn, ok_bind] at hrel
    rw [← Except.ok.inj hr, Except.ok.inj hrel]

theorem splitSign_error {m : Build} {a : Int} {e : Panic} (h : splitSign m a = .error e) :
    m = .debug ∧ e = .overflow := by
  unfold splitSign at h
  split at h
  · simp at h
  · simp only [bind_error, i64_error] at h
    rcases h with h | ⟨_, _, h⟩
    · exact ⟨h.1, h.2.1⟩
    · simp at h

/-- Area and winding in a release build. -/
theorem area2AndWindingOrder_release (ps : List Point) :
    area2AndWindingOrder .release ps = .ok ((wrap64 (shoelace ps)).natAbs,
      if 0 ≤ wrap64 (shoelace ps) then .clockwise else .counterClockwise) := by
  rw [area2AndWindingOrder, signedArea2_release, ok_bind, splitSign_release (inI64_wrap64 _)]

theorem ring_area2AndWindingOrder_release (r : Ring) :
    r.area2AndWindingOrder .release = .ok ((wrap64 (ringShoelace r)).natAbs,
      if 0 ≤ wrap64 (ringShoelace r) then .clockwise else .counterClockwise) := by
  cases r with
  | points ps => exact area2AndWindingOrder_release ps
  | edges es =>
    rw [Ring.area2AndWindingOrder, edgesAreaLoop_release es 0 (by unfold InI64; omega), ok_bind,
      zero_add, splitSign_release (inI64_wrap64 _)]
    rfl

/-- Area and winding in a debug build, when it does not panic: exact. -/
theorem ring_area2AndWindingOrder_debug {r : Ring} {x : Nat × WindingOrder}
    (h : r.area2AndWindingOrder .debug = .ok x) :
    x = ((ringShoelace r).natAbs, if 0 ≤ ringShoelace r then .clockwise else .counterClockwise)
      ∧ InI64 (ringShoelace r) := by
  cases r with
  | points ps =>
    simp only [Ring.area2AndWindingOrder, area2AndWindingOrder, bind_ok] at h
    obtain ⟨a, ha, h⟩ := h
    have h1 := signedArea2_inI64 ha
    have h2 := signedArea2_debug ha
    subst h2
    exact ⟨splitSign_debug h1 h, h1⟩
  | edges es =>
    simp only [Ring.area2AndWindingOrder, bind_ok] at h
    obtain ⟨a, ha, h⟩ := h
    have h0 : InI64 0 := by unfold InI64; omega
    have h1 := edgesAreaLoop_debug ha
    have h2 : InI64 a := by rw [edgesAreaLoop_ok h0 ha]; exact inI64_wrap64 _
    rw [zero_add] at h1
    subst h1
    exact ⟨splitSign_debug h2 h, h2⟩

theorem ring_area2AndWindingOrder_error {m : Build} {r : Ring} {e : Panic}
    (h : r.area2AndWindingOrder m = .error e) : m = .debug ∧ e = .overflow := by
  cases r with
  | points ps =>
    simp only [Ring.area2AndWindingOrder, area2AndWindingOrder, bind_error] at h
    rcases h with h | ⟨_, _, h⟩
    · exact signedArea2_error h
    · exact splitSign_error h
  | edges es =>
    simp only [Ring.area2AndWindingOrder, bind_error] at h
    rcases h with h | ⟨_, _, h⟩
    · exact edgesAreaLoop_error h
    · exact splitSign_error h

/-- Both builds: a result is that of the wrapped area. -/
theorem ring_area2AndWindingOrder_ok {m : Build} {r : Ring} {x : Nat × WindingOrder}
    (h : r.area2AndWindingOrder m = .ok x) :
    x = ((wrap64 (ringShoelace r)).natAbs,
      if 0 ≤ wrap64 (ringShoelace r) then .clockwise else .counterClockwise) := by
  cases m with
  | release => rw [ring_area2AndWindingOrder_release] at h; exact (Except.ok.inj h).symm
  | debug =>
    obtain ⟨h1, h2⟩ := ring_area2AndWindingOrder_debug h
    rw [wrap64_of_inI64 h2]; exact h1

end TopoGeo
