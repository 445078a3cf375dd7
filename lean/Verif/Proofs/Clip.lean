import Verif.Proofs.Topology
import Verif.Spec.Clip
/-!
# Helper lemmas about `clip_edge` and `intersect`
-/

namespace TopoGeo

open Spec

theorem loc_ge (a c : UInt32) :
    (if (a == c) = true then ClipLocation.onEdge else locOfBool (decide (a ≥ c))) =
      if (a.toNat : Int) - c.toNat = 0 then .onEdge
      else if 0 < (a.toNat : Int) - c.toNat then .inside else .outside := by
  have key : a = c ↔ a.toNat = c.toNat := UInt32.toNat_inj.symm
  simp only [locOfBool, beq_iff_eq, decide_eq_true_eq, ge_iff_le, UInt32.le_iff_toNat_le, key]
  by_cases h : a.toNat = c.toNat
  · rw [if_pos h, if_pos (by omega)]
  · by_cases h2 : c.toNat ≤ a.toNat
    · rw [if_neg h, if_pos h2, if_neg (by omega), if_pos (by omega)]
    · rw [if_neg h, if_neg h2, if_neg (by omega), if_neg (by omega)]

theorem loc_le (a c : UInt32) :
    (if (a == c) = true then ClipLocation.onEdge else locOfBool (decide (a ≤ c))) =
      if (c.toNat : Int) - a.toNat = 0 then .onEdge
      else if 0 < (c.toNat : Int) - a.toNat then .inside else .outside := by
  have key : a = c ↔ a.toNat = c.toNat := UInt32.toNat_inj.symm
  simp only [locOfBool, beq_iff_eq, decide_eq_true_eq, UInt32.le_iff_toNat_le, key]
  by_cases h : a.toNat = c.toNat
  · rw [if_pos h, if_pos (by omega)]
  · by_cases h2 : a.toNat ≤ c.toNat
    · rw [if_neg h, if_pos h2, if_neg (by omega), if_pos (by omega)]
    · rw [if_neg h, if_neg h2, if_neg (by omega), if_neg (by omega)]

theorem test_eq (mask : ClipMask) (p : Point) :
    mask.test p = if depth mask p = 0 then .onEdge else if 0 < depth mask p then .inside else .outside := by
  cases mask with
  | minX x => exact loc_ge p.x x
  | maxX x => exact loc_le p.x x
  | minY y => exact loc_ge p.y y
  | maxY y => exact loc_le p.y y

theorem test_inside {mask : ClipMask} {p : Point} : mask.test p = .inside ↔ 0 < depth mask p := by
  rw [test_eq]; split
  · rename_i h; simp [h]
  · split <;> simp_all

theorem test_onEdge {mask : ClipMask} {p : Point} : mask.test p = .onEdge ↔ depth mask p = 0 := by
  rw [test_eq]; split
  · rename_i h; simp [h]
  · split <;> simp_all

theorem test_outside {mask : ClipMask} {p : Point} : mask.test p = .outside ↔ depth mask p < 0 := by
  rw [test_eq]; split
  · rename_i h; simp [h]
  · split
    · rename_i h; simp; omega
    · simp; omega

/-! ## Intersections -/

theorem tdiv_between_pos {n d e : Int} (hn : 0 < n) (hd : n < d) (he : 0 ≤ e) :
    0 ≤ (n * e).tdiv d ∧ (n * e).tdiv d ≤ e := by
  have hne : 0 ≤ n * e := Int.mul_nonneg hn.le he
  rw [Int.tdiv_eq_ediv_of_nonneg hne]
  constructor
  · exact Int.ediv_nonneg hne (by omega)
  · apply Int.ediv_le_of_le_mul (by omega)
    rw [Int.mul_comm e d]
    exact Int.mul_le_mul_of_nonneg_right hd.le he

theorem tdiv_between_dpos {n d e : Int} (hn : 0 < n) (hd : n < d) :
    (0 ≤ e → 0 ≤ (n * e).tdiv d ∧ (n * e).tdiv d ≤ e) ∧
    (e ≤ 0 → e ≤ (n * e).tdiv d ∧ (n * e).tdiv d ≤ 0) := by
  refine ⟨tdiv_between_pos hn hd, ?_⟩
  intro he
  have h := tdiv_between_pos hn hd (e := -e) (by omega)
  have : n * e = -(n * -e) := by ring
  rw [this, Int.neg_tdiv]
  omega

theorem tdiv_between {n d e : Int} (h : (0 < n ∧ n < d) ∨ (n < 0 ∧ d < n)) :
    (0 ≤ e → 0 ≤ (n * e).tdiv d ∧ (n * e).tdiv d ≤ e) ∧
    (e ≤ 0 → e ≤ (n * e).tdiv d ∧ (n * e).tdiv d ≤ 0) := by
  rcases h with ⟨h1, h2⟩ | ⟨h1, h2⟩
  · exact tdiv_between_dpos h1 h2
  · have := tdiv_between_dpos (n := -n) (d := -d) (e := e) (by omega) (by omega)
    have e1 : -n * e = -(n * e) := by ring
    rw [e1, Int.neg_tdiv_neg] at this
    exact this

theorem tdiv_error {a d : Int} (hd : d ≠ 0) : (a.tdiv d * d - a).natAbs < d.natAbs := by
  have h1 := Int.tmod_add_mul_tdiv a d
  have h2 : (a.tmod d).natAbs < d.natAbs := by
    rw [Int.natAbs_tmod]
    exact Nat.mod_lt _ (Int.natAbs_pos.mpr hd)
  rw [Int.mul_comm d] at h1
  omega

theorem interpolate_fits {m : Build} {c a1 b1 a2 b2 : Int}
    (hb1 : 0 ≤ b1 ∧ b1 < 2 ^ 32) (hb2 : 0 ≤ b2 ∧ b2 < 2 ^ 32)
    (h : (a1 < c ∧ c < a2) ∨ (a2 < c ∧ c < a1)) (hin : InI64 ((c - a1) * (b2 - b1))) :
    interpolate m c a1 b1 a2 b2 = .ok (b1 + ((c - a1) * (b2 - b1)).tdiv (a2 - a1)) := by
  have hb := tdiv_between (n := c - a1) (d := a2 - a1) (e := b2 - b1) (by omega)
  unfold interpolate i64Div
  rw [i64_of_inI64 hin, ok_bind, if_neg (by omega), if_neg (by omega), ok_bind, i64_of_inI64]
  unfold InI64
  rcases le_total 0 (b2 - b1) with he | he
  · have := hb.1 he; omega
  · have := hb.2 he; omega

theorem interpolate_release {c a1 b1 a2 b2 : Int}
    (h : (a1 < c ∧ c < a2) ∨ (a2 < c ∧ c < a1)) :
    ∃ v, interpolate .release c a1 b1 a2 b2 = .ok v := by
  unfold interpolate i64Div
  rw [i64_release, ok_bind, if_neg (by omega), if_neg (by omega), ok_bind, i64_release]
  exact ⟨_, rfl⟩

theorem interpolate_debug {c a1 b1 a2 b2 : Int} (hin : ¬ InI64 ((c - a1) * (b2 - b1))) :
    interpolate .debug c a1 b1 a2 b2 = .error .overflow := by
  unfold interpolate
  rw [i64_of_not_inI64 hin]; rfl

theorem u32_bounds (a : UInt32) : 0 ≤ (a.toNat : Int) ∧ (a.toNat : Int) < 2 ^ 32 := by
  have := a.toNat_lt; omega

theorem asU32_toNat {z : Int} (h : 0 ≤ z ∧ z < 2 ^ 32) : ((asU32 z).toNat : Int) = z := by
  unfold asU32
  have : z.emod (2 ^ 32) = z := Int.emod_eq_of_lt h.1 h.2
  rw [this, UInt32.toNat_ofNat']
  omega

/-- `intersect` written in the coordinates of the specification. -/
theorem intersect_eq (m : Build) (mask : ClipMask) (p q : Point) :
    ∃ mk : UInt32 → Point, (∀ v, tested mask (mk v) = bound mask ∧ other mask (mk v) = v.toNat) ∧
      mask.intersect m p q =
        (interpolate m (bound mask) (tested mask p) (other mask p) (tested mask q) (other mask q)
          >>= fun v => .ok (mk (asU32 v))) := by
  cases mask with
  | minX x => exact ⟨fun v => ⟨x, v⟩, fun v => ⟨rfl, rfl⟩, rfl⟩
  | maxX x => exact ⟨fun v => ⟨x, v⟩, fun v => ⟨rfl, rfl⟩, rfl⟩
  | minY y => exact ⟨fun v => ⟨v, y⟩, fun v => ⟨rfl, rfl⟩, rfl⟩
  | maxY y => exact ⟨fun v => ⟨v, y⟩, fun v => ⟨rfl, rfl⟩, rfl⟩

theorem depth_zero_iff (mask : ClipMask) (p : Point) : depth mask p = 0 ↔ tested mask p = bound mask := by
  cases mask <;> simp only [depth, tested, bound] <;> omega

theorem crosses_between {mask : ClipMask} {p q : Point} (h : Crosses mask p q) :
    (tested mask p < bound mask ∧ bound mask < tested mask q) ∨
    (tested mask q < bound mask ∧ bound mask < tested mask p) := by
  unfold Crosses at h
  cases mask <;> simp only [depth, tested, bound] at h ⊢ <;> omega

theorem other_bounds (mask : ClipMask) (p : Point) : 0 ≤ other mask p ∧ other mask p < 2 ^ 32 := by
  cases mask <;> exact u32_bounds _

theorem intersect_onLine {m : Build} {mask : ClipMask} {p q r : Point}
    (h : mask.intersect m p q = .ok r) : depth mask r = 0 := by
  obtain ⟨mk, h1, h2⟩ := intersect_eq m mask p q
  rw [h2, bind_ok] at h
  obtain ⟨v, _, h⟩ := h
  obtain rfl := Except.ok.inj h
  rw [depth_zero_iff]
  exact (h1 _).1

theorem intersect_error {m : Build} {mask : ClipMask} {p q : Point} {e : Panic} (hc : Crosses mask p q)
    (h : mask.intersect m p q = .error e) : m = .debug ∧ e = .overflow := by
  obtain ⟨mk, h1, h2⟩ := intersect_eq m mask p q
  rw [h2, bind_error] at h
  rcases h with h | ⟨v, _, h⟩
  · cases m with
    | release =>
      obtain ⟨v, hv⟩ := interpolate_release (b1 := other mask p) (b2 := other mask q) (crosses_between hc)
      rw [hv] at h; cases h
    | debug =>
      refine ⟨rfl, ?_⟩
      by_cases hin : InI64 ((bound mask - tested mask p) * (other mask q - other mask p))
      · rw [interpolate_fits (other_bounds _ _) (other_bounds _ _) (crosses_between hc) hin] at h
        cases h
      · rw [interpolate_debug hin] at h
        exact (Except.error.inj h).symm
  · cases h

/-! ## The loop of `clip_edge` as a function of the last point emitted -/

/-- What `clip_edge`'s loop appends, given the last point emitted so far. -/
def clipRest (m : Build) (mask : ClipMask) (prev : Point) (last : Option Point) :
    List Point → R (List Point)
  | [] => .ok []
  | q :: rest =>
    if depth mask q = 0 then
      if 0 < depth mask prev then do
        let l ← clipRest m mask q (some q) rest
        .ok (q :: l)
      else clipRest m mask q last rest
    else if 0 < depth mask q then
      if depth mask prev < 0 then do
        let x ← mask.intersect m prev q
        let l ← clipRest m mask q (some q) rest
        .ok (x :: q :: l)
      else if depth mask prev = 0 ∧ last ≠ some prev then do
        let l ← clipRest m mask q (some q) rest
        .ok (prev :: q :: l)
      else do
        let l ← clipRest m mask q (some q) rest
        .ok (q :: l)
    else
      if 0 < depth mask prev then do
        let x ← mask.intersect m prev q
        let l ← clipRest m mask q (some x) rest
        .ok (x :: l)
      else clipRest m mask q last rest

theorem clipLoop_eq (m : Build) (mask : ClipMask) (pts : List Point) (prev : Point) (ret : List Point) :
    clipLoop m mask prev (mask.test prev) ret pts =
      clipRest m mask prev ret.getLast? pts >>= fun l => .ok (ret ++ l) := by
  induction pts generalizing prev ret with
  | nil => simp [clipLoop, clipRest]
  | cons q rest ih =>
    simp only [clipLoop, clipRest, clipEmit]
    have hq := test_eq mask q
    have hp := test_eq mask prev
    have snoc : ∀ (l : List Point) (a : Point), (l ++ [a]).getLast? = some a := by
      intro l a; simp
    have bind2 : ∀ (x : R (List Point)) (a b : List Point),
        (x >>= fun l => Except.ok (ε := Panic) (a ++ b ++ l)) =
        ((x >>= fun l => Except.ok (b ++ l)) >>= fun l => Except.ok (a ++ l)) := by
      intro x a b; cases x <;> simp
    by_cases q0 : depth mask q = 0
    · rw [if_pos q0] at hq
      simp only [hq, q0, if_true]
      by_cases p1 : 0 < depth mask prev
      · have hp' : mask.test prev = .inside := test_inside.mpr p1
        simp only [hp', p1, if_true, ok_bind]
        rw [← hq, ih, snoc]
        exact bind2 _ ret [q]
      · have hp' : ¬ mask.test prev = .inside := fun h => p1 (test_inside.mp h)
        simp only [hp', p1, if_false, ok_bind]
        rw [← hq, ih]
    · rw [if_neg q0] at hq
      by_cases q1 : 0 < depth mask q
      · rw [if_pos q1] at hq
        simp only [hq, q0, q1, if_true, if_false]
        by_cases p1 : depth mask prev < 0
        · have hp' : mask.test prev = .outside := test_outside.mpr p1
          simp only [hp', p1, if_true, reduceCtorEq, if_false]
          cases mask.intersect m prev q with
          | error e => rfl
          | ok x =>
            simp only [ok_bind]
            rw [← hq, ih, snoc]
            rw [List.append_assoc]
            exact bind2 _ ret [x, q]
        · have hp1 : ¬ mask.test prev = .outside := fun h => p1 (test_outside.mp h)
          simp only [hp1, p1, if_false, ok_bind]
          by_cases p0 : depth mask prev = 0
          · have hp0 : mask.test prev = .onEdge := test_onEdge.mpr p0
            simp only [hp0, p0, if_true, true_and]
            by_cases hl : ret.getLast? = some prev
            · simp only [hl, ne_eq, not_true_eq_false, if_false]
              rw [← hq, ih, snoc]
              exact bind2 _ ret [q]
            · simp only [hl, ne_eq, not_false_eq_true, if_true]
              rw [← hq, ih, snoc, List.append_assoc]
              exact bind2 _ ret [prev, q]
          · have hp0 : ¬ mask.test prev = .onEdge := fun h => p0 (test_onEdge.mp h)
            simp only [hp0, p0, if_false, false_and]
            rw [← hq, ih, snoc]
            exact bind2 _ ret [q]
      · rw [if_neg q1] at hq
        simp only [hq, q0, q1, if_false]
        by_cases p1 : 0 < depth mask prev
        · have hp' : mask.test prev = .inside := test_inside.mpr p1
          simp only [hp', p1, if_true]
          cases mask.intersect m prev q with
          | error e => rfl
          | ok x =>
            simp only [ok_bind]
            rw [← hq, ih, snoc]
            exact bind2 _ ret [x]
        · have hp' : ¬ mask.test prev = .inside := fun h => p1 (test_inside.mp h)
          simp only [hp', p1, if_false, ok_bind]
          rw [← hq, ih]

/-- `clip_edge` in terms of `clipRest`. -/
theorem clipEdge_eq (m : Build) (mask : ClipMask) (p q : Point) (rest : List Point) :
    clipEdge m mask (p :: q :: rest) =
      if 0 < depth mask p then clipRest m mask p (some p) (q :: rest) >>= fun l => .ok (p :: l)
      else clipRest m mask p none (q :: rest) := by
  simp only [clipEdge]
  rw [clipLoop_eq]
  by_cases h : 0 < depth mask p
  · rw [if_pos (test_inside.mpr h), if_pos h]; rfl
  · rw [if_neg (fun h' => h (test_inside.mp h')), if_neg h]
    simp only [List.getLast?_nil, List.nil_append]
    cases clipRest m mask p none (q :: rest) <;> rfl

/-! ## Facts about what is emitted -/

theorem clipRest_inside {m : Build} {mask : ClipMask} {pts : List Point} {prev : Point}
    {last : Option Point} {l : List Point} (h : clipRest m mask prev last pts = .ok l) :
    ∀ x ∈ l, 0 ≤ depth mask x := by
  induction pts generalizing prev last l with
  | nil => obtain rfl := Except.ok.inj h; simp
  | cons q rest ih =>
    simp only [clipRest] at h
    split at h
    · rename_i q0
      split at h
      · rw [bind_ok] at h
        obtain ⟨l', h1, h⟩ := h
        obtain rfl := Except.ok.inj h
        intro x hx
        rw [List.mem_cons] at hx
        rcases hx with rfl | hx
        · omega
        · exact ih h1 x hx
      · exact ih h
    · split at h
      · rename_i q0 q1
        split at h
        · rw [bind_ok] at h
          obtain ⟨y, hy, h⟩ := h
          rw [bind_ok] at h
          obtain ⟨l', h1, h⟩ := h
          obtain rfl := Except.ok.inj h
          intro x hx
          simp only [List.mem_cons] at hx
          rcases hx with rfl | rfl | hx
          · rw [intersect_onLine hy]
          · omega
          · exact ih h1 x hx
        · split at h
          · rename_i hp
            rw [bind_ok] at h
            obtain ⟨l', h1, h⟩ := h
            obtain rfl := Except.ok.inj h
            intro x hx
            simp only [List.mem_cons] at hx
            rcases hx with rfl | rfl | hx
            · omega
            · omega
            · exact ih h1 x hx
          · rw [bind_ok] at h
            obtain ⟨l', h1, h⟩ := h
            obtain rfl := Except.ok.inj h
            intro x hx
            simp only [List.mem_cons] at hx
            rcases hx with rfl | hx
            · omega
            · exact ih h1 x hx
      · split at h
        · rw [bind_ok] at h
          obtain ⟨y, hy, h⟩ := h
          rw [bind_ok] at h
          obtain ⟨l', h1, h⟩ := h
          obtain rfl := Except.ok.inj h
          intro x hx
          simp only [List.mem_cons] at hx
          rcases hx with rfl | hx
          · rw [intersect_onLine hy]
          · exact ih h1 x hx
        · exact ih h

theorem clipRest_filter {m : Build} {mask : ClipMask} {pts : List Point} {prev : Point}
    {last : Option Point} {l : List Point} (h : clipRest m mask prev last pts = .ok l) :
    l.filter (fun x => 0 < depth mask x) = pts.filter (fun x => 0 < depth mask x) := by
  induction pts generalizing prev last l with
  | nil => obtain rfl := Except.ok.inj h; rfl
  | cons q rest ih =>
    simp only [clipRest] at h
    split at h
    · rename_i q0
      have hq : ¬ 0 < depth mask q := by omega
      split at h
      · rw [bind_ok] at h
        obtain ⟨l', h1, h⟩ := h
        obtain rfl := Except.ok.inj h
        simpa [hq] using ih h1
      · simpa [hq] using ih h
    · split at h
      · rename_i q0 q1
        split at h
        · rw [bind_ok] at h
          obtain ⟨y, hy, h⟩ := h
          rw [bind_ok] at h
          obtain ⟨l', h1, h⟩ := h
          obtain rfl := Except.ok.inj h
          have hy0 : ¬ 0 < depth mask y := by rw [intersect_onLine hy]; omega
          simpa [q1, hy0] using ih h1
        · split at h
          · rename_i hp
            rw [bind_ok] at h
            obtain ⟨l', h1, h⟩ := h
            obtain rfl := Except.ok.inj h
            have hp0 : ¬ 0 < depth mask prev := by omega
            simpa [q1, hp0] using ih h1
          · rw [bind_ok] at h
            obtain ⟨l', h1, h⟩ := h
            obtain rfl := Except.ok.inj h
            simpa [q1] using ih h1
      · rename_i q0 q1
        split at h
        · rw [bind_ok] at h
          obtain ⟨y, hy, h⟩ := h
          rw [bind_ok] at h
          obtain ⟨l', h1, h⟩ := h
          obtain rfl := Except.ok.inj h
          have hy0 : ¬ 0 < depth mask y := by rw [intersect_onLine hy]; omega
          simpa [q1, hy0] using ih h1
        · simpa [q1] using ih h

theorem clipRest_none_inside {m : Build} {mask : ClipMask} {pts : List Point} {prev : Point}
    {last : Option Point} (hp : ¬ 0 < depth mask prev) (h : ∀ x ∈ pts, ¬ 0 < depth mask x) :
    clipRest m mask prev last pts = .ok [] := by
  induction pts generalizing prev last with
  | nil => rfl
  | cons q rest ih =>
    have hq := h q (by simp)
    have hr := ih (prev := q) (last := last) hq (fun x hx => h x (by simp [hx]))
    simp only [clipRest]
    by_cases q0 : depth mask q = 0
    · rw [if_pos q0, if_neg hp]; exact hr
    · rw [if_neg q0, if_neg hq, if_neg hp]; exact hr

theorem clipRest_all_inside {m : Build} {mask : ClipMask} {pts : List Point} {prev : Point}
    {last : Option Point} (hp : 0 < depth mask prev) (h : ∀ x ∈ pts, 0 < depth mask x) :
    clipRest m mask prev last pts = .ok pts := by
  induction pts generalizing prev last with
  | nil => rfl
  | cons q rest ih =>
    have hq := h q (by simp)
    have hr := ih (prev := q) (last := some q) hq (fun x hx => h x (by simp [hx]))
    simp only [clipRest]
    rw [if_neg (by omega), if_pos hq, if_neg (by omega), if_neg (by omega), hr]
    rfl

theorem clipRest_onlyOverflow (m : Build) (mask : ClipMask) (pts : List Point) (prev : Point)
    (last : Option Point) : OnlyOverflow m (clipRest m mask prev last pts) := by
  induction pts generalizing prev last with
  | nil => exact OnlyOverflow.ok _
  | cons q rest ih =>
    simp only [clipRest]
    split
    · split
      · exact OnlyOverflow.bind (ih _ _) (fun _ _ => OnlyOverflow.ok _)
      · exact ih _ _
    · split
      · rename_i q1
        split
        · rename_i p1
          refine OnlyOverflow.bind (fun e he => intersect_error (Or.inl ⟨p1, q1⟩) he) fun _ _ => ?_
          exact OnlyOverflow.bind (ih _ _) (fun _ _ => OnlyOverflow.ok _)
        · split
          · exact OnlyOverflow.bind (ih _ _) (fun _ _ => OnlyOverflow.ok _)
          · exact OnlyOverflow.bind (ih _ _) (fun _ _ => OnlyOverflow.ok _)
      · rename_i q0 q1
        split
        · rename_i p1
          refine OnlyOverflow.bind (fun e he => intersect_error (Or.inr ⟨p1, by omega⟩) he) fun _ _ => ?_
          exact OnlyOverflow.bind (ih _ _) (fun _ _ => OnlyOverflow.ok _)
        · exact ih _ _

theorem clipEdge_onlyOverflow (m : Build) (mask : ClipMask) (pts : List Point) :
    OnlyOverflow m (clipEdge m mask pts) := by
  match pts with
  | [] => exact OnlyOverflow.ok _
  | [_] => exact OnlyOverflow.ok _
  | p :: q :: rest =>
    rw [clipEdge_eq]
    split
    · exact OnlyOverflow.bind (clipRest_onlyOverflow _ _ _ _ _) (fun _ _ => OnlyOverflow.ok _)
    · exact clipRest_onlyOverflow _ _ _ _ _

/-! ## The shape of the output -/

mutual
/-- What may follow an inside point: inside points, and runs of one or two
points on the line. -/
def wcIn (mask : ClipMask) : List Point → Prop
  | [] => True
  | x :: l => (0 < depth mask x ∧ wcIn mask l) ∨ (depth mask x = 0 ∧ wcOn mask l)
/-- What may follow the first point of a run on the line. -/
def wcOn (mask : ClipMask) : List Point → Prop
  | [] => True
  | x :: l => (0 < depth mask x ∧ wcIn mask l) ∨ (depth mask x = 0 ∧ wcMust mask l)
/-- A list that must go on with an inside point. -/
def wcMust (mask : ClipMask) : List Point → Prop
  | [] => False
  | x :: l => 0 < depth mask x ∧ wcIn mask l
end

/-- The shape of a clipped edge. -/
def wellClipped (mask : ClipMask) : List Point → Prop
  | [] => True
  | x :: l => (0 < depth mask x ∧ l ≠ [] ∧ wcIn mask l) ∨ (depth mask x = 0 ∧ wcMust mask l)

theorem clipRest_shape {m : Build} {mask : ClipMask} {pts : List Point} {prev : Point}
    {last : Option Point} {l : List Point} (h : clipRest m mask prev last pts = .ok l) :
    (0 < depth mask prev → wcIn mask l) ∧
    (¬ 0 < depth mask prev → (∃ x, last = some x) → wcOn mask l) ∧
    (¬ 0 < depth mask prev → last = none → l = [] ∨ ∃ x l', l = x :: l' ∧ depth mask x = 0 ∧ wcMust mask l') := by
  induction pts generalizing prev last l with
  | nil =>
    obtain rfl := Except.ok.inj h
    exact ⟨fun _ => trivial, fun _ _ => trivial, fun _ _ => Or.inl rfl⟩
  | cons q rest ih =>
    simp only [clipRest] at h
    split at h
    · rename_i q0
      have hq : ¬ 0 < depth mask q := by omega
      split at h
      · rename_i p1
        rw [bind_ok] at h
        obtain ⟨l', h1, h⟩ := h
        obtain rfl := Except.ok.inj h
        refine ⟨fun _ => Or.inr ⟨q0, (ih h1).2.1 hq ⟨q, rfl⟩⟩, fun h' => absurd p1 h', fun h' => absurd p1 h'⟩
      · rename_i p1
        have := ih h
        exact ⟨fun h' => absurd h' p1, fun _ => this.2.1 hq, fun _ => this.2.2 hq⟩
    · split at h
      · rename_i q0 q1
        split at h
        · rename_i p1
          rw [bind_ok] at h
          obtain ⟨y, hy, h⟩ := h
          rw [bind_ok] at h
          obtain ⟨l', h1, h⟩ := h
          obtain rfl := Except.ok.inj h
          have hy0 := intersect_onLine hy
          have hl : wcMust mask (q :: l') := ⟨q1, (ih h1).1 q1⟩
          exact ⟨fun h' => absurd h' (by omega), fun _ _ => Or.inr ⟨hy0, hl⟩,
            fun _ _ => Or.inr ⟨y, q :: l', rfl, hy0, hl⟩⟩
        · split at h
          · rename_i hp
            rw [bind_ok] at h
            obtain ⟨l', h1, h⟩ := h
            obtain rfl := Except.ok.inj h
            have hl : wcMust mask (q :: l') := ⟨q1, (ih h1).1 q1⟩
            exact ⟨fun h' => absurd h' (by omega), fun _ _ => Or.inr ⟨hp.1, hl⟩,
              fun _ _ => Or.inr ⟨prev, q :: l', rfl, hp.1, hl⟩⟩
          · rename_i p1 hp
            rw [bind_ok] at h
            obtain ⟨l', h1, h⟩ := h
            obtain rfl := Except.ok.inj h
            have hl := (ih h1).1 q1
            refine ⟨fun _ => Or.inl ⟨q1, hl⟩, fun _ _ => Or.inl ⟨q1, hl⟩, ?_⟩
            intro h' hnone
            exact absurd ⟨by omega, by rw [hnone]; simp⟩ hp
      · rename_i q0 q1
        split at h
        · rename_i p1
          rw [bind_ok] at h
          obtain ⟨y, hy, h⟩ := h
          rw [bind_ok] at h
          obtain ⟨l', h1, h⟩ := h
          obtain rfl := Except.ok.inj h
          have hy0 := intersect_onLine hy
          exact ⟨fun _ => Or.inr ⟨hy0, (ih h1).2.1 q1 ⟨y, rfl⟩⟩, fun h' => absurd p1 h',
            fun h' => absurd p1 h'⟩
        · rename_i p1
          have := ih h
          exact ⟨fun h' => absurd h' p1, fun _ => this.2.1 q1, fun _ => this.2.2 q1⟩

theorem clipRest_ne_nil {m : Build} {mask : ClipMask} {q : Point} {rest : List Point} {prev : Point}
    {last : Option Point} {l : List Point} (hp : 0 < depth mask prev)
    (h : clipRest m mask prev last (q :: rest) = .ok l) : l ≠ [] := by
  simp only [clipRest, if_pos hp] at h
  split at h
  · rw [bind_ok] at h
    obtain ⟨l', _, h⟩ := h
    obtain rfl := Except.ok.inj h
    simp
  · split at h
    · rw [if_neg (by omega), if_neg (by omega), bind_ok] at h
      obtain ⟨l', _, h⟩ := h
      obtain rfl := Except.ok.inj h
      simp
    · rw [bind_ok] at h
      obtain ⟨y, _, h⟩ := h
      rw [bind_ok] at h
      obtain ⟨l', _, h⟩ := h
      obtain rfl := Except.ok.inj h
      simp

theorem clipEdge_shape {m : Build} {mask : ClipMask} {pts l : List Point}
    (h : clipEdge m mask pts = .ok l) : wellClipped mask l := by
  match pts, h with
  | [], h => obtain rfl := Except.ok.inj h; trivial
  | [_], h => obtain rfl := Except.ok.inj h; trivial
  | p :: q :: rest, h =>
    rw [clipEdge_eq] at h
    split at h
    · rename_i hp
      rw [bind_ok] at h
      obtain ⟨l', h1, h⟩ := h
      obtain rfl := Except.ok.inj h
      exact Or.inl ⟨hp, clipRest_ne_nil hp h1, (clipRest_shape h1).1 hp⟩
    · rename_i hp
      rcases (clipRest_shape h).2.2 hp rfl with rfl | ⟨x, l', rfl, hx, hl⟩
      · trivial
      · exact Or.inr ⟨hx, hl⟩

theorem wellClipped_length {mask : ClipMask} {l : List Point} (h : wellClipped mask l) (hne : l ≠ []) :
    2 ≤ l.length := by
  match l, h with
  | [], _ => exact absurd rfl hne
  | [x], Or.inl h => exact absurd rfl h.2.1
  | [x], Or.inr h => exact absurd h.2 (by simp [wcMust])
  | _ :: _ :: _, _ => simp

/-- Clipping a list of the right shape merges repeated points on the line. -/
theorem clipRest_wc {m : Build} {mask : ClipMask} (n : Nat) (l : List Point) (p : Point)
    (hn : l.length ≤ n) (hp : 0 < depth mask p) (h : wcIn mask l) :
    ∃ l', mergeOnLine mask (p :: l) = p :: l' ∧ clipRest m mask p (some p) l = .ok l' := by
  have skip : ∀ (a q : Point) (r : List Point), 0 < depth mask q →
      mergeOnLine mask (a :: q :: r) = a :: mergeOnLine mask (q :: r) := by
    intro a q r hq
    rw [mergeOnLine, if_neg (by omega)]
  induction n generalizing l p with
  | zero =>
    have : l = [] := List.length_eq_zero_iff.mp (by omega)
    subst this
    exact ⟨[], rfl, rfl⟩
  | succ n ih =>
    match l, h with
    | [], _ => exact ⟨[], rfl, rfl⟩
    | q :: r, Or.inl ⟨hq, hr⟩ =>
      obtain ⟨l', h1, h2⟩ := ih r q (by simp at hn; omega) hq hr
      refine ⟨q :: l', by rw [skip p q r hq, h1], ?_⟩
      simp only [clipRest]
      rw [if_neg (by omega), if_pos hq, if_neg (by omega), if_neg (by omega), h2]
      rfl
    | q :: r, Or.inr ⟨hq, hr⟩ =>
      have hpq : ¬ (p = q ∧ depth mask q = 0) := by rintro ⟨rfl, _⟩; omega
      match r, hr with
      | [], _ =>
        refine ⟨[q], by simp [mergeOnLine, hpq], ?_⟩
        simp only [clipRest]
        rw [if_pos hq, if_pos hp]; rfl
      | y :: r, Or.inl ⟨hy, hr⟩ =>
        obtain ⟨l', h1, h2⟩ := ih r y (by simp at hn; omega) hy hr
        refine ⟨q :: y :: l', ?_, ?_⟩
        · rw [mergeOnLine, if_neg hpq, skip q y r hy, h1]
        · simp only [clipRest]
          rw [if_pos hq, if_pos hp, if_neg (by omega), if_pos hy, if_neg (by omega), if_neg (by simp), h2]
          rfl
      | x :: r, Or.inr ⟨hx, hr⟩ =>
        match r, hr with
        | [], hr => exact absurd hr (by simp [wcMust])
        | y :: r, ⟨hy, hr⟩ =>
          obtain ⟨l', h1, h2⟩ := ih r y (by simp at hn; omega) hy hr
          by_cases hqx : q = x
          · subst hqx
            refine ⟨q :: y :: l', ?_, ?_⟩
            · rw [mergeOnLine, if_neg hpq, mergeOnLine, if_pos ⟨rfl, hq⟩, skip q y r hy, h1]
            · simp only [clipRest]
              rw [if_pos hq, if_pos hp, if_pos hq, if_neg (by omega), if_neg (by omega), if_pos hy, if_neg (by omega),
                if_neg (by simp), h2]
              rfl
          · refine ⟨q :: x :: y :: l', ?_, ?_⟩
            · rw [mergeOnLine, if_neg hpq, mergeOnLine, if_neg (fun h => hqx h.1), skip x y r hy, h1]
            · simp only [clipRest]
              rw [if_pos hq, if_pos hp, if_pos hx, if_neg (by omega), if_neg (by omega), if_pos hy, if_neg (by omega),
                if_pos ⟨hx, by simpa using hqx⟩, h2]
              rfl

theorem clipEdge_wc (m : Build) {mask : ClipMask} {l : List Point} (h : wellClipped mask l) :
    clipEdge m mask l = .ok (mergeOnLine mask l) := by
  match l, h with
  | [], _ => rfl
  | [x], Or.inl h => exact absurd rfl h.2.1
  | [x], Or.inr h => exact absurd h.2 (by simp [wcMust])
  | p :: q :: r, Or.inl ⟨hp, _, hr⟩ =>
    obtain ⟨l', h1, h2⟩ := clipRest_wc (m := m) _ _ p (le_refl _) hp hr
    rw [clipEdge_eq, if_pos hp, h2, h1]; rfl
  | p :: q :: r, Or.inr ⟨hp, hq, hr⟩ =>
    obtain ⟨l', h1, h2⟩ := clipRest_wc (m := m) _ _ q (le_refl _) hq hr
    rw [clipEdge_eq, if_neg (by omega), mergeOnLine, if_neg (by omega), h1]
    simp only [clipRest]
    rw [if_neg (by omega), if_pos hq, if_neg (by omega), if_pos ⟨hp, by simp⟩, h2]
    rfl

/-! ## First and last points -/

/-- What is known about the last emitted point. -/
def LastInv (mask : ClipMask) (prev : Point) (last : Option Point) : Prop :=
  (0 < depth mask prev → last = some prev) ∧
  (¬ 0 < depth mask prev → ∀ x, last = some x → depth mask x = 0)

theorem clipRest_last {m : Build} {mask : ClipMask} {pts : List Point} {prev : Point}
    {last : Option Point} {l : List Point} (hi : LastInv mask prev last)
    (h : clipRest m mask prev last pts = .ok l) :
    LastInv mask ((prev :: pts).getLast (by simp)) ((last.toList ++ l).getLast?) := by
  induction pts generalizing prev last l with
  | nil =>
    obtain rfl := Except.ok.inj h
    cases last <;> simpa using hi
  | cons q rest ih =>
    have tail : ∀ (l' : List Point) (a : Point) (pre : List Point),
        (pre ++ a :: l').getLast? = ((some a).toList ++ l').getLast? := by
      intro l' a pre
      simp [List.getLast?_append, List.getLast?_cons]
    simp only [clipRest] at h
    rw [List.getLast_cons (by simp)]
    split at h
    · rename_i q0
      have hq : ¬ 0 < depth mask q := by omega
      split at h
      · rw [bind_ok] at h
        obtain ⟨l', h1, h⟩ := h
        obtain rfl := Except.ok.inj h
        rw [tail]
        exact ih ⟨fun h' => absurd h' hq, fun _ x hx => by obtain rfl := Option.some.inj hx; exact q0⟩ h1
      · rename_i p1
        exact ih ⟨fun h' => absurd h' hq, fun _ x hx => hi.2 p1 x hx⟩ h
    · split at h
      · rename_i q0 q1
        have hiq : LastInv mask q (some q) := ⟨fun _ => rfl, fun h' => absurd q1 h'⟩
        split at h
        · rw [bind_ok] at h
          obtain ⟨y, hy, h⟩ := h
          rw [bind_ok] at h
          obtain ⟨l', h1, h⟩ := h
          obtain rfl := Except.ok.inj h
          have := tail l' q (last.toList ++ [y])
          rw [List.append_assoc] at this
          rw [show last.toList ++ y :: q :: l' = last.toList ++ ([y] ++ q :: l') from rfl, this]
          exact ih hiq h1
        · split at h
          · rw [bind_ok] at h
            obtain ⟨l', h1, h⟩ := h
            obtain rfl := Except.ok.inj h
            have := tail l' q (last.toList ++ [prev])
            rw [List.append_assoc] at this
            rw [show last.toList ++ prev :: q :: l' = last.toList ++ ([prev] ++ q :: l') from rfl, this]
            exact ih hiq h1
          · rw [bind_ok] at h
            obtain ⟨l', h1, h⟩ := h
            obtain rfl := Except.ok.inj h
            rw [tail]
            exact ih hiq h1
      · rename_i q0 q1
        split at h
        · rw [bind_ok] at h
          obtain ⟨y, hy, h⟩ := h
          rw [bind_ok] at h
          obtain ⟨l', h1, h⟩ := h
          obtain rfl := Except.ok.inj h
          rw [tail]
          exact ih ⟨fun h' => absurd h' q1,
            fun _ x hx => by obtain rfl := Option.some.inj hx; exact intersect_onLine hy⟩ h1
        · rename_i p1
          exact ih ⟨fun h' => absurd h' q1, fun _ x hx => hi.2 p1 x hx⟩ h

/-- The last point of a clipped edge is the last point of the edge if that is
inside, and a point on the line otherwise. -/
theorem clipEdge_last {m : Build} {mask : ClipMask} {pts l : List Point} (hlen : 2 ≤ pts.length)
    (h : clipEdge m mask pts = .ok l) :
    ∀ p ∈ pts.getLast?, (0 < depth mask p → l.getLast? = some p) ∧
      (¬ 0 < depth mask p → ∀ x ∈ l.getLast?, depth mask x = 0) := by
  match pts, h, hlen with
  | p :: q :: rest, h, _ =>
    intro z hz
    rw [List.getLast?_eq_some_getLast (by simp)] at hz
    obtain rfl := Option.some.inj hz
    rw [clipEdge_eq] at h
    split at h
    · rename_i hp
      rw [bind_ok] at h
      obtain ⟨l', h1, h⟩ := h
      obtain rfl := Except.ok.inj h
      have := clipRest_last ⟨fun _ => rfl, fun h' => absurd hp h'⟩ h1
      simpa [LastInv] using this
    · rename_i hp
      have := clipRest_last ⟨fun h' => absurd h' hp, fun _ x hx => by cases hx⟩ h
      simpa [LastInv] using this

/-- The first point of a clipped edge is the first point of the edge if that is
inside, and a point on the line otherwise. -/
theorem clipEdge_first {m : Build} {mask : ClipMask} {pts l : List Point} (hlen : 2 ≤ pts.length)
    (h : clipEdge m mask pts = .ok l) :
    ∀ p ∈ pts.head?, (0 < depth mask p → l.head? = some p) ∧
      (¬ 0 < depth mask p → ∀ x ∈ l.head?, depth mask x = 0) := by
  match pts, h, hlen with
  | p :: q :: rest, h, _ =>
    intro z hz
    simp only [List.head?_cons, Option.mem_def, Option.some.injEq] at hz
    subst hz
    rw [clipEdge_eq] at h
    split at h
    · rename_i hp
      rw [bind_ok] at h
      obtain ⟨l', h1, h⟩ := h
      obtain rfl := Except.ok.inj h
      exact ⟨fun _ => rfl, fun h' => absurd hp h'⟩
    · rename_i hp
      refine ⟨fun h' => absurd h' hp, fun _ x hx => ?_⟩
      rcases (clipRest_shape h).2.2 hp rfl with rfl | ⟨y, l', rfl, hy, _⟩
      · simp at hx
      · simp at hx; rw [← hx]; exact hy

/-! ## Visible parts -/

/-- The crossing point as computed, with an irrelevant default. -/
def crossing (m : Build) (mask : ClipMask) (p q : Point) : Point :=
  match mask.intersect m p q with
  | .ok x => x
  | .error _ => p

theorem unrepeat_cons_cons_self (p : Point) (t : List Point) : unrepeat (p :: p :: t) = unrepeat (p :: t) := by
  rw [unrepeat, if_pos rfl]

theorem unrepeat_dup {ret : List Point} {p : Point} (h : ret.getLast? = some p) (t : List Point) :
    unrepeat (ret ++ p :: t) = unrepeat (ret ++ t) := by
  induction ret with
  | nil => simp at h
  | cons a r ih =>
    cases r with
    | nil =>
      simp only [List.getLast?_singleton, Option.some.injEq] at h
      subst h
      exact unrepeat_cons_cons_self a t
    | cons b r =>
      rw [List.getLast?_cons_cons] at h
      have := ih h
      simp only [List.cons_append, unrepeat] at this ⊢
      rw [this]

theorem clipRest_visible {m : Build} {mask : ClipMask} {pts : List Point} {prev : Point}
    {ret l : List Point} (hi : 0 < depth mask prev → ret.getLast? = some prev)
    (h : clipRest m mask prev ret.getLast? pts = .ok l) :
    unrepeat (ret ++ l) = unrepeat (ret ++ (visibleParts mask (crossing m mask) (prev :: pts)).flatten) := by
  induction pts generalizing prev ret l with
  | nil =>
    obtain rfl := Except.ok.inj h
    simp [visibleParts]
  | cons q rest ih =>
    have snoc : ∀ (r : List Point) (a : Point), (r ++ [a]).getLast? = some a := by
      intro r a; simp
    have app : ∀ (r : List Point) (a : Point) (t : List Point), r ++ a :: t = (r ++ [a]) ++ t := by simp
    simp only [clipRest] at h
    simp only [visibleParts, List.flatten_cons]
    split at h
    · rename_i q0
      have hq : ¬ 0 < depth mask q := by omega
      split at h
      · rename_i p1
        rw [bind_ok] at h
        obtain ⟨l', h1, h⟩ := h
        obtain rfl := Except.ok.inj h
        have hv : visiblePart mask (crossing m mask) prev q = [prev, q] := by
          unfold visiblePart
          rw [if_pos (Or.inl p1), if_neg (by omega), if_neg (by omega)]
        have := ih (ret := ret ++ [q]) (fun h' => absurd h' hq) (by rw [snoc]; exact h1)
        rw [app, this, hv]
        simp only [List.append_assoc, List.cons_append, List.nil_append]
        rw [unrepeat_dup (hi p1)]
      · rename_i p1
        have hv : visiblePart mask (crossing m mask) prev q = [] := by
          unfold visiblePart
          rw [if_neg (by omega)]
        rw [hv, List.nil_append]
        exact ih (fun h' => absurd h' hq) h
    · split at h
      · rename_i q0 q1
        split at h
        · rename_i p1
          rw [bind_ok] at h
          obtain ⟨y, hy, h⟩ := h
          rw [bind_ok] at h
          obtain ⟨l', h1, h⟩ := h
          obtain rfl := Except.ok.inj h
          have hv : visiblePart mask (crossing m mask) prev q = [y, q] := by
            unfold visiblePart crossing
            rw [if_pos (Or.inr q1), if_pos p1, hy]
          have := ih (ret := ret ++ [y] ++ [q]) (fun _ => snoc _ _) (by rw [snoc]; exact h1)
          rw [app, app, this, hv]
          simp
        · rename_i p1
          have hv : visiblePart mask (crossing m mask) prev q = [prev, q] := by
            unfold visiblePart
            rw [if_pos (Or.inr q1), if_neg p1, if_neg (by omega)]
          rw [hv]
          split at h
          · rename_i hp
            rw [bind_ok] at h
            obtain ⟨l', h1, h⟩ := h
            obtain rfl := Except.ok.inj h
            have := ih (ret := ret ++ [prev] ++ [q]) (fun _ => snoc _ _) (by rw [snoc]; exact h1)
            rw [app, app, this]
            simp
          · rename_i hp
            rw [bind_ok] at h
            obtain ⟨l', h1, h⟩ := h
            obtain rfl := Except.ok.inj h
            have hl : ret.getLast? = some prev := by
              by_cases h0 : depth mask prev = 0
              · by_contra hne; exact hp ⟨h0, hne⟩
              · exact hi (by omega)
            have := ih (ret := ret ++ [q]) (fun _ => snoc _ _) (by rw [snoc]; exact h1)
            rw [app, this]
            simp only [List.append_assoc, List.cons_append, List.nil_append]
            rw [unrepeat_dup hl]
      · rename_i q0 q1
        split at h
        · rename_i p1
          rw [bind_ok] at h
          obtain ⟨y, hy, h⟩ := h
          rw [bind_ok] at h
          obtain ⟨l', h1, h⟩ := h
          obtain rfl := Except.ok.inj h
          have hv : visiblePart mask (crossing m mask) prev q = [prev, y] := by
            unfold visiblePart crossing
            rw [if_pos (Or.inl p1), if_neg (by omega), if_pos (by omega), hy]
          have := ih (ret := ret ++ [y]) (fun h' => absurd h' q1) (by rw [snoc]; exact h1)
          rw [app, this, hv]
          simp only [List.append_assoc, List.cons_append, List.nil_append]
          rw [unrepeat_dup (hi p1)]
        · rename_i p1
          have hv : visiblePart mask (crossing m mask) prev q = [] := by
            unfold visiblePart
            rw [if_neg (by omega)]
          rw [hv, List.nil_append]
          exact ih (fun h' => absurd h' q1) h

/-- Consecutive output points. -/
def StepOk (m : Build) (mask : ClipMask) (input : List Point) (a b : Point) : Prop :=
  (depth mask a = 0 ∧ depth mask b = 0) ∨
  ∃ p q, [p, q] ∈ pairs input ∧ visiblePart mask (crossing m mask) p q = [a, b]

theorem clipRest_steps {m : Build} {mask : ClipMask} {input pts : List Point} {prev : Point}
    {last : Option Point} {l : List Point} (hi : LastInv mask prev last)
    (hin : ∀ s ∈ pairs (prev :: pts), s ∈ pairs input)
    (h : clipRest m mask prev last pts = .ok l) :
    ∀ a b, [a, b] ∈ pairs (last.toList ++ l) → StepOk m mask input a b := by
  induction pts generalizing prev last l with
  | nil =>
    obtain rfl := Except.ok.inj h
    intro a b hab
    cases last <;> simp [pairs] at hab
  | cons q rest ih =>
    have hseg : [prev, q] ∈ pairs input := hin _ (by simp [pairs])
    have hin' : ∀ s ∈ pairs (q :: rest), s ∈ pairs input := fun s hs => hin s (by simp [pairs, hs])
    have lastpair : ∀ (z : Point) (l' : List Point), (∀ x, last = some x → StepOk m mask input x z) →
        (∀ a b, [a, b] ∈ pairs (z :: l') → StepOk m mask input a b) →
        ∀ a b, [a, b] ∈ pairs (last.toList ++ z :: l') → StepOk m mask input a b := by
      intro z l' h1 h2 a b hab
      cases last with
      | none => exact h2 a b (by simpa using hab)
      | some x =>
        simp only [Option.toList_some, List.cons_append, List.nil_append, pairs, List.mem_cons] at hab
        rcases hab with hab | hab
        · simp only [List.cons.injEq, and_true] at hab
          obtain ⟨rfl, rfl⟩ := hab
          exact h1 _ rfl
        · exact h2 a b hab
    have conspair : ∀ (y z : Point) (l' : List Point), StepOk m mask input y z →
        (∀ a b, [a, b] ∈ pairs (z :: l') → StepOk m mask input a b) →
        ∀ a b, [a, b] ∈ pairs (y :: z :: l') → StepOk m mask input a b := by
      intro y z l' h1 h2 a b hab
      simp only [pairs, List.mem_cons, List.cons.injEq, and_true] at hab
      rcases hab with ⟨rfl, rfl⟩ | hab
      · exact h1
      · exact h2 a b (by simpa [pairs] using hab)
    simp only [clipRest] at h
    split at h
    · rename_i q0
      have hq : ¬ 0 < depth mask q := by omega
      split at h
      · rename_i p1
        rw [bind_ok] at h
        obtain ⟨l', h1, h⟩ := h
        obtain rfl := Except.ok.inj h
        have := ih ⟨fun h' => absurd h' hq, fun _ x hx => by obtain rfl := Option.some.inj hx; exact q0⟩ hin' h1
        refine lastpair q l' ?_ this
        intro x hx
        rw [hi.1 p1] at hx
        obtain rfl := Option.some.inj hx
        refine Or.inr ⟨_, _, hseg, ?_⟩
        unfold visiblePart
        rw [if_pos (Or.inl p1), if_neg (by omega), if_neg (by omega)]
      · rename_i p1
        exact ih ⟨fun h' => absurd h' hq, fun _ x hx => hi.2 p1 x hx⟩ hin' h
    · split at h
      · rename_i q0 q1
        have hiq : LastInv mask q (some q) := ⟨fun _ => rfl, fun h' => absurd q1 h'⟩
        split at h
        · rename_i p1
          rw [bind_ok] at h
          obtain ⟨y, hy, h⟩ := h
          rw [bind_ok] at h
          obtain ⟨l', h1, h⟩ := h
          obtain rfl := Except.ok.inj h
          have := ih hiq hin' h1
          refine lastpair y _ ?_ (conspair y q l' ?_ this)
          · intro x hx
            exact Or.inl ⟨hi.2 (by omega) x hx, intersect_onLine hy⟩
          · refine Or.inr ⟨_, _, hseg, ?_⟩
            unfold visiblePart crossing
            rw [if_pos (Or.inr q1), if_pos p1, hy]
        · rename_i p1
          have hv : visiblePart mask (crossing m mask) prev q = [prev, q] := by
            unfold visiblePart
            rw [if_pos (Or.inr q1), if_neg p1, if_neg (by omega)]
          split at h
          · rename_i hp
            rw [bind_ok] at h
            obtain ⟨l', h1, h⟩ := h
            obtain rfl := Except.ok.inj h
            have := ih hiq hin' h1
            refine lastpair prev _ ?_ (conspair prev q l' (Or.inr ⟨_, _, hseg, hv⟩) this)
            intro x hx
            exact Or.inl ⟨hi.2 (by omega) x hx, hp.1⟩
          · rename_i hp
            rw [bind_ok] at h
            obtain ⟨l', h1, h⟩ := h
            obtain rfl := Except.ok.inj h
            have hl : last = some prev := by
              by_cases h0 : depth mask prev = 0
              · by_contra hne; exact hp ⟨h0, hne⟩
              · exact hi.1 (by omega)
            have := ih hiq hin' h1
            refine lastpair q l' ?_ this
            intro x hx
            rw [hl] at hx
            obtain rfl := Option.some.inj hx
            exact Or.inr ⟨_, _, hseg, hv⟩
      · rename_i q0 q1
        split at h
        · rename_i p1
          rw [bind_ok] at h
          obtain ⟨y, hy, h⟩ := h
          rw [bind_ok] at h
          obtain ⟨l', h1, h⟩ := h
          obtain rfl := Except.ok.inj h
          have := ih ⟨fun h' => absurd h' q1,
            fun _ x hx => by obtain rfl := Option.some.inj hx; exact intersect_onLine hy⟩ hin' h1
          refine lastpair y l' ?_ this
          intro x hx
          rw [hi.1 p1] at hx
          obtain rfl := Option.some.inj hx
          refine Or.inr ⟨_, _, hseg, ?_⟩
          unfold visiblePart crossing
          rw [if_pos (Or.inl p1), if_neg (by omega), if_pos (by omega), hy]
        · rename_i p1
          exact ih ⟨fun h' => absurd h' q1, fun _ x hx => hi.2 p1 x hx⟩ hin' h

end TopoGeo
