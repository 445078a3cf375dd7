import Verif.Spec.Symmetry
import Verif.Proofs.MovedClip
import Mathlib.Data.Nat.Prime.Basic
/-!
# Points, masks and edges of a mirrored or turned map
-/

namespace TopoGeo

open Spec

variable {m : Build} {mask : ClipMask} (g : GridSymmetry)

/-! ## Coordinates -/

/-- The sign of a mirrored coordinate. -/
def flipSign (b : Bool) : Int := if b then -1 else 1

/-- What is added to a mirrored coordinate. -/
def flipShift (b : Bool) : Int := if b then 4294967295 else 0

theorem flipSign_cases (b : Bool) : flipSign b = 1 ∨ flipSign b = -1 := by cases b <;> simp [flipSign]

theorem flipped_toNat (b : Bool) (x : UInt32) : ((flipped b x).toNat : Int) = flipSign b * x.toNat + flipShift b := by
  cases b with
  | false => simp [flipped, flipSign, flipShift]
  | true =>
    have h : (4294967295 - x).toNat = 4294967295 - x.toNat := by
      rw [UInt32.toNat_sub_of_le]
      · rfl
      · rw [UInt32.le_iff_toNat_le]
        have := x.toNat_lt
        show x.toNat ≤ 4294967295
        omega
    have := x.toNat_lt
    simp only [flipped, flipSign, flipShift, if_true, h]
    omega

theorem flipped_inj {b : Bool} {x y : UInt32} (h : flipped b x = flipped b y) : x = y := by
  have h1 := flipped_toNat b x
  have h2 := flipped_toNat b y
  rw [h] at h1
  rw [← UInt32.toNat_inj]
  rcases flipSign_cases b with hs | hs <;> rw [hs] at h1 h2 <;> omega

theorem symmetry_inj {p q : Point} : g.point p = g.point q ↔ p = q := by
  constructor
  · intro h
    unfold GridSymmetry.point at h
    cases p
    cases q
    split at h <;> simp only [Point.mk.injEq] at h ⊢
    · exact ⟨flipped_inj h.2, flipped_inj h.1⟩
    · exact ⟨flipped_inj h.1, flipped_inj h.2⟩
  · rintro rfl; rfl

/-- Which axis is mirrored: that of the tested coordinate. -/
def firstAxis : ClipMask → Bool
  | .minX _ | .maxX _ => if g.swap then g.flipY else g.flipX
  | .minY _ | .maxY _ => if g.swap then g.flipX else g.flipY

/-- Which axis is mirrored: that of the other coordinate. -/
def secondAxis : ClipMask → Bool
  | .minX _ | .maxX _ => if g.swap then g.flipX else g.flipY
  | .minY _ | .maxY _ => if g.swap then g.flipY else g.flipX

theorem tested_symmetry (mask : ClipMask) (p : Point) :
    tested (g.mask mask) (g.point p) = flipSign (firstAxis g mask) * tested mask p + flipShift (firstAxis g mask) := by
  rcases g with ⟨_ | _, _ | _, _ | _⟩ <;> cases mask <;>
    simp only [GridSymmetry.mask, GridSymmetry.point, maskAt, tested, firstAxis, if_true, if_false, Bool.false_eq_true, Bool.not_true,
      Bool.not_false] <;> exact flipped_toNat _ _

theorem other_symmetry (mask : ClipMask) (p : Point) :
    other (g.mask mask) (g.point p) = flipSign (secondAxis g mask) * other mask p + flipShift (secondAxis g mask) := by
  rcases g with ⟨_ | _, _ | _, _ | _⟩ <;> cases mask <;>
    simp only [GridSymmetry.mask, GridSymmetry.point, maskAt, other, secondAxis, if_true, if_false, Bool.false_eq_true, Bool.not_true,
      Bool.not_false] <;> exact flipped_toNat _ _

theorem bound_symmetry (mask : ClipMask) :
    bound (g.mask mask) = flipSign (firstAxis g mask) * bound mask + flipShift (firstAxis g mask) := by
  rcases g with ⟨_ | _, _ | _, _ | _⟩ <;> cases mask <;>
    simp only [GridSymmetry.mask, maskAt, bound, firstAxis, if_true, if_false, Bool.false_eq_true, Bool.not_true,
      Bool.not_false] <;> exact flipped_toNat _ _

theorem depth_symmetry (mask : ClipMask) (p : Point) : depth (g.mask mask) (g.point p) = depth mask p := by
  have h1 := flipped_toNat true p.x
  have h2 := flipped_toNat true p.y
  rcases g with ⟨_ | _, _ | _, _ | _⟩ <;> cases mask <;> rename_i c <;> have h3 := flipped_toNat true c <;>
    simp only [GridSymmetry.mask, GridSymmetry.point, maskAt, depth, if_true, if_false, Bool.false_eq_true, Bool.not_true,
      Bool.not_false] <;>
    simp only [flipSign, flipShift, if_true] at h1 h2 h3 <;>
    (try simp only [flipped, if_false, Bool.false_eq_true] at *) <;> omega

theorem test_symmetry (mask : ClipMask) (p : Point) : (g.mask mask).test (g.point p) = mask.test p := by
  rw [test_eq, test_eq, depth_symmetry]

theorem crosses_symmetry (mask : ClipMask) (p q : Point) : Crosses (g.mask mask) (g.point p) (g.point q) ↔ Crosses mask p q := by
  unfold Crosses
  rw [depth_symmetry, depth_symmetry]

/-- A point is determined by its two coordinates. -/
theorem point_of_coordinates (mask : ClipMask) {x y : Point} (h1 : tested mask x = tested mask y)
    (h2 : other mask x = other mask y) : x = y := by
  cases x
  cases y
  simp only [Point.mk.injEq, ← UInt32.toNat_inj]
  cases mask <;> simp only [tested, other] at h1 h2 <;> omega

/-! ## Crossings -/

theorem formed_symmetry (mask : ClipMask) (p q : Point) :
    formed (g.mask mask) (g.point p) (g.point q) = flipSign (firstAxis g mask) * flipSign (secondAxis g mask) * formed mask p q := by
  unfold formed
  rw [tested_symmetry, other_symmetry, other_symmetry, bound_symmetry]
  ring

theorem tested_bounds (mask : ClipMask) (p : Point) : 0 ≤ tested mask p ∧ tested mask p < 2 ^ 32 := by
  cases mask <;> exact u32_bounds _

theorem bound_bounds (mask : ClipMask) : 0 ≤ bound mask ∧ bound mask < 2 ^ 32 := by
  cases mask <;> exact u32_bounds _

theorem power_factor {a b : Nat} (ha : a < 2 ^ 32) (hb : b < 2 ^ 32) : a * b ≠ 2 ^ 63 := by
  intro h
  obtain ⟨i, hi, rfl⟩ := (Nat.dvd_prime_pow Nat.prime_two).mp (h ▸ Nat.dvd_mul_right a b)
  obtain ⟨j, hj, rfl⟩ := (Nat.dvd_prime_pow Nat.prime_two).mp (h ▸ Nat.dvd_mul_left b _)
  have hi := (Nat.pow_lt_pow_iff_right (by omega : 1 < 2)).mp ha
  have hj := (Nat.pow_lt_pow_iff_right (by omega : 1 < 2)).mp hb
  rw [← Nat.pow_add] at h
  have := Nat.pow_right_injective (Nat.le_refl 2) h
  omega

theorem formed_not_edge (mask : ClipMask) (p q : Point) : (formed mask p q).natAbs ≠ 2 ^ 63 ∧ (formed mask p q).natAbs < 2 ^ 64 := by
  have h1 := tested_bounds mask p
  have h2 := bound_bounds mask
  have h3 := other_bounds mask p
  have h4 := other_bounds mask q
  unfold formed
  rw [Int.natAbs_mul]
  have ha : (bound mask - tested mask p).natAbs < 2 ^ 32 := by omega
  have hb : (other mask q - other mask p).natAbs < 2 ^ 32 := by omega
  refine ⟨power_factor ha hb, ?_⟩
  calc _ < 2 ^ 32 * 2 ^ 32 := Nat.mul_lt_mul'' ha hb
    _ = 2 ^ 64 := by norm_num

theorem sign_product (a b : Bool) : flipSign a * flipSign b = 1 ∨ flipSign a * flipSign b = -1 := by
  rcases flipSign_cases a with h | h <;> rcases flipSign_cases b with h' | h' <;> rw [h, h'] <;> simp

theorem tdiv_signs (a b : Bool) (n d : Int) :
    (flipSign a * flipSign b * n).tdiv (flipSign a * d) = flipSign b * n.tdiv d := by
  rcases flipSign_cases a with h | h <;> rcases flipSign_cases b with h' | h' <;> rw [h, h'] <;> simp

theorem wrap64_sign {f : Int} (h : f.natAbs ≠ 2 ^ 63 ∧ f.natAbs < 2 ^ 64) {s : Int} (hs : s = 1 ∨ s = -1) :
    wrap64 (s * f) = s * wrap64 f := by
  rcases hs with rfl | rfl
  · simp
  · unfold wrap64
    omega

theorem intersect_symmetry {p q : Point} (hc : Crosses mask p q) :
    (g.mask mask).intersect m (g.point p) (g.point q) = (mask.intersect m p q).map g.point := by
  have hc' := (crosses_symmetry g mask p q).mpr hc
  have hf := formed_not_edge mask p q
  have hs := sign_product (firstAxis g mask) (secondAxis g mask)
  have hform := formed_symmetry g mask p q
  have hdiff : tested (g.mask mask) (g.point q) - tested (g.mask mask) (g.point p) =
      flipSign (firstAxis g mask) * (tested mask q - tested mask p) := by
    rw [tested_symmetry, tested_symmetry]; ring
  cases m with
  | release =>
    obtain ⟨x, x1, x2, x3, x4, x5⟩ := intersect_wrapped hc
    obtain ⟨y, y1, y2, y3, y4, y5⟩ := intersect_wrapped hc'
    rw [x1, y1]
    show _ = Except.ok (g.point x)
    congr 1
    apply point_of_coordinates (g.mask mask)
    · rw [y2, tested_symmetry, x2, bound_symmetry]
    · rw [hform, hdiff, wrap64_sign hf hs, tdiv_signs] at y5
      rw [other_symmetry] at y3 y4 y5 ⊢
      rw [other_symmetry] at y3 y4
      generalize (wrap64 (formed mask p q)).tdiv (tested mask q - tested mask p) = k at x5 y5
      have hp := other_bounds mask p
      have hq := other_bounds mask q
      have hsh : flipShift (secondAxis g mask) = 0 ∨ flipShift (secondAxis g mask) = 4294967295 := by
        cases secondAxis g mask <;> simp [flipShift]
      rcases flipSign_cases (secondAxis g mask) with h | h <;> rw [h] at y3 y4 y5 ⊢ <;> omega
  | debug =>
    by_cases hin : InI64 (formed mask p q)
    · obtain ⟨x, x1, x2, x3⟩ := intersect_at (m := .debug) hc hin
      have hin' : InI64 (formed (g.mask mask) (g.point p) (g.point q)) := by
        rw [hform]
        unfold InI64 at hin ⊢
        rcases hs with h | h <;> rw [h] <;> omega
      obtain ⟨y, y1, y2, y3⟩ := intersect_at (m := .debug) hc' hin'
      rw [x1, y1]
      show _ = Except.ok (g.point x)
      congr 1
      apply point_of_coordinates (g.mask mask)
      · rw [y2, tested_symmetry, x2, bound_symmetry]
      · rw [y3, hform, hdiff, tdiv_signs, other_symmetry, other_symmetry, x3]; ring
    · obtain ⟨mk, _, h2⟩ := intersect_eq .debug mask p q
      obtain ⟨mk', _, h2'⟩ := intersect_eq .debug (g.mask mask) (g.point p) (g.point q)
      have hin' : ¬ InI64 (formed (g.mask mask) (g.point p) (g.point q)) := by
        rw [hform]
        unfold InI64 at hin ⊢
        rcases hs with h | h <;> rw [h] <;> omega
      rw [h2, h2', interpolate_debug hin, interpolate_debug hin']
      rfl

/-! ## Edges -/

theorem clipEmit_symmetry (p q : Point) (ret : List Point) :
    clipEmit m (g.mask mask) (g.point p) ((g.mask mask).test (g.point p)) (g.path ret) (g.point q) =
      (clipEmit m mask p (mask.test p) ret q).map g.path := by
  unfold clipEmit
  rw [test_symmetry, test_symmetry]
  cases hq : mask.test q with
  | onEdge =>
    dsimp only
    split <;> simp [Except.map]
  | inside =>
    dsimp only
    cases hp : mask.test p with
    | outside =>
      simp only [reduceCtorEq, if_true, if_false]
      rw [intersect_symmetry g (crosses_of_out_in hp hq)]
      cases mask.intersect m p q <;> simp [Except.map, bind, Except.bind]
    | inside => simp [Except.map, bind, Except.bind]
    | onEdge =>
      simp only [reduceCtorEq, if_true, if_false, ok_bind]
      have : (g.path ret).getLast? = some (g.point p) ↔ ret.getLast? = some p := by
        rw [List.getLast?_map]
        cases ret.getLast? with
        | none => simp
        | some z => simp [symmetry_inj]
      by_cases hl : ret.getLast? = some p
      · rw [if_neg (fun h => h (this.mpr hl)), if_neg (fun h => h hl)]
        simp [Except.map]
      · rw [if_pos (mt this.mp hl), if_pos hl]
        simp [Except.map]
  | outside =>
    dsimp only
    split
    · rename_i hp
      rw [intersect_symmetry g (crosses_of_in_out hp hq)]
      cases mask.intersect m p q <;> simp [Except.map, bind, Except.bind]
    · rfl

theorem clipLoop_symmetry (p : Point) (ret ps : List Point) :
    clipLoop m (g.mask mask) (g.point p) ((g.mask mask).test (g.point p)) (g.path ret) (g.path ps) =
      (clipLoop m mask p (mask.test p) ret ps).map g.path := by
  induction ps generalizing p ret with
  | nil => rfl
  | cons q ps ih =>
    show clipLoop m (g.mask mask) _ _ _ (g.point q :: g.path ps) = _
    rw [clipLoop, clipLoop, clipEmit_symmetry]
    cases clipEmit m mask p (mask.test p) ret q with
    | error e => rfl
    | ok r => exact ih q r

theorem clipEdge_symmetry (ps : List Point) : clipEdge m (g.mask mask) (g.path ps) = (clipEdge m mask ps).map g.path := by
  match ps with
  | [] => rfl
  | [_] => rfl
  | p :: q :: rest =>
    have := clipLoop_symmetry (m := m) (mask := mask) g p (if mask.test p = .inside then [p] else []) (q :: rest)
    simp only [List.map_cons, clipEdge]
    rw [← this, test_symmetry]
    congr 1
    split <;> rfl

end TopoGeo
