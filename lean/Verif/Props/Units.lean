import Verif.Props.Example
import Verif.Props.Quantize
import Verif.Spec.Units
/-!
# C135: units and places do not matter
-/

namespace TopoGeo
open Spec

theorem ratLog2_scale {q : Rat} (h : 0 < q) (k : Int) : ratLog2 (q * pow2 k) = ratLog2 q + k := by
  have hp : 0 < q * pow2 k := mul_pos h (pow2_pos k)
  obtain ⟨h1, h2⟩ := ratLog2_spec h
  apply le_antisymm
  · have := ratLog2_lt hp (e := ratLog2 q + 1 + k) (by rw [pow2_add]; exact mul_lt_mul_of_pos_right h2 (pow2_pos k))
    omega
  · apply le_ratLog2 hp
    rw [pow2_add]; exact mul_le_mul_of_nonneg_right h1 (pow2_pos k).le

theorem roundMag_scale_up {q : Rat} (h : 0 < q) (hg : Grid q) (k : Nat) :
    roundMag (q * pow2 k) = roundMag q * pow2 k := by
  by_cases hs : -1022 ≤ ratLog2 q
  · have hp : 0 < q * pow2 k := mul_pos h (pow2_pos k)
    have hu : ulpExp (q * pow2 k) = ulpExp q + k := by
      unfold ulpExp; rw [ratLog2_scale h]; omega
    rw [roundMag_pos_eq h, roundMag_pos_eq hp, hu, pow2_add, mul_div_mul_right _ _ (pow2_pos _).ne', mul_assoc]
  · obtain ⟨n, rfl⟩ := hg
    have hn : 0 < n := by
      by_contra hc
      have h1 : (n : Rat) ≤ 0 := by exact_mod_cast not_lt.mp hc
      have := mul_nonpos_of_nonpos_of_nonneg h1 (pow2_pos (-1074)).le
      linarith
    obtain ⟨j, rfl⟩ := Int.eq_ofNat_of_zero_le hn.le
    have hlt : j < 2 ^ 53 := by
      have h1 := (ratLog2_spec h).2
      have h2 := lt_of_lt_of_le h1 (pow2_mono (show ratLog2 (((j : Int) : Rat) * pow2 (-1074)) + 1 ≤ 53 + -1074 by omega))
      rw [pow2_add] at h2
      have h3 := lt_of_mul_lt_mul_right h2 (pow2_pos _).le
      rw [show (53 : Int) = ((53 : Nat) : Int) from rfl, pow2_nat] at h3
      exact_mod_cast h3
    rw [roundMag_dyadic (q := ((j : Int) : Rat) * pow2 (-1074)) ⟨j, -1074, hlt, le_refl _, by push_cast; rfl⟩,
      roundMag_dyadic ⟨j, -1074 + k, hlt, by omega, by rw [pow2_add]; push_cast; ring⟩]

theorem roundMag_scale {q : Rat} (h : 0 < q) (hg : Grid q) (k : Int) (hg' : Grid (q * pow2 k)) :
    roundMag (q * pow2 k) = roundMag q * pow2 k := by
  rcases Int.le_total 0 k with hk | hk
  · obtain ⟨n, rfl⟩ := Int.eq_ofNat_of_zero_le hk
    exact roundMag_scale_up h hg n
  · obtain ⟨n, hn⟩ := Int.eq_ofNat_of_zero_le (show 0 ≤ -k by omega)
    have e : pow2 k * pow2 n = 1 := by rw [← hn, ← pow2_add, add_neg_cancel]; rfl
    have := roundMag_scale_up (mul_pos h (pow2_pos k)) hg' n
    rw [mul_assoc, e, mul_one] at this
    rw [this, mul_assoc, mul_comm (pow2 n), e, mul_one]

theorem far_enough {x y : Rat} (hx : |x| < 2 ^ 1022) (hy : |y| < 2 ^ 1022) : |x - y| < 2 ^ 1024 - 2 ^ 970 := by
  have h1 := abs_sub x y
  have h2 : (2 : Rat) ^ 970 < 2 ^ 1022 := pow_lt_pow_right₀ one_lt_two (by decide)
  have h3 : (2 : Rat) ^ 1024 = 2 ^ 2 * 2 ^ 1022 := pow_add 2 2 1022
  have h4 : (0 : Rat) < 2 ^ 1022 := pow_pos two_pos _
  rw [h3]
  clear h3
  generalize (2 : Rat) ^ 1022 = A at *
  generalize (2 : Rat) ^ 970 = B at *
  linarith

/-- Differences scale exactly. -/
theorem difference_moved {k : Int} {c : Rat} {u v u' v' : UInt64} (h1 : Rescaled k c u u') (h2 : Rescaled k c v v') :
    (∃ x, doubleVal u = some x ∧ doubleVal v = some x) ∧ (∃ x, doubleVal u' = some x ∧ doubleVal v' = some x) ∨
    ∃ s p, 0 < p ∧ (F64.ofBits u).sub (F64.ofBits v) = .fin s p ∧
      (F64.ofBits u').sub (F64.ofBits v') = .fin s (p * pow2 k) := by
  obtain ⟨x, a1, a2, a3, a4⟩ := h1
  obtain ⟨y, b1, b2, b3, b4⟩ := h2
  by_cases hxy : x = y
  · subst hxy
    exact Or.inl ⟨⟨x, a1, b1⟩, ⟨_, a2, b2⟩⟩
  · right
    have hk : (0 : Rat) < 2 ^ k := by positivity
    have hne : x * 2 ^ k + c ≠ y * 2 ^ k + c := by
      intro h
      exact hxy (mul_right_cancel₀ hk.ne' (by linarith))
    obtain ⟨e1, e2, _⟩ := extent a1 b1 hxy (far_enough a3 b3)
    obtain ⟨f1, _, _⟩ := extent a2 b2 hne (far_enough a4 b4)
    have hd : |x * 2 ^ k + c - (y * 2 ^ k + c)| = |x - y| * pow2 k := by
      rw [pow2_eq, show x * 2 ^ k + c - (y * 2 ^ k + c) = (x - y) * 2 ^ k by ring, abs_mul, abs_of_pos hk]
    have hgrid : ∀ {q : Rat}, Grid q → Grid |q| := by
      intro q hq
      rcases abs_cases q with ⟨h, _⟩ | ⟨h, _⟩ <;> rw [h]
      · exact hq
      · exact hq.neg
    have hg := hgrid ((doubleVal_grid a1).sub (doubleVal_grid b1))
    have hg' := hgrid ((doubleVal_grid a2).sub (doubleVal_grid b2))
    rw [hd] at f1 hg'
    rw [roundMag_scale (abs_pos.mpr (sub_ne_zero.mpr hxy)) hg k hg'] at f1
    refine ⟨_, _, e2, e1, ?_⟩
    rw [f1]
    congr 1
    apply decide_eq_decide.mpr
    constructor
    · intro h
      exact lt_of_mul_lt_mul_right (by linarith) hk.le
    · intro h
      have := mul_lt_mul_of_pos_right h hk
      linarith

/-- One coordinate is unchanged. -/
theorem axis_moved {k : Int} {c : Rat} {p o s p' o' s' : UInt64} (hp : Rescaled k c p p') (ho : Rescaled k c o o')
    (hs : Rescaled k c s s') (hz : ¬ (o = 0 ∧ s = minusZero)) (hz' : ¬ (o' = 0 ∧ s' = minusZero)) :
    axis p o s = axis p' o' s' := by
  rcases difference_moved hs ho with ⟨⟨a, e1, e2⟩, ⟨a', e1', e2'⟩⟩ | ⟨t, w, hw, w1, w2⟩
  · have f := (axis_rule p o s).flat a e2 e1 hz
    have f' := (axis_rule p' o' s').flat a' e2' e1' hz'
    obtain ⟨x, x1, x2, _, _⟩ := hp
    obtain ⟨y, y1, y2, _, _⟩ := ho
    obtain rfl : y = a := by rw [y1] at e2; exact Option.some.inj e2
    obtain rfl : y * 2 ^ k + c = a' := by rw [y2] at e2'; exact Option.some.inj e2'
    have hk : (0 : Rat) < 2 ^ k := by positivity
    have above : ∀ {b : UInt64} {v z : Rat}, doubleVal b = some v → (Above b z ↔ z < v) := by
      intro b v z hv
      constructor
      · rintro (rfl | ⟨x, hx, hlt⟩)
        · have : doubleVal plusInfinity = none := by decide +kernel
          rw [this] at hv; cases hv
        · rw [hv] at hx; cases hx; exact hlt
      · exact fun h => Or.inr ⟨v, hv, h⟩
    by_cases hlt : y < x
    · have h1 := f.1 ((above x1).mpr hlt)
      have h2 := f'.1 ((above x2).mpr (by have := mul_lt_mul_of_pos_right hlt hk; linarith))
      exact UInt32.toNat_inj.mp (h1.trans h2.symm)
    · rw [f.2 (fun h => hlt ((above x1).mp h)), f'.2 (fun h => hlt (lt_of_mul_lt_mul_right (by have := (above x2).mp h; linarith) hk.le))]
  · have hw' : 0 < w * pow2 k := mul_pos hw (pow2_pos k)
    unfold axis quantizeCoord
    rw [w1, w2]
    rcases difference_moved hp ho with ⟨⟨a, e1, e2⟩, ⟨a', e1', e2'⟩⟩ | ⟨t', d, hd, d1, d2⟩
    · obtain ⟨z, hz⟩ := (sub_bits e1 e2).2.2 rfl
      obtain ⟨z', hz'⟩ := (sub_bits e1' e2').2.2 rfl
      rw [hz, hz', scale_zero hw, scale_zero hw']
    · rw [d1, d2]
      have : (F64.fin t' (d * pow2 k)).div (.fin t (w * pow2 k)) = (F64.fin t' d).div (.fin t w) := by
        show (if w * pow2 k = 0 then _ else F64.roundSigned (t' != t) (d * pow2 k / (w * pow2 k))) =
          (if w = 0 then _ else F64.roundSigned (t' != t) (d / w))
        rw [if_neg hw'.ne', if_neg hw.ne', mul_div_mul_right _ _ (pow2_pos _).ne']
      rw [this]

/-- C135: a point keeps its place on the grid. -/
theorem C135_point (t : Change) (b b' : ShpBoundingBox) (hb : t.Box b b') (p p' : ShpPoint) (hp : t.point p p') :
    (ShapefileQuantizer.new b).quantize p = (ShapefileQuantizer.new b').quantize p' := by
  have h1 := axis_moved hp.1 hb.west hb.east hb.signs.1 hb.signs'.1
  have h2 := axis_moved hp.2 hb.north hb.south hb.signs.2 hb.signs'.2
  unfold axis at h1 h2
  show Point.mk _ _ = Point.mk _ _
  rw [Point.mk.injEq]
  exact ⟨h1, h2⟩

theorem rings_moved {t : Change} {b b' : ShpBoundingBox} (hb : t.Box b b') {s s' : ShpPolygonRing}
    (h : List.Forall₂ t.point s s') :
    shpPolygonRingToRing (ShapefileQuantizer.new b) s = shpPolygonRingToRing (ShapefileQuantizer.new b') s' := by
  unfold shpPolygonRingToRing
  congr 1
  induction h with
  | nil => rfl
  | cons h _ ih => rw [List.map_cons, List.map_cons, C135_point t b b' hb _ _ h, ih]

theorem partition_moved {t : Change} {b b' : ShpBoundingBox} (hb : t.Box b b') (m : Build) {rs rs' : List ShpPolygonRing}
    (h : t.rings rs rs') (outer inner : List Ring) :
    partitionRings m (ShapefileQuantizer.new b) outer inner rs = partitionRings m (ShapefileQuantizer.new b') outer inner rs' := by
  unfold Change.rings at h
  induction h generalizing outer inner with
  | nil => rfl
  | cons h _ ih =>
    rw [partitionRings, partitionRings, rings_moved hb h]
    simp only [ih]

/-- One step of two iterators side by side. -/
theorem next_moved {σ τ : Type} [Source σ] [Source τ] {t : Change} {b b' : ShpBoundingBox} (hb : t.Box b b') (m : Build)
    {r r1 r' r1' : ShpReader σ} {d : DbfReader τ} {o o' : Option (Except ShpError ShpPolygonRecord)}
    (h1 : r.next = .ok (o, r1)) (h2 : r'.next = .ok (o', r1')) (ho : t.Item o o') :
    ∃ d1 : DbfReader τ,
      (∃ item, (⟨⟨r, d⟩, ShapefileQuantizer.new b⟩ : ShapefileGeoIterator σ τ).next m =
          .ok (item, ⟨⟨r1, d1⟩, ShapefileQuantizer.new b⟩) ∧
        (⟨⟨r', d⟩, ShapefileQuantizer.new b'⟩ : ShapefileGeoIterator σ τ).next m =
          .ok (item, ⟨⟨r1', d1⟩, ShapefileQuantizer.new b'⟩)) ∨
      ∃ e, (⟨⟨r, d⟩, ShapefileQuantizer.new b⟩ : ShapefileGeoIterator σ τ).next m = .error e ∧
        (⟨⟨r', d⟩, ShapefileQuantizer.new b'⟩ : ShapefileGeoIterator σ τ).next m = .error e := by
  refine ⟨d.next.2, ?_⟩
  unfold ShapefileGeoIterator.next ShapefileReader.next
  dsimp only
  rw [h1, h2]
  simp only [ok_bind]
  cases ho with
  | none => cases d.next.1 with
    | none => exact Or.inl ⟨_, rfl, rfl⟩
    | some x => exact Or.inl ⟨_, rfl, rfl⟩
  | error e => cases d.next.1 with
    | none => exact Or.inl ⟨_, rfl, rfl⟩
    | some x => exact Or.inl ⟨_, rfl, rfl⟩
  | ok h => cases d.next.1 with
    | none => exact Or.inl ⟨_, rfl, rfl⟩
    | some x => cases x with
      | error e => exact Or.inl ⟨_, rfl, rfl⟩
      | ok data =>
        simp only [joinResults]
        rw [partition_moved hb m h]
        cases partitionRings m (ShapefileQuantizer.new b') [] [] _ with
        | error e => exact Or.inr ⟨e, rfl, rfl⟩
        | ok x => exact Or.inl ⟨_, rfl, rfl⟩

/-- C135: if the `.shp` files differ by a change and the `.dbf` files are the same, the iterators
yield the same regions, and panic at the same time. -/
theorem C135_reads {σ τ : Type} [Source σ] [Source τ] (m : Build) (t : Change) (b b' : ShpBoundingBox) (hb : t.Box b b')
    (n : Nat) (r r1 r' r1' : ShpReader σ) (d : DbfReader τ) (os os' : List (Option (Except ShpError ShpPolygonRecord)))
    (h1 : callsR ShpReader.next n r = .ok (os, r1)) (h2 : callsR ShpReader.next n r' = .ok (os', r1'))
    (ho : List.Forall₂ t.Item os os') :
    (callsR (ShapefileGeoIterator.next m) n (⟨⟨r, d⟩, ShapefileQuantizer.new b⟩ : ShapefileGeoIterator σ τ)).map Prod.fst =
      (callsR (ShapefileGeoIterator.next m) n (⟨⟨r', d⟩, ShapefileQuantizer.new b'⟩ : ShapefileGeoIterator σ τ)).map Prod.fst := by
  induction n generalizing r r' d os os' with
  | zero => rfl
  | succ n ih =>
    obtain ⟨o, s, os1, a1, a2, rfl⟩ := callsR_succ h1
    obtain ⟨o', s', os1', b1, b2, rfl⟩ := callsR_succ h2
    obtain ⟨ho1, ho2⟩ := List.forall₂_cons.mp ho
    rw [callsR, callsR]
    obtain ⟨d1, ⟨item, c1, c2⟩ | ⟨e, c1, c2⟩⟩ := next_moved (d := d) hb m a1 b1 ho1
    · rw [c1, c2, ok_bind, ok_bind]
      have := ih s s' d1 os1 os1' a2 b2 ho2
      dsimp only
      revert this
      cases callsR (ShapefileGeoIterator.next m) n (⟨⟨s, d1⟩, ShapefileQuantizer.new b⟩ : ShapefileGeoIterator σ τ) <;>
        cases callsR (ShapefileGeoIterator.next m) n (⟨⟨s', d1⟩, ShapefileQuantizer.new b'⟩ : ShapefileGeoIterator σ τ) <;>
        intro this
      · cases this; rfl
      · cases this
      · cases this
      · rename_i x y
        have hxy : x.1 = y.1 := Except.ok.inj this
        show Except.ok (item :: x.1) = Except.ok (item :: y.1)
        rw [hxy]
    · rw [c1, c2]

theorem readRegions_moved {σ τ : Type} [Source σ] [Source τ] (m : Build) (t : Change) (b b' : ShpBoundingBox) (hb : t.Box b b')
    (n : Nat) (r r1 r' r1' : ShpReader σ) (d : DbfReader τ) (os os' : List (Option (Except ShpError ShpPolygonRecord)))
    (h1 : callsR ShpReader.next n r = .ok (os, r1)) (h2 : callsR ShpReader.next n r' = .ok (os', r1'))
    (ho : List.Forall₂ t.Item os os') (fuel : Nat) (hf : fuel ≤ n) (tb : TopologyBuilder DbfRecord) (i : Nat) :
    readRegions m fuel (⟨⟨r, d⟩, ShapefileQuantizer.new b⟩ : ShapefileGeoIterator σ τ) tb i =
      readRegions m fuel (⟨⟨r', d⟩, ShapefileQuantizer.new b'⟩ : ShapefileGeoIterator σ τ) tb i := by
  induction fuel generalizing n r r' d os os' tb i with
  | zero => rfl
  | succ fuel ih =>
    obtain ⟨n, rfl⟩ : ∃ j, n = j + 1 := ⟨n - 1, by omega⟩
    obtain ⟨o, s, os1, a1, a2, rfl⟩ := callsR_succ h1
    obtain ⟨o', s', os1', b1, b2, rfl⟩ := callsR_succ h2
    obtain ⟨ho1, ho2⟩ := List.forall₂_cons.mp ho
    rw [readRegions, readRegions]
    obtain ⟨d1, ⟨item, c1, c2⟩ | ⟨e, c1, c2⟩⟩ := next_moved (d := d) hb m a1 b1 ho1
    · rw [c1, c2, ok_bind, ok_bind]
      dsimp only
      cases item with
      | none => rfl
      | some x => cases x with
        | error e => rfl
        | ok region =>
          dsimp only
          cases tb.addRegion m region with
          | error e => rfl
          | ok tb' => exact ih n s s' d1 os1 os1' a2 b2 ho2 (by omega) tb' (i + 1)
    · rw [c1, c2]

/-- C135: the program says the same of a file and of the file in other units and from another place. -/
theorem C135_program (m : Build) (fs fs' : FileSystem MemFile) (path : Path) (enc : Encoding) (t : Change)
    (b b' : ShpBoundingBox) (hb : t.Box b b') (records records' : List OutRecord)
    (hr : List.Forall₂ (fun r r' => t.rings r.rings r'.rings) records records')
    (hg : ∀ r ∈ records, r.Good) (hg' : ∀ r ∈ records', r.Good)
    (hs : fileLength records < 2 ^ 32) (hs' : fileLength records' < 2 ^ 32) (table : Table) (ht : Fits enc table)
    (hn : table.records.length = records.length) (tail tail' tail'' : Bytes)
    (h1 : fs path = .ok ⟨writeShp b records ++ tail⟩) (h1' : fs' path = .ok ⟨writeShp b' records' ++ tail'⟩)
    (h2 : fs (setExtension path "dbf".toList) = .ok ⟨writeDbf table ++ tail''⟩)
    (h2' : fs' (setExtension path "dbf".toList) = .ok ⟨writeDbf table ++ tail''⟩) (fuel : Nat) :
    shpToGeoData m fuel fs path enc = shpToGeoData m fuel fs' path enc := by
  have hl := hr.length_eq
  obtain ⟨r, a1, a2, _, _⟩ := C57_round_trip m enc b records hg hs table ht hn tail tail''
  obtain ⟨r', a1', a2', _, _⟩ := C57_round_trip m enc b' records' hg' hs' table ht (hn.trans hl) tail' tail''
  have hopen : shapefileOpen m fs path enc = .ok (.ok r) := by
    rw [C66_files m fs path enc _ _ r.shpReader h1 h2 (((C57_new m _ _ enc).1 r).mp a1).1, a1]
  have hopen' : shapefileOpen m fs' path enc = .ok (.ok r') := by
    rw [C66_files m fs' path enc _ _ r'.shpReader h1' h2' (((C57_new m _ _ enc).1 r').mp a1').1, a1']
  obtain ⟨p1, p2⟩ := ((C57_new m _ _ enc).1 r).mp a1
  obtain ⟨p1', p2'⟩ := ((C57_new m _ _ enc).1 r').mp a1'
  have hd : r.dbfReader = r'.dbfReader := by
    rw [p2] at p2'
    exact Except.ok.inj (Except.ok.inj p2')
  obtain ⟨sr, q1, _, q3⟩ := C52_round_trip m b records hg hs tail
  obtain ⟨sr', q1', _, q3'⟩ := C52_round_trip m b' records' hg' hs' tail'
  obtain rfl : r.shpReader = sr := by rw [p1] at q1; exact Except.ok.inj (Except.ok.inj q1)
  obtain rfl : r'.shpReader = sr' := by rw [p1'] at q1'; exact Except.ok.inj (Except.ok.inj q1')
  obtain ⟨z, k⟩ := q3 fuel
  obtain ⟨z', k'⟩ := q3' fuel
  rw [← hl] at k'
  have hitems : List.Forall₂ t.Item (records.map (fun r => some (.ok ⟨r.number, r.rings⟩)) ++ List.replicate fuel none)
      (records'.map (fun r => some (.ok ⟨r.number, r.rings⟩)) ++ List.replicate fuel none) := by
    refine List.rel_append ?_ ?_
    · clear * - hr
      induction hr with
      | nil => exact .nil
      | cons h _ ih => exact .cons (.ok h) ih
    · exact List.forall₂_same.mpr fun x hx => by rw [List.eq_of_mem_replicate hx]; exact .none
  have := readRegions_moved m t b b' hb _ r.shpReader z r'.shpReader z' r.dbfReader _ _ k k' hitems fuel (by omega)
    TopologyBuilder.new 0
  have hnew : ShapefileGeoIterator.new r = ⟨⟨r.shpReader, r.dbfReader⟩, ShapefileQuantizer.new b⟩ := by
    unfold ShapefileGeoIterator.new; rw [a2]
  have hnew' : ShapefileGeoIterator.new r' = ⟨⟨r'.shpReader, r.dbfReader⟩, ShapefileQuantizer.new b'⟩ := by
    unfold ShapefileGeoIterator.new; rw [a2', hd]
  unfold shpToGeoData
  rw [hopen, hopen', ok_bind, ok_bind]
  dsimp only
  rw [hnew, hnew', this]

/-- C135 is about powers of two: with all coordinates of a file multiplied by three, exactly, a
point can come to another place on the grid. -/
theorem C135_three_refuted :
    ¬ ∀ (b b' : ShpBoundingBox) (p p' : ShpPoint), Tripled b.b0 b'.b0 → Tripled b.b1 b'.b1 → Tripled b.b2 b'.b2 →
      Tripled b.b3 b'.b3 → Tripled p.x p'.x → Tripled p.y p'.y → NoSignedZero b → NoSignedZero b' →
      (ShapefileQuantizer.new b).quantize p = (ShapefileQuantizer.new b').quantize p' := by
  intro h
  have := h ⟨0xc340000000000000, 0, 0xc042800000000000, 0x3ff0000000000000⟩
    ⟨0xc358000000000000, 0, 0xc05bc00000000000, 0x4008000000000000⟩ ⟨0xc043000000000000, 0⟩ ⟨0xc05c800000000000, 0⟩
    ⟨-2 ^ 53, by decide +kernel, by decide +kernel⟩ ⟨0, by decide +kernel, by decide +kernel⟩
    ⟨-37, by decide +kernel, by decide +kernel⟩ ⟨1, by decide +kernel, by decide +kernel⟩
    ⟨-38, by decide +kernel, by decide +kernel⟩ ⟨0, by decide +kernel, by decide +kernel⟩
    (by unfold NoSignedZero; decide +kernel) (by unfold NoSignedZero; decide +kernel)
  revert this
  decide +kernel

/-! ## Examples -/

/-- Twice as wide and one further east; half as high. -/
def exChange : Change := ⟨1, -1, 1, 0⟩

theorem rescaled_of {k : Int} {c : Rat} {u v : UInt64} (x y : Rat) (h1 : doubleVal u = some x) (h2 : doubleVal v = some y)
    (hy : y = x * 2 ^ k + c) (hx : |x| ≤ 8) (hy' : |y| ≤ 8) : Rescaled k c u v := by
  have : (8 : Rat) < 2 ^ 1022 := lt_of_le_of_lt (by norm_num : (8 : Rat) ≤ 2 ^ 3) (pow_lt_pow_right₀ one_lt_two (by decide))
  exact ⟨x, h1, by rw [← hy]; exact h2, lt_of_le_of_lt hx this, by rw [← hy]; exact lt_of_le_of_lt hy' this⟩

theorem exChange_x0 : Rescaled 1 1 0 0x3ff0000000000000 :=
  rescaled_of 0 1 (by decide +kernel) (by decide +kernel) (by norm_num) (by norm_num) (by norm_num)
theorem exChange_x1 : Rescaled 1 1 0x3fd0000000000000 0x3ff8000000000000 :=
  rescaled_of (1 / 4) (3 / 2) (by decide +kernel) (by decide +kernel) (by norm_num) (by norm_num [abs_of_pos])
    (by norm_num [abs_of_pos])
theorem exChange_x2 : Rescaled 1 1 0x3fe0000000000000 0x4000000000000000 :=
  rescaled_of (1 / 2) 2 (by decide +kernel) (by decide +kernel) (by norm_num) (by norm_num [abs_of_pos])
    (by norm_num [abs_of_pos])
theorem exChange_x3 : Rescaled 1 1 0x3ff0000000000000 0x4008000000000000 :=
  rescaled_of 1 3 (by decide +kernel) (by decide +kernel) (by norm_num) (by norm_num) (by norm_num)
theorem exChange_y0 : Rescaled (-1) 0 0 0 :=
  rescaled_of 0 0 (by decide +kernel) (by decide +kernel) (by norm_num) (by norm_num) (by norm_num)
theorem exChange_y1 : Rescaled (-1) 0 0x3fd0000000000000 0x3fc0000000000000 :=
  rescaled_of (1 / 4) (1 / 8) (by decide +kernel) (by decide +kernel) (by norm_num) (by norm_num [abs_of_pos])
    (by norm_num [abs_of_pos])
theorem exChange_y3 : Rescaled (-1) 0 0x3ff0000000000000 0x3fe0000000000000 :=
  rescaled_of 1 (1 / 2) (by decide +kernel) (by decide +kernel) (by norm_num) (by norm_num) (by norm_num [abs_of_pos])

/-- The unit box, changed. -/
def exChangedBox : ShpBoundingBox := ⟨0x3ff0000000000000, 0, 0x4008000000000000, 0x3fe0000000000000⟩

theorem exChangedBox_ok : exChange.Box unitBox exChangedBox :=
  ⟨exChange_x0, exChange_y0, exChange_x3, exChange_y3, by unfold NoSignedZero; decide +kernel,
    by unfold NoSignedZero; decide +kernel⟩

/-- The two squares, changed. -/
def exChangedRecords : List OutRecord :=
  [{ number := 1, box := exChangedBox, rings := [[⟨0x3ff0000000000000, 0⟩, ⟨0x3ff0000000000000, 0x3fc0000000000000⟩,
      ⟨0x3ff8000000000000, 0x3fc0000000000000⟩, ⟨0x3ff8000000000000, 0⟩, ⟨0x3ff0000000000000, 0⟩]] },
   { number := 2, box := exChangedBox, rings := [[⟨0x3ff8000000000000, 0⟩, ⟨0x3ff8000000000000, 0x3fc0000000000000⟩,
      ⟨0x4000000000000000, 0x3fc0000000000000⟩, ⟨0x4000000000000000, 0⟩, ⟨0x3ff8000000000000, 0⟩]] }]

theorem exChangedRecords_ok :
    List.Forall₂ (fun r r' : OutRecord => exChange.rings r.rings r'.rings) neighbourRecords exChangedRecords := by
  refine .cons (.cons (.cons ⟨?_, ?_⟩ (.cons ⟨?_, ?_⟩ (.cons ⟨?_, ?_⟩ (.cons ⟨?_, ?_⟩ (.cons ⟨?_, ?_⟩ .nil))))) .nil)
    (.cons (.cons (.cons ⟨?_, ?_⟩ (.cons ⟨?_, ?_⟩ (.cons ⟨?_, ?_⟩ (.cons ⟨?_, ?_⟩ (.cons ⟨?_, ?_⟩ .nil))))) .nil) .nil) <;>
  first | exact exChange_x0 | exact exChange_x1 | exact exChange_x2 | exact exChange_x3 | exact exChange_y0 | exact exChange_y1

/-- Their files. -/
def exChangedFiles : FileSystem MemFile := fun p =>
  if p = ["a.shp".toList] then .ok ⟨writeShp exChangedBox exChangedRecords⟩
  else if p = ["a.dbf".toList] then .ok ⟨writeDbf dbfTable⟩ else .error (.other 2)

/-- The program says the same of two squares and of the changed ones. -/
example (m : Build) (fuel : Nat) : shpToGeoData m fuel neighbourFiles ["a.shp".toList] Encoding.ascii =
    shpToGeoData m fuel exChangedFiles ["a.shp".toList] Encoding.ascii :=
  C135_program m neighbourFiles exChangedFiles ["a.shp".toList] Encoding.ascii exChange unitBox exChangedBox exChangedBox_ok
    neighbourRecords exChangedRecords exChangedRecords_ok neighbourRecords_good
    (by
      intro r hr
      simp only [exChangedRecords, List.mem_cons, List.not_mem_nil, or_false] at hr
      rcases hr with rfl | rfl
      · exact ⟨by decide, by decide, _, rfl, by decide⟩
      · exact ⟨by decide, by decide, _, rfl, by decide⟩)
    (by decide +kernel) (by decide +kernel) dbfTable dbfTable_fits rfl [] [] []
    (by simp [neighbourFiles]) (by simp [exChangedFiles])
    (by
      rw [show setExtension ["a.shp".toList] "dbf".toList = ["a.dbf".toList] by decide +kernel, List.append_nil]; rfl)
    (by
      rw [show setExtension ["a.shp".toList] "dbf".toList = ["a.dbf".toList] by decide +kernel, List.append_nil]; rfl)
    fuel

/-- The place is not the corner of the grid. -/
example : (ShapefileQuantizer.new exChangedBox).quantize ⟨0x3ff8000000000000, 0x3fc0000000000000⟩ = ⟨1073741823, 3221225471⟩ := by
  decide +kernel

end TopoGeo
