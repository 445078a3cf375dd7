import Verif.Proofs.MovedMap
import Verif.Proofs.ClipTopology
import Verif.Props.Clip
/-!
# Clipping a map that is elsewhere
-/

namespace TopoGeo

open Spec

variable {m : Build} {P : Prop} {dx dy : Int}

/-- What moving adds to areas. -/
def sweep (dx dy : Int) (p : Point) : Int := dx * p.yi - dy * p.xi

theorem moved_rigid (m : Build) (dx dy : Int) : Rigid m (m = .debug) (Moved dx dy) (sweep dx dy) where
  strict h := .inl h
  less := by
    rintro a b c d ⟨h1, h2⟩ ⟨h3, h4⟩
    show (a.x < c.x ∨ a.x = c.x ∧ a.y < c.y) ↔ (b.x < d.x ∨ b.x = d.x ∧ b.y < d.y)
    rw [UInt32.lt_iff_toNat_lt, UInt32.lt_iff_toNat_lt, UInt32.lt_iff_toNat_lt, UInt32.lt_iff_toNat_lt,
      ← UInt32.toNat_inj, ← UInt32.toNat_inj]
    omega
  cross := by
    rintro a b c d ⟨h1, h2⟩ ⟨h3, h4⟩
    simp only [Spec.cross, sweep, Point.xi, Point.yi, h1, h2, h3, h4]
    ring

variable {mask mask' : ClipMask}

theorem depth_moved (hm : MovedMask dx dy mask mask') {p q : Point} (h : Moved dx dy p q) : depth mask' q = depth mask p := by
  obtain ⟨h1, h2⟩ := h
  cases mask <;> cases mask' <;> simp only [MovedMask] at hm <;> simp only [depth] <;> omega

theorem test_moved (hm : MovedMask dx dy mask mask') {p q : Point} (h : Moved dx dy p q) : mask'.test q = mask.test p := by
  rw [test_eq, test_eq, depth_moved hm h]

theorem crosses_moved (hm : MovedMask dx dy mask mask') {p q a b : Point} (h : Moved dx dy p a) (h' : Moved dx dy q b) :
    Crosses mask' a b ↔ Crosses mask p q := by
  unfold Crosses
  rw [depth_moved hm h, depth_moved hm h']

/-- The product that `intersect` forms. -/
def formed (mask : ClipMask) (p q : Point) : Int := (bound mask - tested mask p) * (other mask q - other mask p)

theorem formed_moved (hm : MovedMask dx dy mask mask') {p q a b : Point} (h : Moved dx dy p a) (h' : Moved dx dy q b) :
    formed mask' a b = formed mask p q ∧ tested mask' b - tested mask' a = tested mask q - tested mask p := by
  obtain ⟨h1, h2⟩ := h
  obtain ⟨h3, h4⟩ := h'
  cases mask <;> cases mask' <;> simp only [MovedMask] at hm <;> simp only [formed, bound, tested, other, hm, h1, h2, h3, h4] <;>
    constructor <;> ring

/-- Where the crossing is: `intersect` without wrapping. -/
theorem intersect_at {mask : ClipMask} {p q : Point} (hc : Crosses mask p q) (hin : InI64 (formed mask p q)) :
    ∃ x, mask.intersect m p q = .ok x ∧ tested mask x = bound mask ∧
      other mask x = other mask p + (formed mask p q).tdiv (tested mask q - tested mask p) := by
  obtain ⟨mk, h1, h2⟩ := intersect_eq m mask p q
  have hb := crosses_between hc
  have hp := other_bounds mask p
  have hq := other_bounds mask q
  rw [h2, interpolate_fits hp hq hb hin, ok_bind]
  refine ⟨_, rfl, (h1 _).1, ?_⟩
  rw [(h1 _).2]
  unfold formed
  apply asU32_toNat
  have := tdiv_between (n := bound mask - tested mask p) (d := tested mask q - tested mask p)
    (e := other mask q - other mask p) (by omega)
  omega

theorem moved_of_coordinates (hm : MovedMask dx dy mask mask') {x y : Point} {p q : Point} (h : Moved dx dy p q) {k : Int}
    (hx : tested mask x = bound mask) (hy : tested mask' y = bound mask') (hx' : other mask x = other mask p + k)
    (hy' : other mask' y = other mask' q + k) : Moved dx dy x y := by
  obtain ⟨h1, h2⟩ := h
  cases mask <;> cases mask' <;> simp only [MovedMask] at hm <;> simp only [tested, bound, other] at hx hy hx' hy' <;>
    constructor <;> omega

/-- Where a release build sees the crossing. -/
theorem intersect_wrapped {mask : ClipMask} {p q : Point} (hc : Crosses mask p q) :
    ∃ x, mask.intersect .release p q = .ok x ∧ tested mask x = bound mask ∧
      min (other mask p) (other mask q) ≤ other mask x ∧ other mask x ≤ max (other mask p) (other mask q) ∧
      (other mask x - other mask p - (wrap64 (formed mask p q)).tdiv (tested mask q - tested mask p)) % 2 ^ 32 = 0 := by
  obtain ⟨x, x1, x2, x3, x4⟩ := C25_release_between hc
  refine ⟨x, x1, x2, x3, x4, ?_⟩
  obtain ⟨mk, h1, h2⟩ := intersect_eq .release mask p q
  have hb := crosses_between hc
  unfold interpolate i64Div at h2
  rw [i64_release, ok_bind, if_neg (by omega), if_neg (by omega), ok_bind, i64_release, ok_bind, x1] at h2
  rw [Except.ok.inj h2, (h1 _).2]
  unfold formed
  generalize (wrap64 ((bound mask - tested mask p) * (other mask q - other mask p))).tdiv (tested mask q - tested mask p) = k
  unfold asU32
  rw [UInt32.toNat_ofNat']
  unfold wrap64
  have h : ∀ z : Int, z.emod (2 ^ 32) = z % 2 ^ 32 := fun _ => rfl
  rw [h]
  omega

theorem moved_other (hm : MovedMask dx dy mask mask') : ∃ d : Int, ∀ {p q : Point}, Moved dx dy p q → other mask' q = other mask p + d := by
  cases mask <;> cases mask' <;> simp only [MovedMask] at hm
  · exact ⟨dy, fun h => h.2⟩
  · exact ⟨dy, fun h => h.2⟩
  · exact ⟨dx, fun h => h.1⟩
  · exact ⟨dx, fun h => h.1⟩

theorem intersect_agree (m : Build) (hm : MovedMask dx dy mask mask') {p q a b : Point} (h : Moved dx dy p a) (h' : Moved dx dy q b)
    (hc : Crosses mask p q) :
    Agree (m = .debug) (Moved dx dy) (mask.intersect m p q) (mask'.intersect m a b) := by
  obtain ⟨f1, f2⟩ := formed_moved hm h h'
  have hc' := (crosses_moved hm h h').mpr hc
  cases m with
  | release =>
    obtain ⟨x, x1, x2, x3, x4, x5⟩ := intersect_wrapped hc
    obtain ⟨y, y1, y2, y3, y4, y5⟩ := intersect_wrapped hc'
    rw [x1, y1]
    rw [f1, f2] at y5
    generalize (wrap64 (formed mask p q)).tdiv (tested mask q - tested mask p) = k at x5 y5
    obtain ⟨d, hd⟩ := moved_other hm
    have hp := other_bounds mask p
    have hq := other_bounds mask q
    have e1 := hd h
    have e2 := hd h'
    refine moved_of_coordinates hm h (k := other mask x - other mask p) x2 y2 (by omega) ?_
    omega
  | debug =>
    by_cases hin : InI64 (formed mask p q)
    · obtain ⟨x, x1, x2, x3⟩ := intersect_at (m := .debug) hc hin
      obtain ⟨y, y1, y2, y3⟩ := intersect_at (m := .debug) hc' (by rw [f1]; exact hin)
      rw [x1, y1]
      rw [f1, f2] at y3
      exact moved_of_coordinates hm h x2 y2 x3 y3
    · obtain ⟨mk, _, h2⟩ := intersect_eq .debug mask p q
      obtain ⟨mk', _, h2'⟩ := intersect_eq .debug mask' a b
      rw [h2, h2', interpolate_debug hin, interpolate_debug (by rw [← f1] at hin; exact hin)]
      exact Agree.error _

theorem crosses_of_out_in {p q : Point} (h1 : mask.test p = .outside) (h2 : mask.test q = .inside) : Crosses mask p q :=
  .inl ⟨test_outside.mp h1, test_inside.mp h2⟩

theorem crosses_of_in_out {p q : Point} (h1 : mask.test p = .inside) (h2 : mask.test q = .outside) : Crosses mask p q :=
  .inr ⟨test_inside.mp h1, test_outside.mp h2⟩

/-! ## Edges -/

section

variable {T : Point → Point → Prop} {φ : Point → Int}

/-- What is asked of masks: points are on the same side of them, and crossings
correspond. -/
structure MaskRigid (m : Build) (P : Prop) (T : Point → Point → Prop) (mask mask' : ClipMask) : Prop where
  test : ∀ {p a}, T p a → mask'.test a = mask.test p
  meet : ∀ {p a q b}, T p a → T q b → Crosses mask p q → Agree P T (mask.intersect m p q) (mask'.intersect m a b)

theorem last_is_same (hT : Rigid m P T φ) {ps qs : List Point} (h : SamePath T ps qs) {p q : Point}
    (hpq : T p q) : ps.getLast? = some p ↔ qs.getLast? = some q := by
  rcases forall₂_last h with ⟨h1, h2⟩ | ⟨a, b, h1, h2, h3⟩
  · rw [h1, h2]; simp
  · rw [h1, h2, Option.some.injEq, Option.some.injEq, hT.equal h3 hpq]

theorem clipEmit_agree (hT : Rigid m P T φ) (hm : MaskRigid m P T mask mask') {p q a b : Point} (h : T p a) (h' : T q b)
    {ret ret' : List Point} (hr : SamePath T ret ret') :
    Agree P (SamePath T) (clipEmit m mask p (mask.test p) ret q) (clipEmit m mask' a (mask'.test a) ret' b) := by
  have hint : Crosses mask p q → Agree P T (mask.intersect m p q) (mask'.intersect m a b) := fun hc =>
    hm.meet h h' hc
  unfold clipEmit
  rw [hm.test h, hm.test h']
  cases hq : mask.test q with
  | onEdge =>
    dsimp only
    split
    · exact forall₂_append hr (.cons h' .nil)
    · exact hr
  | inside =>
    dsimp only
    cases hp : mask.test p with
    | outside =>
      simp only [reduceCtorEq, if_true, if_false]
      refine Agree.bind (hint (crosses_of_out_in hp hq)) fun x y hxy => ?_
      exact forall₂_append (forall₂_append hr (.cons hxy .nil)) (.cons h' .nil)
    | inside =>
      simp only [reduceCtorEq, if_false]
      exact forall₂_append hr (.cons h' .nil)
    | onEdge =>
      simp only [reduceCtorEq, if_true, if_false, ok_bind]
      have := last_is_same hT hr h
      by_cases hl : ret.getLast? = some p
      · rw [if_neg (by simpa using hl), if_neg (by simpa using this.mp hl)]
        exact forall₂_append hr (.cons h' .nil)
      · rw [if_pos hl, if_pos (mt this.mpr hl)]
        exact forall₂_append (forall₂_append hr (.cons h .nil)) (.cons h' .nil)
  | outside =>
    dsimp only
    split
    · rename_i hp
      exact Agree.bind (hint (crosses_of_in_out hp hq)) fun x y hxy => forall₂_append hr (.cons hxy .nil)
    · exact hr

theorem clipLoop_agree (hT : Rigid m P T φ) (hm : MaskRigid m P T mask mask') {ps qs : List Point} (h : SamePath T ps qs)
    {p a : Point} (hp : T p a) {ret ret' : List Point}
    (hr : SamePath T ret ret') :
    Agree P (SamePath T) (clipLoop m mask p (mask.test p) ret ps) (clipLoop m mask' a (mask'.test a) ret' qs) := by
  induction h generalizing p a ret ret' with
  | nil => exact hr
  | @cons c d ps qs h1 _ ih =>
    rw [clipLoop, clipLoop]
    refine Agree.bind (clipEmit_agree hT hm hp h1 hr) fun x y hxy => ?_
    exact ih h1 hxy

theorem clipEdge_agree (hT : Rigid m P T φ) (hm : MaskRigid m P T mask mask') {ps qs : List Point} (h : SamePath T ps qs) :
    Agree P (SamePath T) (clipEdge m mask ps) (clipEdge m mask' qs) := by
  cases h with
  | nil => exact .nil
  | cons h1 h2 =>
    cases h2 with
    | nil => exact .nil
    | cons h3 h4 =>
      simp only [clipEdge]
      refine clipLoop_agree hT hm (.cons h3 h4) h1 ?_
      rw [hm.test h1]
      split
      · exact .cons h1 .nil
      · exact .nil

theorem clipOldEdges_agree (hT : Rigid m P T φ) (hm : MaskRigid m P T mask mask') {es fs : List TopoEdge}
    (h : List.Forall₂ (SameEdge T) es fs)
    {cs ds : List (List Point)} (hc : List.Forall₂ (SamePath T) cs ds) (finder : List (Option Nat)) :
    Agree P (fun x y => List.Forall₂ (SamePath T) x.1 y.1 ∧ x.2 = y.2)
      (clipOldEdges m mask cs finder es) (clipOldEdges m mask' ds finder fs) := by
  induction h generalizing cs ds finder with
  | nil => exact ⟨hc, rfl⟩
  | cons h1 _ ih =>
    rw [clipOldEdges, clipOldEdges]
    refine Agree.bind (clipEdge_agree hT hm h1.points) fun x y hxy => ?_
    rw [hxy.length_eq, hc.length_eq]
    split
    · exact ih (forall₂_append hc (.cons hxy .nil)) _
    · exact ih hc _

/-! ## Rings -/

/-- Pairs of points that correspond. -/
def SamePair (T : Point → Point → Prop) (x y : Point × Point) : Prop := T x.1 y.1 ∧ T x.2 y.2

theorem samePair_equal (hT : Rigid m P T φ) {a b c d : Point × Point} (h : SamePair T a b) (h' : SamePair T c d) : a = c ↔ b = d := by
  rw [Prod.ext_iff, Prod.ext_iff, hT.equal h.1 h'.1, hT.equal h.2 h'.2]

/-- Sets of new edges that correspond. -/
structure SameNew (T : Point → Point → Prop) (s u : NewEdgeSet) : Prop where
  first : s.firstEdgeId = u.firstEdgeId
  edges : List.Forall₂ (SameEntry (SamePair T)) s.edges u.edges

/-- Builders that correspond. -/
structure SameClip (T : Point → Point → Prop) (b c : ClipBuilder) : Prop where
  old : List.Forall₂ (SamePath T) b.oldEdges c.oldEdges
  finder : b.finder = c.finder
  new : SameNew T b.newEdges c.newEdges

/-- States of `clip_ring` that correspond, if areas differ by `k`. -/
structure SameRingState (T : Point → Point → Prop) (k : Int) (s u : ClipRingState) : Prop where
  ret : s.ret = u.ret
  start : SameSlot T s.start u.start
  previous : SameSlot T s.previous u.previous
  fits : InI64 s.area2
  area : u.area2 = wrap64 (s.area2 + k)
  new : SameNew T s.newEdges u.newEdges

theorem buildNew_same (hT : Rigid m P T φ) {s u : NewEdgeSet} (h : SameNew T s u) {p q a b : Point} (hp : T p a) (hq : T q b) :
    (s.buildDirectedEdge p q).1 = (u.buildDirectedEdge a b).1 ∧
      SameNew T (s.buildDirectedEdge p q).2 (u.buildDirectedEdge a b).2 := by
  unfold NewEdgeSet.buildDirectedEdge
  have hlt := hT.less hp hq
  dsimp only
  by_cases hc : p < q
  · have := mapEntry_same (samePair_equal hT) h.edges (k := (p, q)) (l := (a, b)) ⟨hp, hq⟩ (s.firstEdgeId + s.edges.length)
    rw [if_pos hc, if_pos hc, if_pos (hlt.mp hc), if_pos (hlt.mp hc), ← h.first, ← h.edges.length_eq]
    exact ⟨by rw [this.1], h.first ▸ rfl, this.2⟩
  · have := mapEntry_same (samePair_equal hT) h.edges (k := (q, p)) (l := (b, a)) ⟨hq, hp⟩ (s.firstEdgeId + s.edges.length)
    have hc' := mt hlt.mpr hc
    rw [if_neg hc, if_neg hc, if_neg hc', if_neg hc', ← h.first, ← h.edges.length_eq]
    exact ⟨by rw [this.1], h.first ▸ rfl, this.2⟩

theorem addArea_agree (hT : Rigid m P T φ) {ps qs : List Point} (hpq : SamePath T ps qs) {s u k j : Int} (hk : Fixed T → k = 0)
    (hfit : InI64 s) (hs : u = wrap64 (s + k)) (hj : shoelace qs = shoelace ps + j) :
    Agree P (fun x y => InI64 x ∧ y = wrap64 (x + (k + j)))
      (signedArea2 m ps >>= fun t => m.i64 (s + t)) (signedArea2 m qs >>= fun t => m.i64 (u + t)) := by
  refine agree_of_ok hT ?_ ?_ ?_ ?_
  · intro hT
    obtain rfl := forall₂_fixed hT hpq
    have hj : j = 0 := by omega
    rw [hs, hk hT, hj, Int.add_zero, Int.add_zero, wrap64_of_inI64 hfit]
    refine Agree.bind (Agree.refl _) ?_
    rintro t _ rfl
    refine Agree.imp_ok (Agree.refl _) ?_
    rintro a _ ha _ rfl
    have := i64_ok_inI64 ha
    refine ⟨this, ?_⟩
    rw [Int.add_zero, wrap64_of_inI64 this]
  · intro e he
    rw [bind_error] at he
    rcases he with he | ⟨v, _, he⟩
    · exact signedArea2_error he
    · obtain ⟨h1, h2, _⟩ := i64_error.mp he
      exact ⟨h1, h2⟩
  · intro e he
    rw [bind_error] at he
    rcases he with he | ⟨v, _, he⟩
    · exact signedArea2_error he
    · obtain ⟨h1, h2, _⟩ := i64_error.mp he
      exact ⟨h1, h2⟩
  · intro x y hx hy
    rw [bind_ok] at hx hy
    obtain ⟨t, h1, h2⟩ := hx
    obtain ⟨t', h3, h4⟩ := hy
    refine ⟨i64_ok_inI64 h2, ?_⟩
    rw [i64_ok_wrap h2, i64_ok_wrap h4, signedArea2_ok h1, signedArea2_ok h3, hs, hj]
    unfold wrap64
    omega

seal Spec.Agree in
theorem plug_agree (hT : Rigid m P T φ) {k : Int} (hk : Fixed T → k = 0) {s u : ClipRingState}
    (h : SameRingState T k s u) {p q a b : Point} (hp : T p a) (hq : T q b) : Agree P (fun x y => SameRingState T (k + (φ q - φ p)) x y ∧ x.start = s.start ∧ x.previous = s.previous)
      (s.plug m p q) (u.plug m a b) := by
  have hj : shoelace [a, b] = shoelace [p, q] + (φ q - φ p) := by
    have := hT.cross hp hq
    simp only [shoelace]
    omega
  have harea := addArea_agree (P := P) hT (.cons hp (.cons hq .nil)) hk h.fits h.area hj
  obtain ⟨n1, n2⟩ := buildNew_same hT h.new hp hq
  have e1 : s.plug m p q = (signedArea2 m [p, q] >>= fun t => m.i64 (s.area2 + t)) >>= fun x =>
      .ok { s with ret := s.ret ++ [(s.newEdges.buildDirectedEdge p q).1], area2 := x, newEdges := (s.newEdges.buildDirectedEdge p q).2 } := by
    unfold ClipRingState.plug
    cases signedArea2 m [p, q] <;> rfl
  have e2 : u.plug m a b = (signedArea2 m [a, b] >>= fun t => m.i64 (u.area2 + t)) >>= fun x =>
      .ok { u with ret := u.ret ++ [(u.newEdges.buildDirectedEdge a b).1], area2 := x, newEdges := (u.newEdges.buildDirectedEdge a b).2 } := by
    unfold ClipRingState.plug
    cases signedArea2 m [a, b] <;> rfl
  rw [e1, e2]
  refine Agree.bind harea ?_
  rintro x y ⟨hx, hxy⟩
  exact Agree.ok ⟨⟨by dsimp only; rw [h.ret, n1], h.start, h.previous, hx, hxy, n2⟩, rfl, rfl⟩

theorem orient_same {ps qs : List Point} (h : SamePath T ps qs) (d : Direction) : SamePath T (orient d ps) (orient d qs) := by
  cases d with
  | forward => exact h
  | backward => exact List.forall₂_reverse_iff.mpr h

theorem firstPoint_orient (ps : List Point) (d : Direction) :
    firstPoint ps d = match (orient d ps).head? with | some p => .ok p | none => .error .index := by
  cases d <;> simp only [firstPoint, orient, List.head?_reverse] <;> rfl

theorem lastPoint_orient (ps : List Point) (d : Direction) :
    lastPoint ps d = match (orient d ps).getLast? with | some p => .ok p | none => .error .index := by
  cases d <;> simp only [lastPoint, orient, List.getLast?_reverse] <;> rfl

/-- How the areas differ in the loop: nothing is added yet, or it is about a path from the start to the previous point. -/
def LoopState (T : Point → Point → Prop) (φ : Point → Int) (s u : ClipRingState) : Prop :=
  (s.start = none ∧ s.previous = none ∧ SameRingState T 0 s u) ∨
    ∃ p z, s.start = some p ∧ s.previous = some z ∧ SameRingState T (φ z - φ p) s u

theorem sameSlot_some {α β : Type} {r : α → β → Prop} {o : Option α} {o' : Option β} (h : SameSlot r o o') {a : α} (ha : o = some a) :
    ∃ b, o' = some b ∧ r a b := by
  cases h with
  | none => cases ha
  | some h => cases ha; exact ⟨_, rfl, h⟩

theorem sameSlot_none {α β : Type} {r : α → β → Prop} {o : Option α} {o' : Option β} (h : SameSlot r o o') (ha : o = none) :
    o' = none := by
  cases h with
  | none => rfl
  | some h => cases ha

/-- The end of one iteration. -/
theorem addEdge_agree (hT : Rigid m P T φ) {s u : ClipRingState} {z : Point} {ps qs : List Point} (h : SamePath T ps qs) {f : Point}
    (hf : ps.head? = some f) {p : Point} (hz : z = f) (hs : s.start = some p) (hk : Fixed T → φ z - φ p = 0)
    (hsu : SameRingState T (φ z - φ p) s u) (d : DirectedEdge) :
    Agree P (LoopState T φ)
      ((match ps.getLast? with | some p => .ok p | none => .error .index : R Point) >>= fun last =>
        signedArea2 m ps >>= fun t => m.i64 (s.area2 + t) >>= fun a =>
          .ok { s with ret := s.ret ++ [d], previous := some last, area2 := a })
      ((match qs.getLast? with | some p => .ok p | none => .error .index : R Point) >>= fun last =>
        signedArea2 m qs >>= fun t => m.i64 (u.area2 + t) >>= fun a =>
          .ok { u with ret := u.ret ++ [d], previous := some last, area2 := a }) := by
  rcases forall₂_last h with ⟨h1, h2⟩ | ⟨y, y', h1, h2, h3⟩
  · rw [h1, h2]; exact Agree.error _
  · rw [h1, h2]
    simp only [ok_bind]
    rw [← bind_assoc, ← bind_assoc]
    have hj : shoelace qs = shoelace ps + (φ y - φ f) := by
      have := shoelace_rigid hT h f y hf h1
      omega
    refine Agree.bind (addArea_agree hT h hk hsu.fits hsu.area hj) ?_
    rintro a b ⟨ha, hab⟩
    refine .inr ⟨p, y, hs, rfl, ⟨?_, hsu.start, .some h3, ha, ?_, hsu.new⟩⟩
    · dsimp only
      rw [hsu.ret]
    · dsimp only
      rw [hab, hz]
      congr 1
      ring

seal Spec.Agree in
theorem clipRingStep_agree (hT : Rigid m P T φ) {b c : ClipBuilder} (hbc : SameClip T b c) {s u : ClipRingState} (h : LoopState T φ s u)
    (de : DirectedEdge) : Agree P (LoopState T φ) (clipRingStep m b s de) (clipRingStep m c u de) := by
  unfold clipRingStep
  have hfind : b.findOldEdgeId de.edge = c.findOldEdgeId de.edge := by
    unfold ClipBuilder.findOldEdgeId
    rw [hbc.finder]
  rw [hfind]
  refine Agree.bind (Agree.refl _) ?_
  rintro o _ rfl
  cases o with
  | none => exact Agree.ok h
  | some id =>
    dsimp only
    rcases forall₂_at hbc.old id with ⟨ps, qs, h1, h2, h3⟩ | ⟨h1, h2⟩
    · rw [h1, h2]
      dsimp only
      rw [firstPoint_orient, firstPoint_orient, lastPoint_orient, lastPoint_orient]
      have h3 := orient_same h3 de.direction
      generalize orient de.direction ps = ps' at h3
      generalize orient de.direction qs = qs' at h3
      rcases forall₂_head h3 with ⟨h4, h5⟩ | ⟨f, f', h4, h5, h6⟩
      · rw [h4, h5]; exact Agree.error _
      · rw [h4, h5]
        simp only [ok_bind]
        rcases h with ⟨n1, n2, hsu⟩ | ⟨p, z, n1, n2, hsu⟩
        · rw [n1, sameSlot_none hsu.start n1]
          simp only [if_true]
          rw [n2, sameSlot_none hsu.previous n2]
          simp only [ok_bind]
          refine addEdge_agree hT (s := { s with start := some f }) (u := { u with start := some f' }) h3 h4 (p := f) (z := f) rfl rfl (fun _ => Int.sub_self _)
            ⟨hsu.ret, .some h6, hsu.previous, hsu.fits, ?_, hsu.new⟩ _
          dsimp only
          rw [hsu.area]
          congr 1
          ring
        · obtain ⟨p', g1, g2⟩ := sameSlot_some hsu.start n1
          obtain ⟨z', g3, g4⟩ := sameSlot_some hsu.previous n2
          rw [n1, g1]
          simp only [reduceCtorEq, if_false]
          rw [n2, g3]
          dsimp only
          by_cases hz : z = f
          · rw [if_neg (by simpa using hz), if_neg (by simpa using (hT.equal g4 h6).mp hz)]
            exact addEdge_agree hT h3 h4 hz n1 (fun he => hT.flat he g2 g4) hsu _
          · rw [if_pos hz, if_pos (mt (hT.equal g4 h6).mpr hz)]
            refine Agree.bind (plug_agree hT (fun he => hT.flat he g2 g4) hsu g4 h6) ?_
            rintro x y ⟨hxy, e1, e2⟩
            refine addEdge_agree hT h3 h4 (z := f) rfl (e1.trans n1) (fun he => hT.flat he g2 h6) ?_ _
            have : φ z - φ p + (φ f - φ z) = φ f - φ p := by ring
            rw [this] at hxy
            exact hxy
    · rw [h1, h2]; exact Agree.error _

theorem clipRingLoop_agree (hT : Rigid m P T φ) {b c : ClipBuilder} (hbc : SameClip T b c) (des : List DirectedEdge) {s u : ClipRingState}
    (h : LoopState T φ s u) : Agree P (LoopState T φ) (clipRingLoop m b s des) (clipRingLoop m c u des) := by
  induction des generalizing s u with
  | nil => exact h
  | cons de des ih =>
    rw [clipRingLoop, clipRingLoop]
    exact Agree.bind (clipRingStep_agree hT hbc h de) fun x y hxy => ih hxy

seal Spec.Agree in
theorem clipRing_agree (hT : Rigid m P T φ) {b c : ClipBuilder} (hbc : SameClip T b c) (ring : TopoRing) :
    Agree P (fun x y => x.1 = y.1 ∧ SameClip T x.2 y.2) (clipRing m b ring) (clipRing m c ring) := by
  unfold clipRing
  have hstart : LoopState T φ ⟨[], 0, none, none, b.newEdges⟩ ⟨[], 0, none, none, c.newEdges⟩ :=
    .inl ⟨rfl, rfl, rfl, .none, .none, (by decide : InI64 0), (by decide : (0 : Int) = wrap64 (0 + 0)), hbc.new⟩
  refine Agree.bind (clipRingLoop_agree hT hbc ring.directedEdges hstart) fun s u h => ?_
  have htail : ∀ x y : ClipRingState, SameRingState T 0 x y →
      Agree P (fun x y => x.1 = y.1 ∧ SameClip T x.2 y.2)
        (if x.area2 = 0 then .ok (none, { b with newEdges := x.newEdges }) else .ok (some x.ret, { b with newEdges := x.newEdges }) :
          R (Option BuildRing × ClipBuilder))
        (if y.area2 = 0 then .ok (none, { c with newEdges := y.newEdges }) else .ok (some y.ret, { c with newEdges := y.newEdges })) := by
    intro x y hxy
    have ha : y.area2 = x.area2 := by
      rw [hxy.area, Int.add_zero, wrap64_of_inI64 hxy.fits]
    have hc' : SameClip T { b with newEdges := x.newEdges } { c with newEdges := y.newEdges } := ⟨hbc.old, hbc.finder, hxy.new⟩
    rw [ha, hxy.ret]
    split
    · exact Agree.ok ⟨rfl, hc'⟩
    · exact Agree.ok ⟨rfl, hc'⟩
  rcases h with ⟨n1, n2, hsu⟩ | ⟨p, z, n1, n2, hsu⟩
  · rw [n1, n2, sameSlot_none hsu.start n1, sameSlot_none hsu.previous n2]
    exact htail s u hsu
  · obtain ⟨p', g1, g2⟩ := sameSlot_some hsu.start n1
    obtain ⟨z', g3, g4⟩ := sameSlot_some hsu.previous n2
    rw [n1, n2, g1, g3]
    dsimp only
    by_cases hz : p = z
    · rw [if_neg (by simpa using hz), if_neg (by simpa using (hT.equal g2 g4).mp hz)]
      subst hz
      rw [Int.sub_self] at hsu
      exact htail s u hsu
    · rw [if_pos hz, if_pos (mt (hT.equal g2 g4).mpr hz)]
      refine Agree.bind (plug_agree hT (fun he => hT.flat he g2 g4) hsu g4 g2) fun x y hxy => ?_
      have : φ z - φ p + (φ p - φ z) = 0 := by ring
      rw [this] at hxy
      exact htail x y hxy.1

theorem clipRings_agree (hT : Rigid m P T φ) {b c : ClipBuilder} (hbc : SameClip T b c) (rings : List TopoRing) :
    Agree P (fun x y => x.1 = y.1 ∧ SameClip T x.2 y.2) (clipRings m b rings) (clipRings m c rings) := by
  induction rings generalizing b c with
  | nil => exact ⟨rfl, hbc⟩
  | cons r rings ih =>
    rw [clipRings, clipRings]
    refine Agree.bind (clipRing_agree hT hbc r) ?_
    rintro ⟨o, b1⟩ ⟨_, c1⟩ ⟨rfl, h1⟩
    refine Agree.bind (ih h1) ?_
    rintro ⟨rs, b2⟩ ⟨_, c2⟩ ⟨rfl, h2⟩
    exact ⟨rfl, h2⟩

variable {δ ε : Type} {D : δ → ε → Prop}

theorem clipRegion_agree (hT : Rigid m P T φ) {b c : ClipBuilder} (hbc : SameClip T b c) {r : TopoRegion δ} {s : TopoRegion ε}
    (h : SameTopoRegion D r s) :
    Agree P (fun x y => SameSlot (SameBuildRegion D) x.1 y.1 ∧ SameClip T x.2 y.2) (clipRegion m b r) (clipRegion m c s) := by
  unfold clipRegion
  rw [h.outer, h.inner]
  refine Agree.bind (clipRings_agree hT hbc _) ?_
  rintro ⟨o, b1⟩ ⟨_, c1⟩ ⟨rfl, h1⟩
  dsimp only
  split
  · refine Agree.bind (clipRings_agree hT h1 _) ?_
    rintro ⟨i, b2⟩ ⟨_, c2⟩ ⟨rfl, h2⟩
    exact ⟨.some ⟨h.data, rfl, rfl⟩, h2⟩
  · exact ⟨.none, h1⟩

theorem clipRegions_agree (hT : Rigid m P T φ) {b c : ClipBuilder} (hbc : SameClip T b c) {l : List (TopoRegion δ)}
    {k : List (TopoRegion ε)} (h : List.Forall₂ (SameTopoRegion D) l k) :
    Agree P (fun x y => List.Forall₂ (SameBuildRegion D) x.1 y.1 ∧ SameClip T x.2 y.2) (clipRegions m b l) (clipRegions m c k) := by
  induction h generalizing b c with
  | nil => exact ⟨.nil, hbc⟩
  | cons h1 _ ih =>
    rw [clipRegions, clipRegions]
    refine Agree.bind (clipRegion_agree hT hbc h1) ?_
    rintro ⟨o, b1⟩ ⟨o', c1⟩ ⟨ho, h2⟩
    refine Agree.bind (ih h2) ?_
    rintro ⟨rs, b2⟩ ⟨rs', c2⟩ ⟨hrs, h3⟩
    refine ⟨forall₂_append ?_ hrs, h3⟩
    dsimp only at ho
    cases ho with
    | none => exact .nil
    | some ho => exact .cons ho .nil

theorem forall₂_zipIdx {α β : Type} {K : α → β → Prop} {ks : List α} {ls : List β} {n : Nat}
    (h : List.Forall₂ (SameEntry K) (ks.zipIdx n) (ls.zipIdx n)) : List.Forall₂ K ks ls := by
  have e1 : ks = (ks.zipIdx n).map Prod.fst := by simp
  have e2 : ls = (ls.zipIdx n).map Prod.fst := by simp
  rw [e1, e2, List.forall₂_map_left_iff, List.forall₂_map_right_iff]
  exact h.imp fun _ _ h => h.1

theorem clipTopology_agree (hT : Rigid m P T φ) (hm : MaskRigid m P T mask mask') {t : Topology δ} {u : Topology ε}
    (h : SameTopology T D t u) :
    Agree P (SameTopology T D) (clipTopology m t mask) (clipTopology m u mask') := by
  unfold clipTopology
  refine Agree.bind (r := fun b c => SameClip T b c ∧ ClipBuilder.new m mask t.edges = .ok b ∧
    ClipBuilder.new m mask' u.edges = .ok c) ?_ ?_
  · have : Agree P (SameClip T) (ClipBuilder.new m mask t.edges) (ClipBuilder.new m mask' u.edges) := by
      unfold ClipBuilder.new
      refine Agree.bind (clipOldEdges_agree hT hm h.edges .nil []) ?_
      rintro ⟨cs, finder⟩ ⟨ds, _⟩ ⟨hcs, rfl⟩
      exact ⟨hcs, rfl, hcs.length_eq, .nil⟩
    exact Agree.imp_ok this fun b c hb hc hbc => ⟨hbc, hb, hc⟩
  · rintro b c ⟨hbc, hb, hc⟩
    refine Agree.bind (Agree.imp_ok (clipRegions_agree hT hbc h.regions)
      (s := fun x y => (List.Forall₂ (SameBuildRegion D) x.1 y.1 ∧ SameClip T x.2 y.2) ∧
        clipRegions m b t.regions = .ok x ∧ clipRegions m c u.regions = .ok y) fun x y hx hy hxy => ⟨hxy, hx, hy⟩) ?_
    rintro ⟨rs, b'⟩ ⟨ss, c'⟩ ⟨⟨hrs, hbc'⟩, hx, hy⟩
    obtain ⟨cs, _, k1, k2, _⟩ := clipBuilder_ok hb hx
    obtain ⟨ds, _, l1, l2, _⟩ := clipBuilder_ok hc hy
    dsimp only at hrs hbc' ⊢
    rw [clip_intoTopology_eq k1 k2 (List.Perm.refl _), clip_intoTopology_eq l1 l2 (List.Perm.refl _)]
    refine finishTopology_agree ?_ hrs
    unfold clippedPoints
    have ho := hbc'.old
    rw [k1.oldEdges, l1.oldEdges] at ho
    refine forall₂_append ho ?_
    have hn := hbc'.new.edges
    rw [k2, l2, ho.length_eq] at hn
    rw [List.forall₂_map_left_iff, List.forall₂_map_right_iff]
    exact (forall₂_zipIdx hn).imp fun _ _ h => .cons h.1 (.cons h.2 .nil)

end

theorem moved_masks (m : Build) (hm : MovedMask dx dy mask mask') :
    MaskRigid m (m = .debug) (Moved dx dy) mask mask' where
  test h := test_moved hm h
  meet h h' hc := intersect_agree m hm h h' hc

theorem same_rigid (m : Build) : Rigid m False (· = ·) (fun _ => 0) where
  less := by rintro a _ c _ rfl rfl; rfl
  cross := by rintro a _ c _ rfl rfl; simp
  strict _ := .inr fun _ _ h => h

theorem same_masks (m : Build) (mask : ClipMask) : MaskRigid m False (· = ·) mask mask where
  test := by rintro p _ rfl; rfl
  meet := by rintro p _ q _ rfl rfl _; exact Agree.refl _

end TopoGeo

