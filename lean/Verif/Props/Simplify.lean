import Verif.Proofs.SimplifyHeap
import Verif.Props.Normalize
/-!
# Properties C38 to C45: simplifying

Thresholds are `u64`: the hypothesis `s ≤ u64Max` says so.
-/

namespace TopoGeo

open Spec

/-! ## C38 -/

/-- C38: simplifying an edge picks some of its points, in order, among them the
first and the last one. -/
theorem C38_subsequence (m : Build) (ps out : List Point) (s : Nat) (hs : s ≤ u64Max)
    (h : simplifyEdge m ps s = .ok out) :
    out.Sublist ps ∧ out.head? = ps.head? ∧ out.getLast? = ps.getLast? := by
  by_cases hp : Simplifiable ps
  · obtain ⟨kept, hk⟩ := (simplifyEdge_safe hs hp).of_ok h
    have hne : ps ≠ [] := by
      intro h0; have := hp.1; rw [h0] at this; simp at this
    exact ⟨picks_sublist hk.picks, picks_head hk.picks hk.first hne, picks_last hk.picks hk.last hne⟩
  · rw [simplifyEdge_not hp] at h; simp at h

example : simplifyEdge .debug [⟨1, 1⟩, ⟨1, 10⟩, ⟨2, 1⟩, ⟨2, 2⟩] 8 = .ok [⟨1, 1⟩, ⟨1, 10⟩, ⟨2, 2⟩] := by
  decide +kernel

/-! ## C39 -/

/-- C39: a ring stays a ring of four points or more, a line a line of two or
more. -/
theorem C39_ring (m : Build) (ps out : List Point) (s : Nat) (hs : s ≤ u64Max)
    (h : simplifyEdge m ps s = .ok out) :
    2 ≤ out.length ∧ (out.head? = out.getLast? ↔ ps.head? = ps.getLast?) ∧
      (ps.head? = ps.getLast? → 4 ≤ out.length) := by
  obtain ⟨_, h1, h2⟩ := C38_subsequence m ps out s hs h
  by_cases hp : Simplifiable ps
  · obtain ⟨kept, hk⟩ := (simplifyEdge_safe hs hp).of_ok h
    refine ⟨?_, by rw [h1, h2], hk.ring⟩
    rw [← picks_length hk.picks]
    have hf := hk.first
    have hl := hk.last
    have := hp.1
    match kept, hf, hl with
    | [x], hf, hl => simp at hf hl; omega
    | _ :: _ :: _, _, _ => simp
  · rw [simplifyEdge_not hp] at h; simp at h

example : simplifyEdge .debug [⟨1, 1⟩, ⟨3, 1⟩, ⟨3, 3⟩, ⟨1, 3⟩, ⟨1, 1⟩] 1000 = .ok [⟨1, 1⟩, ⟨3, 1⟩, ⟨3, 3⟩, ⟨1, 1⟩] := by
  decide +kernel

/-! ## C40 -/

/-- C40: the release build panics on exactly the edges it asserts against. No
heap index, link or pointer goes wrong and the loops end. -/
theorem C40_release (ps : List Point) (s : Nat) (hs : s ≤ u64Max) :
    (∃ out, simplifyEdge .release ps s = .ok out) ↔ Simplifiable ps := by
  constructor
  · rintro ⟨out, h⟩
    by_contra hp
    rw [simplifyEdge_not hp] at h; simp at h
  · intro hp
    obtain ⟨out, h, _⟩ := (simplifyEdge_safe (m := .release) hs hp).total (by simp [Overflows])
    exact ⟨out, h⟩

/-- C40: the panics of either build: the assertions, and overflow of the weight
in checked builds. -/
theorem C40_panics (m : Build) (ps : List Point) (s : Nat) (e : Panic) (hs : s ≤ u64Max)
    (h : simplifyEdge m ps s = .error e) :
    (¬ Simplifiable ps ∧ e = .assert) ∨ (Simplifiable ps ∧ m = .debug ∧ e = .overflow) := by
  by_cases hp : Simplifiable ps
  · exact Or.inr ⟨hp, ((simplifyEdge_safe hs hp).of_error h).1.1, ((simplifyEdge_safe hs hp).of_error h).2⟩
  · rw [simplifyEdge_not hp] at h
    exact Or.inl ⟨hp, (Except.error.inj h).symm⟩

/-- C40: checked builds do not panic either if all coordinates are below
2^21. -/
theorem C40_debug (ps : List Point) (s : Nat) (hs : s ≤ u64Max) (hp : Simplifiable ps)
    (hc : ∀ p ∈ ps, p.x.toNat < 2 ^ 21 ∧ p.y.toNat < 2 ^ 21) : ∃ out, simplifyEdge .debug ps s = .ok out := by
  obtain ⟨out, h, _⟩ := (simplifyEdge_safe (m := .debug) hs hp).total (by
    rintro ⟨_, p, h1, h2⟩
    exact h2 (hc p h1))
  exact ⟨out, h⟩

-- the bound cannot be raised
example : simplifyEdge .debug [⟨2097152, 0⟩, ⟨2097152, 1⟩, ⟨1, 2097152⟩] 1 = .error .overflow := by decide +kernel

/-! ## C41 -/

/-- C41: an edge none of whose points is lighter than the threshold stays as it
is. -/
theorem C41_unchanged (m : Build) (ps out : List Point) (s : Nat) (hs : s ≤ u64Max)
    (hw : ∀ i a b c, ps[i]? = some a → ps[i + 1]? = some b → ps[i + 2]? = some c → s ≤ weightOf a b c)
    (h : simplifyEdge m ps s = .ok out) : out = ps :=
  simplifyEdge_heavy hs hw h

/-- C41: in particular, threshold 0 changes nothing. -/
theorem C41_zero (m : Build) (ps out : List Point) (h : simplifyEdge m ps 0 = .ok out) : out = ps :=
  simplifyEdge_heavy (Nat.zero_le _) (fun _ _ _ _ _ _ _ => Nat.zero_le _) h

example : simplifyEdge .debug [⟨1, 1⟩, ⟨1, 10⟩, ⟨2, 2⟩] 8 = .ok [⟨1, 1⟩, ⟨1, 10⟩, ⟨2, 2⟩] := by decide +kernel

/-- C41, the converse: an edge with a point lighter than the threshold does not
stay as it is, except for a ring of four points. -/
theorem C41_changed (m : Build) (ps out : List Point) (s : Nat) (hs : s ≤ u64Max) (i : Nat) (a b c : Point)
    (ha : ps[i]? = some a) (hb : ps[i + 1]? = some b) (hc : ps[i + 2]? = some c) (hw : weightOf a b c < s)
    (h4 : ps.head? = ps.getLast? → ps.length ≠ 4) (h : simplifyEdge m ps s = .ok out) : out ≠ ps := by
  rintro rfl
  obtain ⟨kept, hk, h1 | h1⟩ := simplifyEdge_first hs h
  · exact h4 h1.1 h1.2
  · obtain ⟨j, a', b', c', k1, k2, k3, k4, _⟩ := h1 i a b c ha hb hc hw
    have hlen := picks_length hk.picks
    have hlt : ∀ x ∈ kept, x < out.length := by
      intro x hx
      have : out[x]? ∈ kept.map (out[·]?) := List.mem_map.mpr ⟨x, hx, rfl⟩
      rw [hk.picks.2] at this
      obtain ⟨p, _, hp⟩ := List.mem_map.mp this
      exact (List.getElem?_eq_some_iff.mp hp.symm).1
    have hsub : ((j + 1) :: kept).Subperm (List.range out.length) := by
      apply List.subperm_of_subset
      · exact List.nodup_cons.mpr ⟨k4, hk.picks.1.imp (fun h => Nat.ne_of_lt h)⟩
      · intro x hx
        rcases List.mem_cons.mp hx with rfl | hx
        · exact List.mem_range.mpr (List.getElem?_eq_some_iff.mp k2).1
        · exact List.mem_range.mpr (hlt x hx)
    have := hsub.length_le
    simp at this
    omega

example : simplifyEdge .debug [⟨1, 1⟩, ⟨1, 10⟩, ⟨2, 2⟩] 9 = .ok [⟨1, 1⟩, ⟨2, 2⟩] := by decide +kernel

/-! ## C42 -/

/-- C42: every dropped point was lighter than the threshold, between some two
points around it; every kept point was not, unless the edge is a ring that
would have become too short. -/
theorem C42_dropped (m : Build) (ps out : List Point) (s : Nat) (hs : s ≤ u64Max)
    (h : simplifyEdge m ps s = .ok out) : ∃ kept, Picks ps kept out ∧
      (∀ j, j < ps.length → j ∉ kept → HasWeight ps j (· < s)) ∧
      ((∀ j ∈ kept, 0 < j → j + 1 < ps.length → HasWeight ps j (s ≤ ·)) ∨
        (ps.head? = ps.getLast? ∧ out.length = 4)) := by
  by_cases hp : Simplifiable ps
  · obtain ⟨kept, hk⟩ := (simplifyEdge_safe hs hp).of_ok h
    exact ⟨kept, hk.picks, hk.dropped, hk.kept⟩
  · rw [simplifyEdge_not hp] at h; simp at h

example : HasWeight [⟨1, 1⟩, ⟨1, 10⟩, ⟨2, 1⟩, ⟨2, 2⟩] 2 (· < 8) :=
  ⟨1, 3, ⟨1, 10⟩, ⟨2, 1⟩, ⟨2, 2⟩, by decide, by decide, rfl, rfl, rfl, by decide⟩

/-! ## C73 -/

/-- C73: a threshold above all weights that the points of an edge can have
leaves the two ends of a line, and four points of a ring. -/
theorem C73_ends (m : Build) (ps out : List Point) (s : Nat) (hs : s ≤ u64Max)
    (hw : ∀ (i j k : Nat) (a b c : Point), i < j → j < k → ps[i]? = some a → ps[j]? = some b → ps[k]? = some c → weightOf a b c < s)
    (h : simplifyEdge m ps s = .ok out) :
    (ps.head? ≠ ps.getLast? → ∃ a z, ps.head? = some a ∧ ps.getLast? = some z ∧ out = [a, z]) ∧
      (ps.head? = ps.getLast? → out.length = 4) := by
  obtain ⟨hlen, _, h4⟩ := C39_ring m ps out s hs h
  obtain ⟨_, hh, hz⟩ := C38_subsequence m ps out s hs h
  obtain ⟨kept, hk, _, hkept⟩ := C42_dropped m ps out s hs h
  have key : (∀ j ∈ kept, 0 < j → j + 1 < ps.length → HasWeight ps j (s ≤ ·)) → out.length ≤ 2 := by
    intro hkept
    have hlt : ∀ x ∈ kept, x < ps.length := by
      intro x hx
      have : ps[x]? ∈ kept.map (ps[·]?) := List.mem_map.mpr ⟨x, hx, rfl⟩
      rw [hk.2] at this
      obtain ⟨p, _, hp⟩ := List.mem_map.mp this
      exact (List.getElem?_eq_some_iff.mp hp.symm).1
    have hsub : kept.Subperm [0, ps.length - 1] := by
      apply List.subperm_of_subset
      · exact hk.1.imp (fun h => Nat.ne_of_lt h)
      · intro x hx
        have := hlt x hx
        by_contra hcon
        simp only [List.mem_cons, List.not_mem_nil, or_false, not_or] at hcon
        obtain ⟨i, k, a, b, c, h1, h2, h3, h4, h5, h6⟩ := hkept x hx (by omega) (by omega)
        exact absurd (hw i x k a b c h1 h2 h3 h4 h5) (by omega)
    have := hsub.length_le
    rw [picks_length hk] at this
    simpa using this
  constructor
  · intro hne
    rcases hkept with hkept | hkept
    · match out, hlen, key hkept, hh, hz with
      | [a, z], _, _, hh, hz => exact ⟨a, z, hh.symm, hz.symm, rfl⟩
    · exact absurd hkept.1 hne
  · intro heq
    rcases hkept with hkept | hkept
    · have := h4 heq
      have := key hkept
      omega
    · exact hkept.2

/-- C73: thresholds above 2^63 are above all weights. -/
theorem C73_all (m : Build) (ps out : List Point) (s : Nat) (hs : s ≤ u64Max) (hbig : 2 ^ 63 < s)
    (h : simplifyEdge m ps s = .ok out) :
    (ps.head? ≠ ps.getLast? → ∃ a z, ps.head? = some a ∧ ps.getLast? = some z ∧ out = [a, z]) ∧
      (ps.head? = ps.getLast? → out.length = 4) := by
  refine C73_ends m ps out s hs (fun i j k a b c _ _ _ _ _ => ?_) h
  have : InI64 (wrap64 (b.xi * a.xi * (c.yi - a.yi) - (c.xi - a.xi) * (b.yi - a.yi))) := inI64_wrap64 _
  unfold InI64 at this
  unfold weightOf
  omega

example : simplifyEdge .debug [⟨1, 1⟩, ⟨1, 10⟩, ⟨2, 1⟩, ⟨2, 2⟩] 10000000000000000000 = .ok [⟨1, 1⟩, ⟨2, 2⟩] := by
  decide +kernel
example : simplifyEdge .debug [⟨1, 1⟩, ⟨3, 1⟩, ⟨3, 3⟩, ⟨2, 4⟩, ⟨1, 3⟩, ⟨1, 1⟩] 10000000000000000000 =
    .ok [⟨1, 1⟩, ⟨3, 1⟩, ⟨3, 3⟩, ⟨1, 1⟩] := by decide +kernel

/-! ## C43

Full statement: the weight of a point is twice the area of the triangle it forms
with its neighbours, and what is removed is always a lightest point. Both are
wrong (`C43_weight_refuted`, `C43_order_refuted`). Proved instead: the weight is
right if the neighbours are level, and the first point to be removed is a
lightest one. -/

/-- C43: the weight is the area if the neighbours have the same `y`. -/
theorem C43_weight_partial (m : Build) (a b c : Point) (h : a.y = c.y)
    (ha : a.x.toNat < 2 ^ 31 ∧ a.y.toNat < 2 ^ 31) (hb : b.x.toNat < 2 ^ 31 ∧ b.y.toNat < 2 ^ 31)
    (hc : c.x.toNat < 2 ^ 31 ∧ c.y.toNat < 2 ^ 31) : triWeight m a b c = .ok (triangleArea2 a b c) := by
  have hx : ∀ p : Point, p.x.toNat < 2 ^ 31 → 0 ≤ p.xi ∧ p.xi ≤ 2 ^ 31 - 1 := fun p hp => by
    unfold Point.xi; omega
  have hy : ∀ p : Point, p.y.toNat < 2 ^ 31 → 0 ≤ p.yi ∧ p.yi ≤ 2 ^ 31 - 1 := fun p hp => by
    unfold Point.yi; omega
  have mulb : ∀ x y B C : Int, |x| ≤ B → |y| ≤ C → |x * y| ≤ B * C := by
    intro x y B C h1 h2
    rw [abs_mul]
    exact mul_le_mul h1 h2 (abs_nonneg _) (le_trans (abs_nonneg _) h1)
  have h1 : |b.xi * a.xi| ≤ (2 ^ 31 - 1) * (2 ^ 31 - 1) := by
    have := hx b hb.1; have := hx a ha.1
    apply mulb <;> rw [abs_le] <;> omega
  have h3 : |(c.xi - a.xi) * (b.yi - a.yi)| ≤ (2 ^ 31 - 1) * (2 ^ 31 - 1) := by
    have := hx c hc.1; have := hx a ha.1; have := hy b hb.2; have := hy a ha.2
    apply mulb <;> rw [abs_le] <;> omega
  have h0 : c.yi - a.yi = 0 := by unfold Point.yi; rw [h]; omega
  have hin : ∀ z : Int, -((2 ^ 31 - 1) * (2 ^ 31 - 1)) ≤ z → z ≤ (2 ^ 31 - 1) * (2 ^ 31 - 1) → InI64 z := by
    intro z h4 h5
    unfold InI64
    omega
  have hw : weightOf a b c = triangleArea2 a b c := by
    unfold weightOf triangleArea2
    rw [h0, Int.mul_zero, Int.mul_zero]
    generalize (c.xi - a.xi) * (b.yi - a.yi) = z3 at h3
    rw [abs_le] at h3
    rw [wrap64_of_inI64 (hin (0 - z3) (by omega) (by omega))]
  have hex : ∃ w, triWeight m a b c = .ok w := by
    generalize hz3 : (c.xi - a.xi) * (b.yi - a.yi) = z3 at h3
    generalize hz1 : b.xi * a.xi = z1 at h1
    rw [abs_le] at h1 h3
    have i1 := hin z1 h1.1 h1.2
    have i2 := hin 0 (by omega) (by omega)
    have i3 := hin z3 h3.1 h3.2
    have i4 := hin (0 - z3) (by omega) (by omega)
    have i5 := hin ((0 - z3).natAbs : Int) (by omega) (by omega)
    unfold triWeight
    rw [hz1, i64_of_inI64 i1, ok_bind, h0, Int.mul_zero, i64_of_inI64 i2, ok_bind, hz3, i64_of_inI64 i3, ok_bind,
      i64_of_inI64 i4, ok_bind, i64_of_inI64 i5, ok_bind]
    exact ⟨_, rfl⟩
  obtain ⟨w, hw'⟩ := hex
  rw [hw', triWeight_ok hw', hw]

example : triWeight .debug ⟨1, 1⟩ ⟨5, 10⟩ ⟨4, 1⟩ = .ok 27 ∧ triangleArea2 ⟨1, 1⟩ ⟨5, 10⟩ ⟨4, 1⟩ = 27 := by decide +kernel

/-- C43, refuted: the weight is not the area, even of a small triangle. -/
theorem C43_weight_refuted : ∃ a b c, ∃ w, triWeight .debug a b c = .ok w ∧ w ≠ triangleArea2 a b c :=
  ⟨⟨1, 1⟩, ⟨1, 10⟩, ⟨2, 2⟩, 8, by decide +kernel⟩

/-- C43: if a point is lighter than the threshold, a lightest one is removed,
unless the edge is a ring that would have become too short. -/
theorem C43_first_partial (m : Build) (ps out : List Point) (s : Nat) (hs : s ≤ u64Max)
    (h : simplifyEdge m ps s = .ok out) : ∃ kept, Picks ps kept out ∧
      ((ps.head? = ps.getLast? ∧ out.length = 4) ∨ ∀ j a b c, ps[j]? = some a → ps[j + 1]? = some b →
        ps[j + 2]? = some c → weightOf a b c < s → ∃ i a' b' c', ps[i]? = some a' ∧ ps[i + 1]? = some b' ∧
          ps[i + 2]? = some c' ∧ i + 1 ∉ kept ∧ weightOf a' b' c' < s ∧
          ∀ k x y z, ps[k]? = some x → ps[k + 1]? = some y → ps[k + 2]? = some z →
            weightOf a' b' c' ≤ weightOf x y z) := by
  obtain ⟨kept, hk, h1⟩ := simplifyEdge_first hs h
  exact ⟨kept, hk.picks, h1⟩

/-- C43, refuted: even with the weights of the code, the result is not that of
taking out lightest points first. -/
theorem C43_order_refuted : ∃ ps s out, ps.head? ≠ ps.getLast? ∧ simplifyEdge .debug ps s = .ok out ∧
    out ∉ lightestFirst s ps.length ps :=
  ⟨[⟨1, 1⟩, ⟨3, 0⟩, ⟨3, 1⟩, ⟨2, 1⟩, ⟨0, 0⟩], 3, [⟨1, 1⟩, ⟨2, 1⟩, ⟨0, 0⟩], by decide +kernel⟩

-- taking out lightest points first leaves the two ends
example : lightestFirst 3 5 [⟨1, 1⟩, ⟨3, 0⟩, ⟨3, 1⟩, ⟨2, 1⟩, ⟨0, 0⟩] = [[⟨1, 1⟩, ⟨0, 0⟩]] := by decide +kernel

/-! ## C44

Full statement: `t1 ≤ t2` implies that what is kept with `t2` is kept with `t1`.
Proved instead: what is unchanged with `t2` is unchanged with `t1`. -/

/-- C44: an edge that a threshold leaves alone is left alone by smaller ones. -/
theorem C44_unchanged_partial (m : Build) (ps out : List Point) (t1 t2 : Nat) (h : t1 ≤ t2) (ht : t2 ≤ u64Max)
    (h4 : ps.head? = ps.getLast? → ps.length ≠ 4)
    (h2 : simplifyEdge m ps t2 = .ok ps) (h1 : simplifyEdge m ps t1 = .ok out) : out = ps := by
  refine C41_unchanged m ps out t1 (by omega) ?_ h1
  intro i a b c ha hb hc
  by_contra hlt
  exact C41_changed m ps ps t2 ht i a b c ha hb hc (by omega) h4 h2 rfl

/-- C44, refuted: a larger threshold can keep a point that a smaller one
drops. -/
theorem C44_refuted : ∃ ps t1 t2 out1 out2 p, t1 ≤ t2 ∧ simplifyEdge .debug ps t1 = .ok out1 ∧
    simplifyEdge .debug ps t2 = .ok out2 ∧ p ∈ out2 ∧ p ∉ out1 :=
  ⟨[⟨1, 0⟩, ⟨1, 3⟩, ⟨2, 3⟩, ⟨1, 1⟩, ⟨3, 0⟩], 3, 5, [⟨1, 0⟩, ⟨1, 1⟩, ⟨3, 0⟩], [⟨1, 0⟩, ⟨2, 3⟩, ⟨3, 0⟩], ⟨2, 3⟩,
    by decide +kernel⟩

/-! ## C45 -/

theorem simplifyEdges_ok {m : Build} {s : Nat} {es es' : List TopoEdge} (h : simplifyEdges m s es = .ok es') :
    List.Forall₂ (SimplifiedTo m s) es es' := by
  induction es generalizing es' with
  | nil => obtain rfl := Except.ok.inj h; exact .nil
  | cons e rest ih =>
    simp only [simplifyEdges, bind_ok] at h
    obtain ⟨ps, h1, es1, h2, h3⟩ := h
    obtain rfl := Except.ok.inj h3
    exact .cons ⟨h1, rfl, rfl⟩ (ih h2)

/-- C45: regions, rings, directed edges and back pointers stay as they are; the
points of each edge are simplified. -/
theorem C45_frame {δ : Type} (m : Build) (t t' : Topology δ) (s : Nat) (h : simplify m t s = .ok t') :
    t'.regions = t.regions ∧ List.Forall₂ (SimplifiedTo m s) t.edges t'.edges := by
  simp only [simplify, bind_ok] at h
  obtain ⟨es, h1, h2⟩ := h
  obtain rfl := Except.ok.inj h2
  exact ⟨rfl, simplifyEdges_ok h1⟩

/-- C45: back pointers stay exact. -/
theorem C45_back_pointers {δ : Type} (m : Build) (t t' : Topology δ) (s : Nat) (h : simplify m t s = .ok t')
    (hb : BackPointersExact t) : BackPointersExact t' := by
  obtain ⟨h1, h2⟩ := C45_frame m t t' s h
  obtain ⟨h3, h4, h5⟩ := hb
  have hr : ∀ i, ringsUsing t' i = ringsUsing t i := fun i => by unfold ringsUsing; rw [h1]
  refine ⟨?_, by rw [h1]; exact h4, ?_⟩
  · intro i e' he'
    obtain ⟨hlt, rfl⟩ := List.getElem?_eq_some_iff.mp he'
    have hlt0 : i < t.edges.length := by rw [h2.length_eq]; exact hlt
    have h6 := h3 i _ (List.getElem?_eq_getElem hlt0)
    have h7 : SimplifiedTo m s t.edges[i] t'.edges[i] := h2.get hlt0 hlt
    rw [hr, h7.2.1, h7.2.2]
    exact h6
  · intro de hde
    rw [← h2.length_eq]
    apply h5
    unfold allDirectedEdges allRings at hde ⊢
    rwa [h1] at hde

theorem thinned_leads {paths paths' : List (List Point)} (h : List.Forall₂ Thinned paths paths') {a b : Point}
    (hl : Leads a paths b) : Leads a paths' b := by
  induction h generalizing a with
  | nil => exact hl
  | cons h1 _ ih =>
    obtain ⟨h2, c, h3, h4⟩ := hl
    exact ⟨h1.2.1.trans h2, c, h1.2.2.trans h3, ih h4⟩

/-- C45: each ring now reads as its paths with points left out, and if it was
closed and without gaps it still is. -/
theorem C45_closed {δ : Type} (m : Build) (t t' : Topology δ) (s : Nat) (hs : s ≤ u64Max)
    (h : simplify m t s = .ok t') (ring : TopoRing) (paths : List (List Point)) (hr : ReadsAs t.edges paths ring) :
    ∃ paths', ReadsAs t'.edges paths' ring ∧ List.Forall₂ Thinned paths paths' ∧
      (ClosedRing paths → ClosedRing paths') := by
  obtain ⟨_, h2⟩ := C45_frame m t t' s h
  have hpaths : ∃ paths', ReadsAs t'.edges paths' ring ∧ List.Forall₂ Thinned paths paths' := by
    unfold ReadsAs at hr ⊢
    generalize ring.directedEdges = des at hr
    induction des generalizing paths with
    | nil =>
      have : paths = [] := by simpa using hr.symm
      subst this
      exact ⟨[], rfl, .nil⟩
    | cons de des ih =>
      cases paths with
      | nil => simp at hr
      | cons p paths =>
        simp only [List.map_cons, List.cons.injEq] at hr
        obtain ⟨paths', h3, h4⟩ := ih paths hr.2
        have hw := hr.1
        unfold walk at hw
        rw [Option.map_eq_some_iff] at hw
        obtain ⟨e, he, hpe⟩ := hw
        obtain ⟨hlt, rfl⟩ := List.getElem?_eq_some_iff.mp he
        have hlt' : de.edge < t'.edges.length := by rw [← h2.length_eq]; exact hlt
        have h7 : SimplifiedTo m s t.edges[de.edge] t'.edges[de.edge] := h2.get hlt hlt'
        obtain ⟨k1, k2, k3⟩ := C38_subsequence m _ _ s hs h7.1
        refine ⟨(match de.direction with
          | .forward => t'.edges[de.edge].points
          | .backward => t'.edges[de.edge].points.reverse) :: paths', ?_, .cons ?_ h4⟩
        · simp only [List.map_cons, List.cons.injEq]
          refine ⟨?_, h3⟩
          unfold walk
          rw [List.getElem?_eq_getElem hlt']
          rfl
        · rw [← hpe]
          cases de.direction with
          | forward => exact ⟨k1, k2, k3⟩
          | backward =>
            refine ⟨List.reverse_sublist.mpr k1, ?_, ?_⟩
            · simpa using k3
            · simpa using k2
  obtain ⟨paths', h3, h4⟩ := hpaths
  refine ⟨paths', h3, h4, ?_⟩
  rintro ⟨hne, a, hl⟩
  refine ⟨?_, a, thinned_leads h4 hl⟩
  rintro rfl
  cases h4
  exact hne rfl

/-- C45: the release build panics iff some edge cannot be simplified. -/
theorem C45_release {δ : Type} (t : Topology δ) (s : Nat) (hs : s ≤ u64Max) :
    (∃ t', simplify .release t s = .ok t') ↔ ∀ e ∈ t.edges, Simplifiable e.points := by
  have hes : ∀ es : List TopoEdge,
      (∃ es', simplifyEdges .release s es = .ok es') ↔ ∀ e ∈ es, Simplifiable e.points := by
    intro es
    induction es with
    | nil => simp [simplifyEdges]
    | cons e rest ih =>
      simp only [simplifyEdges, bind_ok, List.forall_mem_cons, ← ih, ← C40_release e.points s hs]
      constructor
      · rintro ⟨es', ps, h1, es1, h2, _⟩
        exact ⟨⟨ps, h1⟩, es1, h2⟩
      · rintro ⟨⟨ps, h1⟩, es1, h2⟩
        exact ⟨_, ps, h1, es1, h2, rfl⟩
  rw [← hes]
  simp only [simplify, bind_ok]
  constructor
  · rintro ⟨t', es, h1, _⟩
    exact ⟨es, h1⟩
  · rintro ⟨es, h1⟩
    exact ⟨_, es, h1, rfl⟩

theorem mem_firstOccurrences {α : Type} [DecidableEq α] {a : α} {l : List α} : a ∈ firstOccurrences l → a ∈ l := by
  induction l with
  | nil => exact id
  | cons x l ih =>
    intro h
    rcases List.mem_cons.mp h with rfl | h
    · simp
    · exact List.mem_cons_of_mem _ (ih (List.mem_of_mem_filter h))

/-- C45: a topology built from point rings can be simplified. -/
theorem C45_points {δ : Type} (m : Build) (rs : List (Region δ)) (t : Topology δ) (s : Nat) (hs : s ≤ u64Max)
    (h : buildTopology m rs = .ok t)
    (hp : ∀ r ∈ rs, ∀ ring ∈ r.outerRings ++ r.innerRings, ∃ ps, ring = .points ps) :
    ∃ t', simplify .release t s = .ok t' := by
  rw [C45_release t s hs]
  intro e he
  have hm : e.points ∈ firstOccurrences ((allPaths rs).map stored) := by
    rw [← C14_first_use m rs t h]
    exact List.mem_map_of_mem he
  obtain ⟨p, hp1, hp2⟩ := List.mem_map.mp (mem_firstOccurrences hm)
  have hpair : ∃ a b, a ≠ b ∧ p = [a, b] := by
    obtain ⟨k, hk, hpk⟩ := List.mem_flatMap.mp hp1
    obtain ⟨r, hr, rfl⟩ := List.mem_map.mp hk
    have hr := List.mem_of_mem_filter hr
    obtain ⟨ring, hring, hpr⟩ : ∃ ring ∈ r.outerRings ++ r.innerRings, p ∈ ringPaths ring := by
      rcases List.mem_append.mp hpk with hpk | hpk
      all_goals
        obtain ⟨l, hl, hpl⟩ := List.mem_flatten.mp hpk
        obtain ⟨ring, h1, rfl⟩ := List.mem_map.mp hl
        exact ⟨ring, by simp [List.mem_of_mem_filter h1], hpl⟩
    obtain ⟨ps, rfl⟩ := hp r hr ring hring
    obtain ⟨h1, h2⟩ := List.mem_filter.mp hpr
    have hpairs : ∀ (ps : List Point) (e : List Point), e ∈ pairs ps → ∃ a b, e = [a, b] := by
      intro ps
      induction ps with
      | nil => simp [pairs]
      | cons x ps ih =>
        cases ps with
        | nil => simp [pairs]
        | cons y ps =>
          intro e he
          simp only [pairs, List.mem_cons] at he
          rcases he with rfl | he
          · exact ⟨x, y, rfl⟩
          · exact ih e he
    obtain ⟨a, b, rfl⟩ := hpairs ps p h1
    refine ⟨a, b, ?_, rfl⟩
    rintro rfl
    simp only [decide_not, Bool.not_eq_eq_eq_not, Bool.not_true, decide_eq_false_iff_not] at h2
    exact h2 (Or.inr ⟨a, rfl⟩)
  obtain ⟨a, b, hab, rfl⟩ := hpair
  rw [← hp2]
  unfold stored
  split
  · exact ⟨by simp, fun h => absurd (by simpa using h) hab⟩
  · exact ⟨by simp, fun h => absurd (by simpa using h) hab.symm⟩

/-- A normalized topology, simplified. -/
def exSimplified : Topology String := ((simplify .debug exNormal 1000).toOption.getD ⟨[], []⟩)

example : simplify .debug exNormal 1000 = .ok exSimplified ∧ exSimplified.edges ≠ exNormal.edges := by decide +kernel

/-- A triangle with a spur, given as edges. -/
def exSpurRegions : List (Region String) :=
  [⟨"a", [.edges [[⟨1, 1⟩, ⟨1, 5⟩, ⟨5, 5⟩, ⟨1, 1⟩], [⟨1, 1⟩, ⟨0, 0⟩, ⟨1, 1⟩]]], []⟩]

/-- C45, the limit: the builder accepts an edge that goes to and fro, on which
simplifying panics. -/
theorem C45_panic : ∃ t : Topology String, (∃ rs, buildTopology .debug rs = .ok t) ∧
    simplify .release t 1 = .error .assert := by
  refine ⟨((buildTopology .debug exSpurRegions).toOption.getD ⟨[], []⟩), ⟨exSpurRegions, ?_⟩, ?_⟩ <;> decide +kernel

end TopoGeo
