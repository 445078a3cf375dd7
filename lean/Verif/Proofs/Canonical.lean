import Verif.Proofs.NormalizeClean
/-!
# Normalized rings are determined by their segments
-/

namespace TopoGeo

open Spec
open scoped List

/-- A segment with the regions on its sides. -/
abbrev SidedSeg := (Point × Point) × Sides

/-- One segment ends where the other one starts. -/
def Meets (a b : SidedSeg) : Prop := a.1.2 = b.1.1

/-! ## Closed walks -/

theorem nice_walk {n : NormRing} (hn : NiceRing n) (hx : Extended n) :
    nsegs n ≠ [] ∧ (nsegs n).IsChain Meets ∧ Cyclic Meets (nsegs n) ∧
      ∀ s, (nsegs n).head? = some s → firstOf n = some s.1.1 := by
  obtain ⟨hne, a, ha⟩ := hn.closed
  obtain ⟨h1, _, h3, h4⟩ := leads_segs ha
  rw [← nsegs_fst] at h1 h3 h4
  have hh : ∀ s, (nsegs n).head? = some s → s.1.1 = a := fun s hs => h3 s.1 (by rw [List.head?_map, hs]; rfl)
  refine ⟨?_, (List.isChain_map (R := fun s s' : Point × Point => s.2 = s'.1) (fun s : SidedSeg => s.1)).mp h1, ?_, ?_⟩
  · cases n with
    | nil => exact absurd rfl hne
    | cons e n =>
      rw [nsegs_cons]
      intro h0
      exact edgeSegs_ne_nil (hx e (by simp)) (List.append_eq_nil_iff.mp h0).1
  · intro s z hs hz
    show z.1.2 = s.1.1
    rw [hh s hs]
    exact h4 z.1 (by rw [List.getLast?_map, hz]; rfl)
  · intro s hs
    rw [hh s hs]
    cases n with
    | nil => exact absurd rfl hne
    | cons e n => exact ha.1

theorem starts_ends {l : List SidedSeg} {a z : SidedSeg} (h : (a :: l).IsChain Meets)
    (hz : (a :: l).getLast? = some z) :
    (a :: l).map (·.1.1) ++ [z.1.2] = a.1.1 :: (a :: l).map (·.1.2) := by
  induction l generalizing a with
  | nil =>
    obtain rfl : a = z := by simpa using hz
    rfl
  | cons b l ih =>
    rw [List.isChain_cons_cons] at h
    rw [List.getLast?_cons_cons] at hz
    have := ih h.2 hz
    rw [List.map_cons, List.cons_append, this, List.map_cons (l := b :: l)]
    rw [show a.1.2 = b.1.1 from h.1]

theorem ends_perm {l : List SidedSeg} (h : l.IsChain Meets) (hc : Cyclic Meets l) :
    (l.map (·.1.2)).Perm (l.map (·.1.1)) := by
  cases l with
  | nil => exact List.Perm.refl _
  | cons a l =>
    obtain ⟨z, hz⟩ : ∃ z, (a :: l).getLast? = some z :=
      Option.isSome_iff_exists.mp (by rw [List.getLast?_isSome]; simp)
    have h1 := starts_ends h hz
    rw [show z.1.2 = a.1.1 from hc a z rfl hz] at h1
    have h2 : ((a :: l).map (·.1.1) ++ [a.1.1]).Perm (a.1.1 :: (a :: l).map (·.1.1)) := List.perm_append_singleton _ _
    rw [h1] at h2
    exact (List.perm_cons _).mp h2

/-! ## Walks along the same segments -/

/-- Two rings among whose segments only one starts at each point, and which
have a segment in common, are the same closed walk. -/
theorem rings_rotated {out1 out2 : List NormRing} (h1 : ∀ n ∈ out1, NiceRing n) (x1 : ∀ n ∈ out1, Extended n)
    (h2 : ∀ n ∈ out2, NiceRing n) (x2 : ∀ n ∈ out2, Extended n)
    (hp : (out1.flatMap nsegs).Perm (out2.flatMap nsegs)) (hnd : ((out1.flatMap nsegs).map (·.1.1)).Nodup)
    {n1 n2 : NormRing} (hn1 : n1 ∈ out1) (hn2 : n2 ∈ out2) {a : SidedSeg} (ha1 : a ∈ nsegs n1) (ha2 : a ∈ nsegs n2) :
    nsegs n1 ~r nsegs n2 := by
  have ends : ∀ out : List NormRing, (∀ n ∈ out, NiceRing n) → (∀ n ∈ out, Extended n) →
      ((out.flatMap nsegs).map (·.1.2)).Perm ((out.flatMap nsegs).map (·.1.1)) := by
    intro out h x
    induction out with
    | nil => exact List.Perm.refl _
    | cons n out ih =>
      rw [List.flatMap_cons, List.map_append, List.map_append]
      obtain ⟨_, c1, c2, _⟩ := nice_walk (h n (by simp)) (x n (by simp))
      exact (ends_perm c1 c2).append (ih (fun k hk => h k (by simp [hk])) fun k hk => x k (by simp [hk]))
  have hend : ((out1.flatMap nsegs).map (·.1.2)).Nodup := (ends out1 h1 x1).nodup_iff.mpr hnd
  let J : SidedSeg → SidedSeg → Prop := fun a b => (a ∈ out1.flatMap nsegs ∧ b ∈ out1.flatMap nsegs) ∧ Meets a b
  have run : ∀ n, NiceRing n → Extended n → (∀ a ∈ nsegs n, a ∈ out1.flatMap nsegs) → (nsegs n).Nodup → Run J (nsegs n) := by
    intro n hn hx hm hd
    obtain ⟨c0, c1, c2, _⟩ := nice_walk hn hx
    refine ⟨c0, ?_, hd, Or.inr ?_⟩
    · refine isChain_of_inner fun l1 a b l2 hl => ⟨⟨hm a (by rw [hl]; simp), hm b (by rw [hl]; simp)⟩, ?_⟩
      rw [hl] at c1
      exact (List.isChain_cons_cons.mp (List.isChain_append.mp c1).2.1).1
    · intro a z ha hz
      exact ⟨⟨hm z (List.mem_of_getLast? hz), hm a (List.mem_of_head? ha)⟩, c2 a z ha hz⟩
  have hB : (out1.flatMap nsegs).Nodup := hnd.of_map
  have hB2 : (out2.flatMap nsegs).Nodup := hp.nodup_iff.mp hB
  have r1 := run n1 (h1 n1 hn1) (x1 n1 hn1) (fun a ha => List.mem_flatMap.mpr ⟨n1, hn1, ha⟩)
    ((List.nodup_flatMap.mp hB).1 n1 hn1)
  have r2 := run n2 (h2 n2 hn2) (x2 n2 hn2) (fun a ha => hp.mem_iff.mpr (List.mem_flatMap.mpr ⟨n2, hn2, ha⟩))
    ((List.nodup_flatMap.mp hB2).1 n2 hn2)
  have := run_unique (J := J) ?_ ?_ r1 r2 ha1 ha2
  · rcases this with h | h
    · rw [h]
    · exact h.1
  · intro a b c hb hc
    exact List.inj_on_of_nodup_map hnd hb.1.2 hc.1.2 (hb.2.symm.trans hc.2)
  · intro a b c hb hc
    exact List.inj_on_of_nodup_map hend hb.1.1 hc.1.1 (hb.2.trans hc.2.symm)

/-! ## Where a walk is cut into edges -/

/-- The edges of a ring are the longest parts of its walk with the same
sides. -/
theorem ring_edge_run {w : List SidedSeg} (hwn : w.Nodup) {n : NormRing} (hnice : NiceRing n) (hxt : Extended n)
    (hseg : nsegs n ~r w) {e : NormEdge} (he : e ∈ n) :
    Run (fun a b => a.2 = b.2 ∧ Adjoins w a b) (edgeSegs e) ∧
      (Cyclic (fun a b => a.2 = b.2 ∧ Adjoins w a b) (edgeSegs e) → n = [e]) := by
  obtain ⟨n1, n2, rfl⟩ := List.append_of_mem he
  have hrot : (edgeSegs e ++ nsegs (n2 ++ n1)) ~r w := by
    refine List.IsRotated.trans ?_ hseg
    rw [nsegs_append, nsegs_append, nsegs_cons, ← List.append_assoc]
    exact List.isRotated_append
  have hcyc : CyclicallyDistinct (nsides (e :: (n2 ++ n1))) := by
    have := cyclicallyDistinct_rotate (a := nsides n1) (b := nsides (e :: n2)) (by
      have := hnice.cyclic
      simpa [nsides] using this)
    simpa [nsides] using this
  have hnd : (edgeSegs e ++ nsegs (n2 ++ n1)).Nodup := hrot.nodup_iff.mpr hwn
  have hne := edgeSegs_ne_nil (hxt e he)
  have hfol : ∀ a b, Adjoins (edgeSegs e ++ nsegs (n2 ++ n1)) a b → a.2 = b.2 → a.2 = b.2 ∧ Adjoins w a b :=
    fun a b hf hs => ⟨hs, (adjoins_isRotated hrot).mp hf⟩
  have hback : ∀ a b, Adjoins w a b → Adjoins (edgeSegs e ++ nsegs (n2 ++ n1)) a b :=
    fun a b hf => (adjoins_isRotated hrot).mpr hf
  have hchain : (edgeSegs e).IsChain (fun a b => a.2 = b.2 ∧ Adjoins w a b) := by
    refine isChain_of_inner fun l1 a b l2 hl => hfol a b ?_ ?_
    · rw [hl, List.append_assoc]
      exact adjoins_inner l1 _ a b
    · rw [mem_edgeSegs (e := e) (a := a) (by rw [hl]; simp), mem_edgeSegs (e := e) (a := b) (by rw [hl]; simp)]
  by_cases hrest : n2 ++ n1 = []
  · obtain ⟨rfl, rfl⟩ := List.append_eq_nil_iff.mp hrest
    refine ⟨⟨hne, hchain, hnd.of_append_left, Or.inr ?_⟩, fun _ => rfl⟩
    intro a z ha hz
    refine hfol z a ?_ ?_
    · simp only [List.append_nil, nsegs, List.flatMap_nil]
      exact adjoins_wrap ha hz
    · rw [mem_edgeSegs (List.mem_of_head? ha), mem_edgeSegs (List.mem_of_getLast? hz)]
  · have hopen : (∀ a, (edgeSegs e).head? = some a → ∀ b, ¬ (b.2 = a.2 ∧ Adjoins w b a)) ∧
        ∀ z, (edgeSegs e).getLast? = some z → ∀ b, ¬ (z.2 = b.2 ∧ Adjoins w z b) := by
      have hext : ∀ f ∈ n2 ++ n1, ¬ ZeroLength f.points := by
        intro f hf
        refine hxt f ?_
        simp only [List.mem_append, List.mem_cons] at hf ⊢
        tauto
      constructor
      · intro a ha b hj
        have hf := hback b a hj.2
        obtain ⟨init, e0, hl⟩ : ∃ init e0, n2 ++ n1 = init ++ [e0] := by
          rcases List.eq_nil_or_concat (n2 ++ n1) with h | ⟨i, x, h⟩
          · exact absurd h hrest
          · exact ⟨i, x, by simpa using h⟩
        rw [hl] at hf hcyc hnd hext
        obtain ⟨z, hz⟩ : ∃ z, (edgeSegs e0).getLast? = some z :=
          Option.isSome_iff_exists.mp (by rw [List.getLast?_isSome]; exact edgeSegs_ne_nil (hext e0 (by simp)))
        have hlast : (edgeSegs e ++ nsegs (init ++ [e0])).getLast? = some z := by
          have : edgeSegs e ++ nsegs (init ++ [e0]) = edgeSegs e ++ nsegs init ++ edgeSegs e0 := by
            rw [nsegs_append, List.append_assoc]
            simp [nsegs, edgeSegs]
          rw [this, List.getLast?_append_of_ne_nil _ (edgeSegs_ne_nil (hext e0 (by simp)))]
          exact hz
        have hhead : (edgeSegs e ++ nsegs (init ++ [e0])).head? = some a := by
          rw [List.head?_append_of_ne_nil _ hne]; exact ha
        have hbz := adjoins_left_unique hnd hf (adjoins_wrap hhead hlast)
        have h1 : b.2 = e0.regions := by rw [hbz]; exact mem_edgeSegs (List.mem_of_getLast? hz)
        have h2 : a.2 = e.regions := mem_edgeSegs (List.mem_of_head? ha)
        refine cyclicallyDistinct_last (x := e.regions) (y := e0.regions) (l := nsides init) ?_ ?_
        · simpa [nsides] using hcyc
        · rw [← h1, ← h2]; exact hj.1
      · intro z hz b hj
        have hf := hback z b hj.2
        obtain ⟨e1, rest, hl⟩ := List.exists_cons_of_ne_nil hrest
        rw [hl] at hf hcyc hnd hext
        obtain ⟨c, l, hc⟩ := List.exists_cons_of_ne_nil (edgeSegs_ne_nil (hext e1 (by simp)))
        obtain ⟨init, hi⟩ := List.getLast?_eq_some_iff.mp hz
        have hL : edgeSegs e ++ nsegs (e1 :: rest) = init ++ z :: c :: (l ++ nsegs rest) := by
          rw [nsegs_cons, show (segs e1.points).map (fun s => (s, e1.regions)) = edgeSegs e1 from rfl, hc, hi]
          simp
        have hbc : b = c := by
          rw [hL] at hf hnd
          exact adjoins_right_unique hnd hf (adjoins_inner _ _ _ _)
        have h1 : b.2 = e1.regions := by rw [hbc]; exact mem_edgeSegs (by rw [hc]; simp)
        have h2 : z.2 = e.regions := mem_edgeSegs (List.mem_of_getLast? hz)
        refine cyclicallyDistinct_first (x := e.regions) (y := e1.regions) (l := nsides rest) ?_ ?_
        · simpa [nsides] using hcyc
        · rw [← h1, ← h2]; exact hj.1
    refine ⟨⟨hne, hchain, hnd.of_append_left, Or.inl hopen⟩, ?_⟩
    intro hy
    exfalso
    obtain ⟨a, l, ha⟩ := List.exists_cons_of_ne_nil hne
    obtain ⟨z, hz⟩ : ∃ z, (edgeSegs e).getLast? = some z :=
      Option.isSome_iff_exists.mp (by rw [List.getLast?_isSome]; exact hne)
    have ha' : (edgeSegs e).head? = some a := by rw [ha]; rfl
    exact hopen.1 a ha' z (hy a z ha' hz)

/-- Rings whose edges are told apart by their segments are determined by the
sequence of segments. -/
theorem edges_of_nsegs {n1 n2 : NormRing} (x1 : Extended n1) (x2 : Extended n2)
    (hk : ∀ e1 ∈ n1, ∀ e2 ∈ n2, ∀ a, a ∈ edgeSegs e1 → a ∈ edgeSegs e2 → e1 = e2) (h : nsegs n1 = nsegs n2) :
    n1 = n2 := by
  induction n1 generalizing n2 with
  | nil =>
    cases n2 with
    | nil => rfl
    | cons e n2 =>
      rw [nsegs_cons] at h
      exact absurd (List.append_eq_nil_iff.mp h.symm).1 (edgeSegs_ne_nil (x2 e (by simp)))
  | cons e1 n1 ih =>
    cases n2 with
    | nil =>
      rw [nsegs_cons] at h
      exact absurd (List.append_eq_nil_iff.mp h).1 (edgeSegs_ne_nil (x1 e1 (by simp)))
    | cons e2 n2 =>
      rw [nsegs_cons, nsegs_cons] at h
      obtain ⟨a, l, ha⟩ := List.exists_cons_of_ne_nil (edgeSegs_ne_nil (x1 e1 (by simp)))
      obtain ⟨b, k, hb⟩ := List.exists_cons_of_ne_nil (edgeSegs_ne_nil (x2 e2 (by simp)))
      have hab : a = b := by
        change edgeSegs e1 ++ _ = edgeSegs e2 ++ _ at h
        rw [ha, hb] at h
        exact (List.cons.inj h).1
      obtain rfl := hk e1 (by simp) e2 (by simp) a (by rw [ha]; simp) (by rw [hb, hab]; simp)
      rw [ih (fun e he => x1 e (by simp [he])) (fun e he => x2 e (by simp [he]))
        (fun f hf g hg => hk f (by simp [hf]) g (by simp [hg])) (List.append_cancel_left h)]

theorem Point.eq_of_not_lt {a b : Point} (h1 : ¬ a < b) (h2 : ¬ b < a) : a = b := by
  rw [Point.lt_def] at h1 h2
  have hx : a.x = b.x := by
    apply UInt32.toNat_inj.mp
    omega
  have hy : a.y = b.y := by
    apply UInt32.toNat_inj.mp
    by_contra hne
    rcases Nat.lt_or_gt_of_ne hne with h | h
    · exact h1 (Or.inr ⟨hx, h⟩)
    · exact h2 (Or.inr ⟨hx.symm, h⟩)
  cases a; cases b; simp_all

theorem mem_nsegs {n : NormRing} {a : SidedSeg} : a ∈ nsegs n ↔ ∃ e ∈ n, a ∈ edgeSegs e := List.mem_flatMap

/-- The first point of a ring is the start of one of its segments. -/
theorem edge_head {e : NormEdge} (h : ¬ ZeroLength e.points) :
    ∃ s l, edgeSegs e = s :: l ∧ e.points.head? = some s.1.1 := by
  obtain ⟨s, l, hs⟩ := List.exists_cons_of_ne_nil (edgeSegs_ne_nil h)
  refine ⟨s, l, hs, ?_⟩
  have hne : segs e.points ≠ [] := by
    intro h0
    unfold edgeSegs at hs
    rw [h0] at hs
    exact absurd hs (by simp)
  rw [← segs_head _ hne]
  unfold edgeSegs at hs
  cases hsg : segs e.points with
  | nil => exact absurd hsg hne
  | cons x k =>
    rw [hsg] at hs
    obtain rfl := (List.cons.inj hs).1
    rfl

/-- Two rings that are the same closed walk, and among whose segments only one
starts at each point, are equal. -/
theorem nice_unique {n1 n2 : NormRing} (h1 : NiceRing n1) (x1 : Extended n1) (h2 : NiceRing n2) (x2 : Extended n2)
    (hr : nsegs n1 ~r nsegs n2) (hnd : ((nsegs n1).map (·.1.1)).Nodup) : n1 = n2 := by
  have hwn : (nsegs n1).Nodup := hnd.of_map
  have key : ∀ e1 ∈ n1, ∀ e2 ∈ n2, ∀ a, a ∈ edgeSegs e1 → a ∈ edgeSegs e2 →
      e1 = e2 ∨ (n1 = [e1] ∧ n2 = [e2]) := by
    intro e1 he1 e2 he2 a ha1 ha2
    obtain ⟨r1, c1⟩ := ring_edge_run hwn h1 x1 (List.IsRotated.refl _) he1
    obtain ⟨r2, c2⟩ := ring_edge_run hwn h2 x2 hr.symm he2
    rcases run_unique (fun a b c hb hc => adjoins_right_unique hwn hb.2 hc.2)
      (fun a b c hb hc => adjoins_left_unique hwn hb.2 hc.2) r1 r2 ha1 ha2 with h | ⟨_, g1, g2⟩
    · obtain ⟨g1, g2⟩ := edgeSegs_injective (edgeSegs_ne_nil (x1 e1 he1)) h
      left
      cases e1; cases e2; simp_all
    · exact Or.inr ⟨c1 g1, c2 g2⟩
  obtain ⟨e1, l1, rfl⟩ : ∃ e l, n1 = e :: l := List.exists_cons_of_ne_nil (by
    rintro rfl; exact h1.closed.1 rfl)
  obtain ⟨e2, l2, rfl⟩ : ∃ e l, n2 = e :: l := List.exists_cons_of_ne_nil (by
    rintro rfl; exact h2.closed.1 rfl)
  -- it suffices that they start at the same point
  obtain ⟨s1, k1, hs1, hf1⟩ := edge_head (x1 e1 (by simp))
  obtain ⟨s2, k2, hs2, hf2⟩ := edge_head (x2 e2 (by simp))
  have hh1 : (nsegs (e1 :: l1)).head? = some s1 := by
    rw [nsegs_cons, show (segs e1.points).map (fun s => (s, e1.regions)) = edgeSegs e1 from rfl, hs1]; rfl
  have hh2 : (nsegs (e2 :: l2)).head? = some s2 := by
    rw [nsegs_cons, show (segs e2.points).map (fun s => (s, e2.regions)) = edgeSegs e2 from rfl, hs2]; rfl
  have suff : s1.1.1 = s2.1.1 → nsegs (e1 :: l1) = nsegs (e2 :: l2) := by
    intro h
    refine rotated_eq (f := fun s => s.1.1) hr hnd ?_
    rw [hh1, hh2, Option.map_some, Option.map_some, h]
  by_cases hsingle : l1 = [] ∧ l2 = []
  · obtain ⟨rfl, rfl⟩ := hsingle
    have hn1 : nsegs [e1] = edgeSegs e1 := by rw [nsegs_cons]; simp [nsegs, edgeSegs]
    have hn2 : nsegs [e2] = edgeSegs e2 := by rw [nsegs_cons]; simp [nsegs, edgeSegs]
    have hstart : s1.1.1 = s2.1.1 := by
      have m1 : s2.1.1 ∈ e1.points := by
        have : s2 ∈ edgeSegs e1 := by rw [← hn1]; exact hr.mem_iff.mpr (List.mem_of_head? hh2)
        obtain ⟨x, hx, rfl⟩ := List.mem_map.mp this
        exact (segs_fst_mem hx).1
      have m2 : s1.1.1 ∈ e2.points := by
        have : s1 ∈ edgeSegs e2 := by rw [← hn2]; exact hr.mem_iff.mp (List.mem_of_head? hh1)
        obtain ⟨x, hx, rfl⟩ := List.mem_map.mp this
        exact (segs_fst_mem hx).1
      have g1 := h1.first
      have g2 := h2.first
      exact Point.eq_of_not_lt (g2 _ m2 _ hf2) (g1 _ m1 _ hf1)
    have := suff hstart
    rw [hn1, hn2] at this
    obtain ⟨g1, g2⟩ := edgeSegs_injective (edgeSegs_ne_nil (x1 e1 (by simp))) this
    cases e1; cases e2; simp_all
  · have key' : ∀ f1 ∈ e1 :: l1, ∀ f2 ∈ e2 :: l2, ∀ a, a ∈ edgeSegs f1 → a ∈ edgeSegs f2 → f1 = f2 := by
      intro f1 hf1 f2 hf2 a ha1 ha2
      rcases key f1 hf1 f2 hf2 a ha1 ha2 with h | ⟨g1, g2⟩
      · exact h
      · exact absurd ⟨(List.cons.inj g1).2, (List.cons.inj g2).2⟩ hsingle
    have m1 : e2 ∈ e1 :: l1 := by
      obtain ⟨f, hf, hs⟩ := mem_nsegs.mp (hr.mem_iff.mpr (List.mem_of_head? hh2))
      rw [← key' f hf e2 (by simp) s2 hs (by rw [hs2]; simp)]
      exact hf
    have m2 : e1 ∈ e2 :: l2 := by
      obtain ⟨f, hf, hs⟩ := mem_nsegs.mp (hr.mem_iff.mp (List.mem_of_head? hh1))
      rw [key' e1 (by simp) f hf s1 (by rw [hs1]; simp) hs]
      exact hf
    refine edges_of_nsegs x1 x2 key' (suff ?_)
    have hfirst : ∀ (e : NormEdge) (l : List NormEdge), StartsLeftmost (npts (e :: l)) → l ≠ [] → ∀ f ∈ e :: l,
        ∀ p, f.points.head? = some p → ∀ q, e.points.head? = some q → ¬ p < q := by
      intro e l hst hl f hf p hp q hq
      obtain ⟨e', l', rfl⟩ := List.exists_cons_of_ne_nil hl
      exact hst f.points (List.mem_map_of_mem hf) p hp q hq
    by_cases hl1 : l1 = []
    · subst hl1
      obtain rfl : e2 = e1 := by simpa using m1
      rw [hs1] at hs2
      rw [(List.cons.inj hs2).1]
    · by_cases hl2 : l2 = []
      · subst hl2
        obtain rfl : e1 = e2 := by simpa using m2
        rw [hs1] at hs2
        rw [(List.cons.inj hs2).1]
      · exact Point.eq_of_not_lt (hfirst _ _ h2.first hl2 e1 m2 _ hf1 _ hf2) (hfirst _ _ h1.first hl1 e2 m1 _ hf2 _ hf1)

/-! ## Lists of rings -/

theorem rings_unique {out1 out2 : List NormRing} (h1 : ∀ n ∈ out1, NiceRing n) (x1 : ∀ n ∈ out1, Extended n)
    (h2 : ∀ n ∈ out2, NiceRing n) (x2 : ∀ n ∈ out2, Extended n)
    (s1 : SortedByFirst (out1.map npts)) (s2 : SortedByFirst (out2.map npts))
    (hp : (out1.flatMap nsegs).Perm (out2.flatMap nsegs)) (hnd : ((out1.flatMap nsegs).map (·.1.1)).Nodup) :
    out1 = out2 := by
  have hnd2 : ((out2.flatMap nsegs).map (·.1.1)).Nodup := (hp.map _).nodup_iff.mp hnd
  have hstarts : ∀ (out : List NormRing), ((out.flatMap nsegs).map (·.1.1)).Nodup → ∀ n ∈ out,
      ((nsegs n).map (·.1.1)).Nodup := by
    intro out h n hn
    rw [List.map_flatMap] at h
    exact (List.nodup_flatMap.mp h).1 n hn
  have meet : ∀ {n1 n2 : NormRing}, n1 ∈ out1 → n2 ∈ out2 → ∀ a, a ∈ nsegs n1 → a ∈ nsegs n2 → n1 = n2 :=
    fun {n1 n2} hn1 hn2 a ha1 ha2 => nice_unique (h1 n1 hn1) (x1 n1 hn1) (h2 n2 hn2) (x2 n2 hn2)
      (rings_rotated h1 x1 h2 x2 hp hnd hn1 hn2 ha1 ha2) (hstarts out1 hnd n1 hn1)
  have hnodup : ∀ (out : List NormRing), (∀ n ∈ out, NiceRing n) → (∀ n ∈ out, Extended n) →
      ((out.flatMap nsegs).map (·.1.1)).Nodup → out.Nodup := by
    intro out h x hd
    have := (List.nodup_flatMap.mp hd.of_map).2
    refine this.imp_of_mem ?_
    rintro a b ha _ hab rfl
    obtain ⟨s, l, hs⟩ := List.exists_cons_of_ne_nil (nice_walk (h a ha) (x a ha)).1
    exact hab (show s ∈ nsegs a by rw [hs]; simp) (show s ∈ nsegs a by rw [hs]; simp)
  have hperm : out1.Perm out2 := by
    rw [List.perm_ext_iff_of_nodup (hnodup out1 h1 x1 hnd) (hnodup out2 h2 x2 hnd2)]
    intro n
    constructor
    · intro hn
      obtain ⟨s, l, hs⟩ := List.exists_cons_of_ne_nil (nice_walk (h1 n hn) (x1 n hn)).1
      have hs1 : s ∈ nsegs n := by rw [hs]; simp
      obtain ⟨n2, hn2, hs2⟩ := List.mem_flatMap.mp (hp.mem_iff.mp (List.mem_flatMap.mpr ⟨n, hn, hs1⟩))
      rw [meet hn hn2 s hs1 hs2]
      exact hn2
    · intro hn
      obtain ⟨s, l, hs⟩ := List.exists_cons_of_ne_nil (nice_walk (h2 n hn) (x2 n hn)).1
      have hs2 : s ∈ nsegs n := by rw [hs]; simp
      obtain ⟨n1, hn1, hs1⟩ := List.mem_flatMap.mp (hp.mem_iff.mpr (List.mem_flatMap.mpr ⟨n, hn, hs2⟩))
      rw [← meet hn1 hn s hs1 hs2]
      exact hn1
  unfold SortedByFirst at s1 s2
  rw [List.pairwise_map] at s1 s2
  refine List.Perm.eq_of_pairwise ?_ s1 s2 hperm
  intro a b ha hb hab hba
  obtain ⟨s, l, hs⟩ := List.exists_cons_of_ne_nil (nice_walk (h1 a ha) (x1 a ha)).1
  obtain ⟨s', l', hs'⟩ := List.exists_cons_of_ne_nil (nice_walk (h2 b hb) (x2 b hb)).1
  have f1 := (nice_walk (h1 a ha) (x1 a ha)).2.2.2 s (by rw [hs]; rfl)
  have f2 := (nice_walk (h2 b hb) (x2 b hb)).2.2.2 s' (by rw [hs']; rfl)
  have hst := Point.eq_of_not_lt (hba _ f2 _ f1) (hab _ f1 _ f2)
  have m1 : s ∈ nsegs a := by rw [hs]; simp
  have m2 : s' ∈ nsegs b := by rw [hs']; simp
  have : s = s' := List.inj_on_of_nodup_map hnd (List.mem_flatMap.mpr ⟨a, ha, m1⟩)
    (hp.mem_iff.mpr (List.mem_flatMap.mpr ⟨b, hb, m2⟩)) hst
  exact meet ha hb s m1 (this ▸ m2)

end TopoGeo
