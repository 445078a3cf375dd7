import Verif.Proofs.NormalizeOnce
import Verif.Proofs.NormalizeClean
/-!
# C118: normalizing twice is enough
-/

namespace TopoGeo

open Spec

/-- C118: where each segment lies on one edge, a topology that was normalized
twice follows all rules of normalized topologies and is not changed by
normalizing it once more; the second and the third pass do not panic in release
builds. -/
theorem C118_twice {δ : Type} (m : Build) (t t1 : Topology δ) (hw : WellFormed t) (hs : SegmentsOnce t)
    (h : normalize m t = .ok t1) (hb : AreasBounded t1) :
    (∃ t2, normalize .release t1 = .ok t2) ∧ ∀ m' t2, normalize m' t1 = .ok t2 →
      Normal t2 ∧ (∀ m'' t3, normalize m'' t2 = .ok t3 → t3 = t2) ∧ normalize .release t2 = .ok t2 := by
  have ho := once_of_normalize hw hs h hb
  obtain ⟨rs, _, hbuilt⟩ := normalize_ok.mp h
  refine ⟨C21_release t1 ho.wellFormed (area_of_normalize hw h) ho.noSelf ho.two, ?_⟩
  intro m' t2 h2
  obtain ⟨rs2, _, hb2⟩ := normalize_ok.mp h2
  have hn := normal_of_once hbuilt ho h2
  exact ⟨hn, C20_fixpoint_partial m' rs2 t2 hb2 hn⟩

/-- C118: in particular for topologies of closed rings of points. -/
theorem C118_points {δ : Type} (m0 m : Build) (rs : List (Region δ)) (t t1 : Topology δ)
    (h0 : buildTopology m0 rs = .ok t)
    (hp : ∀ r ∈ rs, ∀ ring ∈ r.outerRings ++ r.innerRings, ∃ ps, ring = .points ps)
    (hc : ∀ r ∈ rs, ∀ ring ∈ r.outerRings ++ r.innerRings, ringArea ring ≠ 0 → ClosedRing (ringPaths ring))
    (h : normalize m t = .ok t1) (hb : AreasBounded t1) :
    (∃ t2, normalize .release t1 = .ok t2) ∧ ∀ m' t2, normalize m' t1 = .ok t2 →
      Normal t2 ∧ (∀ m'' t3, normalize m'' t2 = .ok t3 → t3 = t2) ∧ normalize .release t2 = .ok t2 :=
  C118_twice m t t1 (wellFormed_of_built h0 hc).1 (segments_of_points h0 hp) h hb

theorem normalizedTimes_split {δ : Type} {k : Nat} {t t'' : Topology δ} (h : NormalizedTimes (k + 1) t t'') :
    ∃ m t', normalize m t = .ok t' ∧ NormalizedTimes k t' t'' := by
  induction k generalizing t'' with
  | zero =>
    cases h with
    | succ m h1 h2 => cases h1; exact ⟨m, _, h2, .zero _⟩
  | succ k ih =>
    cases h with
    | succ m h1 h2 =>
      obtain ⟨m', t', h3, h4⟩ := ih h1
      exact ⟨m', t', h3, .succ m h4 h2⟩

/-- C118: however often it is normalized after that, by whichever builds, the
result stays the same. -/
theorem C118_times {δ : Type} (m m' : Build) (t t1 t2 : Topology δ) (hw : WellFormed t) (hs : SegmentsOnce t)
    (h : normalize m t = .ok t1) (hb : AreasBounded t1) (h2 : normalize m' t1 = .ok t2) :
    ∀ k t', NormalizedTimes k t2 t' → t' = t2 := by
  have hfix := ((C118_twice m t t1 hw hs h hb).2 m' t2 h2).2.1
  clear h2
  intro k t' hk
  induction hk with
  | zero => rfl
  | succ m _ h4 ih => rw [ih hfix] at h4; exact hfix m _ h4

-- the frame of two halves needs the second pass
example : WellFormed exFrame ∧ SegmentsOnce exFrame ∧ normalize .debug exFrame = .ok exFrameNormal ∧
    AreasBounded exFrameNormal ∧ (normalize .debug exFrameNormal).toOption ≠ some exFrameNormal := by
  refine ⟨exFrame_wellFormed, segments_of_points exFrame_built (by
    intro r hr ring hring
    match ring, hring with
    | .points ps, _ => exact ⟨ps, rfl⟩
    | .edges es, hring =>
      simp [exFrameRegions] at hr
      subst hr
      simp at hring), exFrame_normalize, ?_, by decide +kernel⟩
  unfold AreasBounded
  decide +kernel

/-! ## Without its conditions -/

/-- A square with sides of 2^31. -/
def exHugeRegions : List (Region String) :=
  [⟨"square", [.points [⟨0, 0⟩, ⟨0, 2147483648⟩, ⟨2147483648, 2147483648⟩, ⟨2147483648, 0⟩, ⟨0, 0⟩]], []⟩]

/-- Its topology. -/
def exHuge : Topology String := ((buildTopology .release exHugeRegions).toOption.getD ⟨[], []⟩)

/-- The same, normalized. -/
def exHuge1 : Topology String := ((normalize .release exHuge).toOption.getD ⟨[], []⟩)

/-- The same, normalized twice. -/
def exHuge2 : Topology String := ((normalize .release exHuge1).toOption.getD ⟨[], []⟩)

theorem exHuge_built : buildTopology .release exHugeRegions = .ok exHuge := by decide +kernel

theorem exHuge_1 : normalize .release exHuge = .ok exHuge1 := by decide +kernel

theorem exHuge_2 : normalize .release exHuge1 = .ok exHuge2 := by decide +kernel

theorem exHuge_3 : normalize .release exHuge2 = .ok exHuge1 := by decide +kernel

theorem exHuge_debug : (normalize .debug exHuge1).toOption = none ∧ (normalize .debug exHuge2).toOption = none ∧
    (normalize .debug exHuge).toOption = none := by
  decide +kernel

/-- C118, the condition on areas: the ring of a square with sides of 2^31, whose
area has the same sign either way round, is turned round by each pass of a
release build and never comes to rest. -/
theorem C118_huge : buildTopology .release exHugeRegions = .ok exHuge ∧ exHuge1 ≠ exHuge2 ∧
    ∀ k t', NormalizedTimes (k + 1) exHuge t' → t' = if k % 2 = 0 then exHuge1 else exHuge2 := by
  refine ⟨exHuge_built, by decide +kernel, ?_⟩
  obtain ⟨d1, d2, d0⟩ := exHuge_debug
  have hrel : ∀ (m : Build) (t t' t'' : Topology String), normalize .release t = .ok t' →
      (normalize .debug t).toOption = none → normalize m t = .ok t'' → t'' = t' := by
    intro m t t' t'' h h' h''
    cases m with
    | debug => rw [h''] at h'; cases h'
    | release => exact Except.ok.inj (h''.symm.trans h)
  intro k
  induction k with
  | zero =>
    intro t' h
    obtain ⟨m, t'', h1, h2⟩ := normalizedTimes_split h
    cases h2
    exact hrel m _ _ _ exHuge_1 d0 h1
  | succ k ih =>
    intro t' h
    cases h with
    | succ m h1 h2 =>
      have := ih _ h1
      by_cases hk : k % 2 = 0
      · rw [if_pos hk] at this
        rw [if_neg (by omega)]
        subst this
        exact hrel m _ _ _ exHuge_2 d1 h2
      · rw [if_neg hk] at this
        rw [if_pos (by omega)]
        subst this
        exact hrel m _ _ _ exHuge_3 d2 h2

/-- Regions whose rings lie on top of each other, cut into edges differently. -/
def exCutRegions : List (Region String) :=
  [⟨"a", [.edges [[⟨1, 1⟩, ⟨1, 2⟩], [⟨1, 2⟩, ⟨2, 2⟩], [⟨2, 2⟩, ⟨2, 1⟩], [⟨2, 1⟩, ⟨2, 0⟩, ⟨1, 0⟩, ⟨1, 1⟩]]], []⟩,
   ⟨"b", [.edges [[⟨2, 2⟩, ⟨2, 1⟩, ⟨1, 1⟩, ⟨1, 2⟩], [⟨1, 2⟩, ⟨2, 2⟩]],
     .edges [[⟨2, 1⟩, ⟨2, 2⟩, ⟨1, 2⟩], [⟨1, 2⟩, ⟨1, 1⟩], [⟨1, 1⟩, ⟨2, 1⟩]]], []⟩]

/-- Their topology, and the topologies that normalizing it gives. -/
def exCut : Nat → Topology String
  | 0 => ((buildTopology .debug exCutRegions).toOption.getD ⟨[], []⟩)
  | k + 1 => ((normalize .debug (exCut k)).toOption.getD ⟨[], []⟩)

/-- C118, the condition on segments: where edges overlap, the third pass may
change what the second one left. -/
theorem C118_overlap : ∃ t t1 t2 t3 : Topology String, (∃ rs, buildTopology .debug rs = .ok t) ∧ WellFormed t ∧
    normalize .debug t = .ok t1 ∧ AreasBounded t1 ∧ normalize .debug t1 = .ok t2 ∧ AreasBounded t2 ∧
    normalize .debug t2 = .ok t3 ∧ t3 ≠ t2 := by
  have hb : buildTopology .debug exCutRegions = .ok (exCut 0) := by decide +kernel
  refine ⟨exCut 0, exCut 1, exCut 2, exCut 3, ⟨_, hb⟩, (wellFormed_of_built hb (by decide +kernel)).1,
    by decide +kernel, ?_, by decide +kernel, ?_, by decide +kernel, by decide +kernel⟩
  · unfold AreasBounded; decide +kernel
  · unfold AreasBounded; decide +kernel

end TopoGeo
