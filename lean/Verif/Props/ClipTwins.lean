import Verif.Proofs.ClipTwins
import Verif.Props.Pipeline
import Verif.Proofs.NormalizeClean
/-!
# C120 — clipping may lay one edge on top of another
-/

namespace TopoGeo
open Spec

/-- What two edges of a clipped topology on the same line come from: different
edges, each of which had a point inside of the mask. -/
theorem C120_origins {δ : Type} (m : Build) (mask : ClipMask) (t t' : Topology δ) (hw : WellFormed t)
    (h : clipTopology m t mask = .ok t') {i j : Nat} {e f : TopoEdge} (hi : t'.edges[i]? = some e)
    (hj : t'.edges[j]? = some f) (hij : i ≠ j) (hsame : SameLine e.points f.points) :
    ∃ (u v : Nat) (eu fv : TopoEdge), t.edges[u]? = some eu ∧ t.edges[v]? = some fv ∧ u ≠ v ∧
      clipEdge m mask eu.points = .ok e.points ∧ clipEdge m mask fv.points = .ok f.points ∧
      ∃ p ∈ e.points, 0 < depth mask p := by
  obtain ⟨cs, hcs, origin, hinj, hmake, horig⟩ := C72_edges m mask t t' h
  have hlen : ∀ e ∈ t.edges, 2 ≤ e.points.length := fun e he => two_le_of_extended (hw.extended e he)
  have hi' := (List.getElem?_eq_some_iff.mp hi).1
  have hj' := (List.getElem?_eq_some_iff.mp hj).1
  have hne : origin i ≠ origin j := fun he => hij (hinj i hi' j hj' he)
  have hpi := (horig i e hi).1
  have hpj := (horig j f hj).1
  have hmi := (hmake (origin i)).mp ⟨i, hi', rfl⟩
  have hmj := (hmake (origin j)).mp ⟨j, hj', rfl⟩
  -- what is left of an edge has a point inside
  have kept : ∀ k, MakesEdge cs t.regions (.kept k) → ∃ e0, t.edges[k]? = some e0 ∧
      clipEdge m mask e0.points = .ok (PieceEdge.points cs (.kept k)) ∧
      ∃ p ∈ PieceEdge.points cs (.kept k), 0 < depth mask p := by
    rintro k ⟨c, hc, hcne⟩
    obtain ⟨hk, rfl⟩ := List.getElem?_eq_some_iff.mp hc
    have hk' : k < t.edges.length := by rw [hcs.length_eq]; exact hk
    have hclip : clipEdge m mask t.edges[k].points = .ok cs[k] := (List.forall₂_iff_get.mp hcs).2 k hk' hk
    have hp : PieceEdge.points cs (.kept k) = cs[k] := by simp [PieceEdge.points, hc]
    have h2 := hlen _ (List.getElem_mem hk')
    refine ⟨t.edges[k], List.getElem?_eq_getElem hk', by rw [hp]; exact hclip, ?_⟩
    rw [hp]
    by_contra hno
    push Not at hno
    have hf := C27_inside_points h2 hclip
    have : cs[k].filter (fun p => 0 < depth mask p) = [] := by
      rw [List.filter_eq_nil_iff]
      intro x hx
      have := hno x hx
      simp; omega
    rw [this] at hf
    refine hcne ((C27_empty_iff hclip).mpr (.inr fun x hx => ?_))
    have := List.filter_eq_nil_iff.mp hf.symm x hx
    simpa using this
  -- a plug has none, and its smaller end comes first
  have plug : ∀ p q, MakesEdge cs t.regions (.plug p q) → p < q ∧ depth mask p = 0 ∧ depth mask q = 0 := by
    rintro p q ⟨r, hr, ring, hring, pc, hpc, hpe⟩
    have hring' : ring ∈ r.outerRings ++ r.innerRings :=
      List.mem_append.mpr (hring.imp id And.left)
    obtain ⟨paths, h3, h4⟩ := hw.closed ring (List.mem_flatMap.mpr ⟨r, hr, hring'⟩)
    have hon := clippedPieces_onLine hcs hlen h3 h4 pc hpc
    unfold PlugOnLine at hon
    rw [hpe] at hon
    refine ⟨?_, hon⟩
    rcases mem_clippedPieces hpc with ⟨de, _, hv⟩ | ⟨a, b, hab, rfl⟩
    · obtain ⟨rfl, _⟩ := visiblePiece_some hv
      cases hpe
    · unfold plugPiece at hpe
      split at hpe
      · rename_i hlt
        obtain ⟨rfl, rfl⟩ := PieceEdge.plug.inj hpe
        exact hlt
      · rename_i hlt
        obtain ⟨rfl, rfl⟩ := PieceEdge.plug.inj hpe
        rcases Point.trichotomy a b with h | h | h
        · exact absurd h hlt
        · exact absurd h hab
        · exact h
  have inside : ∀ k, MakesEdge cs t.regions (.kept k) → ∀ p q, MakesEdge cs t.regions (.plug p q) →
      ¬ SameLine (PieceEdge.points cs (.kept k)) [p, q] ∧ ¬ SameLine [p, q] (PieceEdge.points cs (.kept k)) := by
    intro k hk p q hpq
    obtain ⟨_, _, _, x, hx, hpos⟩ := kept k hk
    obtain ⟨_, h1, h2⟩ := plug p q hpq
    have key : x ∉ [p, q] := by
      intro hx
      rcases List.mem_cons.mp hx with rfl | hx
      · omega
      · obtain rfl := List.mem_singleton.mp hx; omega
    refine ⟨fun hs => key ?_, fun hs => key ?_⟩
    · rcases hs with hs | hs
      · rw [hs]; exact hx
      · rw [hs]; exact List.mem_reverse.mpr hx
    · rcases hs with hs | hs
      · rw [← hs]; exact hx
      · rw [hs] at hx; exact List.mem_reverse.mp hx
  rw [hpi, hpj] at hsame ⊢
  cases ho : origin i with
  | kept u =>
    cases ho' : origin j with
    | kept v =>
      rw [ho] at hmi hne
      rw [ho'] at hmj hne
      obtain ⟨eu, h1, h2, h3⟩ := kept u hmi
      obtain ⟨fv, h4, h5, _⟩ := kept v hmj
      exact ⟨u, v, eu, fv, h1, h4, fun h => hne (by rw [h]), h2, h5, h3⟩
    | plug p q =>
      rw [ho] at hmi hsame
      rw [ho'] at hmj hsame
      exact absurd hsame (inside u hmi p q hmj).1
  | plug p q =>
    cases ho' : origin j with
    | kept v =>
      rw [ho] at hmi hsame
      rw [ho'] at hmj hsame
      exact absurd hsame (inside v hmj p q hmi).2
    | plug p' q' =>
      rw [ho] at hmi hsame hne
      rw [ho'] at hmj hsame hne
      obtain ⟨h1, _⟩ := plug p q hmi
      obtain ⟨h2, _⟩ := plug p' q' hmj
      exfalso
      rcases hsame with hs | hs
      · simp only [PieceEdge.points, List.cons.injEq, and_true] at hs
        exact hne (by rw [hs.1, hs.2])
      · simp only [PieceEdge.points, List.reverse_cons, List.reverse_nil, List.nil_append, List.cons_append, List.cons.injEq,
          and_true] at hs
        obtain ⟨rfl, rfl⟩ := hs
        exact Point.lt_asymm h1 h2

/-- C120: if each segment of a topology lies on one edge, two edges of the clipped
topology lie on the same line only where the mask line cuts every segment: no two
adjacent points of theirs are inside of the mask, and each segment of theirs that
has an end inside is what a cut leaves of a segment of at least one of the two
edges. -/
theorem C120_cut {δ : Type} (m : Build) (mask : ClipMask) (t t' : Topology δ) (hw : WellFormed t) (hs : SegmentsOnce t)
    (h : clipTopology m t mask = .ok t') {i j : Nat} {e f : TopoEdge} (hi : t'.edges[i]? = some e)
    (hj : t'.edges[j]? = some f) (hij : i ≠ j) (hsame : SameLine e.points f.points) :
    ∃ (u v : Nat) (eu fv : TopoEdge), t.edges[u]? = some eu ∧ t.edges[v]? = some fv ∧ u ≠ v ∧
      clipEdge m mask eu.points = .ok e.points ∧ clipEdge m mask fv.points = .ok f.points ∧
      (∃ p ∈ e.points, 0 < depth mask p) ∧
      ∀ a b, [a, b] ∈ pairs e.points → ¬ (0 < depth mask a ∧ 0 < depth mask b) ∧
        (0 < depth mask a ∨ 0 < depth mask b →
          LeftOfCut m mask eu.points a b ∨ LeftOfCut m mask fv.points a b ∨ LeftOfCut m mask fv.points b a) := by
  obtain ⟨u, v, eu, fv, h1, h2, h3, h4, h5, h6⟩ := C120_origins m mask t t' hw h hi hj hij hsame
  refine ⟨u, v, eu, fv, h1, h2, h3, h4, h5, h6, fun a b hab => ?_⟩
  have main : 0 < depth mask a ∨ 0 < depth mask b →
      LeftOfCut m mask eu.points a b ∨ LeftOfCut m mask fv.points a b ∨ LeftOfCut m mask fv.points b a := by
    intro hin
    rcases step_of_clipEdge h4 hab hin with he | he
    · obtain ⟨n1, n2⟩ := segment_apart hs h1 h2 h3 he
      rcases hsame with hf | hf
      · rcases step_of_clipEdge h5 (a := a) (b := b) (by rw [hf]; exact hab) hin with h | h
        · exact absurd h n1
        · exact .inr (.inl h)
      · rcases step_of_clipEdge h5 (a := b) (b := a) (by rw [hf]; exact pairs_of_reverse hab) hin.symm with h | h
        · exact absurd h n2
        · exact .inr (.inr h)
    · exact .inl he
  refine ⟨fun hboth => ?_, main⟩
  rcases main (.inl hboth.1) with h | h | h <;> rcases onLine_of_cut h with h | h <;> omega

/-- C120: if the mask line cuts no segment between its ends, no two edges of the
clipped topology lie on the same line. -/
theorem C120_uncut {δ : Type} (m : Build) (mask : ClipMask) (t t' : Topology δ) (hw : WellFormed t) (hs : SegmentsOnce t)
    (h : clipTopology m t mask = .ok t') (hc : ∀ e ∈ t.edges, ∀ p q, [p, q] ∈ pairs e.points → ¬ Crosses mask p q)
    {i j : Nat} {e f : TopoEdge} (hi : t'.edges[i]? = some e) (hj : t'.edges[j]? = some f) (hij : i ≠ j) :
    ¬ SameLine e.points f.points := by
  intro hsame
  obtain ⟨u, v, eu, fv, h1, h2, _, h4, h5, ⟨p, hp, hpos⟩, hall⟩ := C120_cut m mask t t' hw hs h hi hj hij hsame
  have h7 := (C82_clip m mask t t' hw.extended h).extended e (List.mem_of_getElem? hi)
  have no1 : ∀ a b, ¬ LeftOfCut m mask eu.points a b := fun a b ⟨p, q, hpq, hx, _⟩ =>
    hc eu (List.mem_of_getElem? h1) p q hpq hx
  have no2 : ∀ a b, ¬ LeftOfCut m mask fv.points a b := fun a b ⟨p, q, hpq, hx, _⟩ =>
    hc fv (List.mem_of_getElem? h2) p q hpq hx
  obtain ⟨q, hq | hq⟩ := pair_of_mem (two_le_of_extended h7) hp
  · rcases (hall p q hq).2 (.inl hpos) with h | h | h
    · exact no1 _ _ h
    · exact no2 _ _ h
    · exact no2 _ _ h
  · rcases (hall q p hq).2 (.inr hpos) with h | h | h
    · exact no1 _ _ h
    · exact no2 _ _ h
    · exact no2 _ _ h

/-- C120 for topologies that were built from closed rings of points. -/
theorem C120_built {δ : Type} (m : Build) (mask : ClipMask) (rs : List (Region δ)) (t t' : Topology δ)
    (hb : buildTopology m rs = .ok t)
    (hp : ∀ r ∈ rs, ∀ ring ∈ r.outerRings ++ r.innerRings, ∃ ps, ring = .points ps)
    (hclosed : ∀ r ∈ rs, ∀ ring ∈ r.outerRings ++ r.innerRings, ringArea ring ≠ 0 → ClosedRing (ringPaths ring))
    (h : clipTopology m t mask = .ok t') {i j : Nat} {e f : TopoEdge} (hi : t'.edges[i]? = some e)
    (hj : t'.edges[j]? = some f) (hij : i ≠ j) (hsame : SameLine e.points f.points) :
    ∃ (u v : Nat) (eu fv : TopoEdge), t.edges[u]? = some eu ∧ t.edges[v]? = some fv ∧ u ≠ v ∧
      clipEdge m mask eu.points = .ok e.points ∧ clipEdge m mask fv.points = .ok f.points ∧
      (∃ p ∈ e.points, 0 < depth mask p) ∧
      ∀ a b, [a, b] ∈ pairs e.points → ¬ (0 < depth mask a ∧ 0 < depth mask b) ∧
        (0 < depth mask a ∨ 0 < depth mask b →
          LeftOfCut m mask eu.points a b ∨ LeftOfCut m mask fv.points a b ∨ LeftOfCut m mask fv.points b a) :=
  C120_cut m mask t t' (C82_well_formed m t (.built rs t hb hclosed)) (segments_of_points hb hp) h hi hj hij hsame

/-- Three regions, of which no point belongs to two. The one in the middle is a
narrow wedge to the right of (9, 10) and a triangle to the left of it. -/
def exWedge : List (Region Nat) :=
  [⟨1, [.points [⟨9, 10⟩, ⟨9, 0⟩, ⟨19, 0⟩, ⟨19, 10⟩, ⟨9, 10⟩]], []⟩,
   ⟨2, [.points [⟨9, 10⟩, ⟨19, 10⟩, ⟨19, 11⟩, ⟨9, 10⟩, ⟨5, 12⟩, ⟨5, 8⟩, ⟨9, 10⟩]], []⟩,
   ⟨3, [.points [⟨9, 10⟩, ⟨19, 11⟩, ⟨19, 20⟩, ⟨9, 20⟩, ⟨9, 10⟩]], []⟩]

def exWedgeTopology : Topology Nat := (buildTopology .debug exWedge).toOption.getD ⟨[], []⟩
def exWedgeNormal : Topology Nat := (normalize .debug exWedgeTopology).toOption.getD ⟨[], []⟩
def exWedgeClipped : Topology Nat := (clipTopology .debug exWedgeNormal (.maxX 10)).toOption.getD ⟨[], []⟩

theorem exWedge_built : buildTopology .debug exWedge = .ok exWedgeTopology := by decide +kernel
theorem exWedge_normal : normalize .debug exWedgeTopology = .ok exWedgeNormal := by decide +kernel
theorem exWedge_clipped : clipTopology .debug exWedgeNormal (.maxX 10) = .ok exWedgeClipped := by decide +kernel

theorem exWedge_closed : ∀ r ∈ exWedge, ∀ ring ∈ r.outerRings ++ r.innerRings, ringArea ring ≠ 0 →
    ClosedRing (ringPaths ring) := by
  simp only [exWedge, List.mem_cons, List.not_mem_nil, or_false, forall_eq_or_imp, forall_eq, List.append_nil]
  decide +kernel

theorem exWedge_upper (x y : ℚ) (h : Encloses (segs [⟨9, 10⟩, ⟨9, 0⟩, ⟨19, 0⟩, ⟨19, 10⟩, ⟨9, 10⟩]) x y) :
    9 ≤ x ∧ y < 10 := by
  revert h
  simp only [segs, encloses_cons, not_encloses_none, RayCrosses, Point.xi, Point.yi]
  norm_num
  grind

theorem exWedge_lower (x y : ℚ) (h : Encloses (segs [⟨9, 10⟩, ⟨19, 11⟩, ⟨19, 20⟩, ⟨9, 20⟩, ⟨9, 10⟩]) x y) :
    9 ≤ x ∧ 10 ≤ y ∧ (x - 9) / 10 < y - 10 := by
  revert h
  simp only [segs, encloses_cons, not_encloses_none, RayCrosses, Point.xi, Point.yi]
  norm_num
  grind

theorem exWedge_middle (x y : ℚ)
    (h : Encloses (segs [⟨9, 10⟩, ⟨19, 10⟩, ⟨19, 11⟩, ⟨9, 10⟩, ⟨5, 12⟩, ⟨5, 8⟩, ⟨9, 10⟩]) x y) :
    x < 9 ∨ (10 ≤ y ∧ y - 10 ≤ (x - 9) / 10) := by
  revert h
  simp only [segs, encloses_cons, not_encloses_none, RayCrosses, Point.xi, Point.yi]
  norm_num
  grind

/-- No point belongs to two of the regions. -/
theorem exWedge_apart (x y : ℚ) : (exWedge.countP fun r => Encloses (Spec.regionSegs r) x y) ≤ 1 := by
  have h1 := exWedge_upper x y
  have h2 := exWedge_middle x y
  have h3 := exWedge_lower x y
  simp only [exWedge, Spec.regionSegs, List.append_nil, List.flatMap_cons, List.flatMap_nil, ringSegs, List.countP_cons,
    List.countP_nil, decide_eq_true_eq]
  split_ifs with a b c c b c c <;> first | omega | skip
  all_goals grind

/-- C120, refuted: although no point belongs to two of its regions, and the
topology was normalized, two edges of the clipped topology have the same points,
and normalizing it again panics. Only one segment of each edge reaches the mask
line; `intersect` rounds both crossings to the same point. -/
theorem C120_refuted : ∃ (rs : List (Region Nat)) (t t1 t2 : Topology Nat) (mask : ClipMask),
    (∀ x y, (rs.countP fun r => Encloses (Spec.regionSegs r) x y) ≤ 1) ∧
    (∀ r ∈ rs, ∀ ring ∈ r.outerRings ++ r.innerRings, ringArea ring ≠ 0 → ClosedRing (ringPaths ring)) ∧
    buildTopology .debug rs = .ok t ∧ normalize .debug t = .ok t1 ∧ clipTopology .debug t1 mask = .ok t2 ∧
    (t1.edges.map (·.points)).Nodup ∧ ¬ (t2.edges.map (·.points)).Nodup ∧
    normalize .debug t2 = .error .assert ∧ normalize .release t2 = .error .assert :=
  ⟨exWedge, exWedgeTopology, exWedgeNormal, exWedgeClipped, .maxX 10, exWedge_apart, exWedge_closed, exWedge_built,
    exWedge_normal, exWedge_clipped, by decide +kernel, by decide +kernel, by decide +kernel, by decide +kernel⟩

/-- C120, refuted: edges of a clipped topology do not run from the smaller to the
larger end. -/
theorem C120_direction_refuted : ∃ (rs : List (Region Nat)) (t t' : Topology Nat) (mask : ClipMask),
    (∀ r ∈ rs, ∀ ring ∈ r.outerRings ++ r.innerRings, ringArea ring ≠ 0 → ClosedRing (ringPaths ring)) ∧
    buildTopology .debug rs = .ok t ∧ clipTopology .debug t mask = .ok t' ∧
    ∃ e ∈ t'.edges, ∃ p q, e.points = [p, q] ∧ q < p := by
  let rs : List (Region Nat) := [⟨1, [.points [⟨0, 10⟩, ⟨0, 20⟩, ⟨20, 20⟩, ⟨20, 0⟩, ⟨1, 0⟩, ⟨0, 10⟩]], []⟩]
  let t := (buildTopology .debug rs).toOption.getD ⟨[], []⟩
  let t' := (clipTopology .debug t (.minY 5)).toOption.getD ⟨[], []⟩
  refine ⟨rs, t, t', .minY 5, ?_, by decide +kernel, by decide +kernel, t'.edges[3]?.getD ⟨[], none, none⟩,
    by decide +kernel, ⟨0, 10⟩, ⟨0, 5⟩, by decide +kernel, by decide +kernel⟩
  simp only [rs, List.mem_cons, List.not_mem_nil, or_false, forall_eq, List.append_nil]
  decide +kernel

-- non-vacuity: the edges on the same line, and what they were before
example : WellFormed exWedgeTopology ∧ SegmentsOnce exWedgeTopology := by
  refine ⟨C82_well_formed .debug _ (.built exWedge _ exWedge_built exWedge_closed), ?_⟩
  unfold SegmentsOnce
  decide +kernel

example : ∃ t', clipTopology .debug exWedgeTopology (.maxX 10) = .ok t' ∧
    (exWedgeTopology.edges[3]?).map (·.points) = some [⟨9, 10⟩, ⟨19, 10⟩] ∧
    (exWedgeTopology.edges[5]?).map (·.points) = some [⟨9, 10⟩, ⟨19, 11⟩] ∧
    (t'.edges[2]?).map (·.points) = some [⟨9, 10⟩, ⟨10, 10⟩] ∧
    (t'.edges[3]?).map (·.points) = some [⟨9, 10⟩, ⟨10, 10⟩] :=
  ⟨(clipTopology .debug exWedgeTopology (.maxX 10)).toOption.getD ⟨[], []⟩, by decide +kernel, by decide +kernel,
    by decide +kernel, by decide +kernel, by decide +kernel⟩

-- non-vacuity of `C120_uncut`: the mask line meets the segments in their ends only
example : ∃ t', clipTopology .debug exWedgeTopology (.maxX 9) = .ok t' ∧ t'.regions ≠ [] ∧
    ∀ e ∈ exWedgeTopology.edges, ∀ s ∈ segs e.points, ¬ Crosses (.maxX 9) s.1 s.2 := by
  refine ⟨(clipTopology .debug exWedgeTopology (.maxX 9)).toOption.getD ⟨[], []⟩, by decide +kernel, by decide +kernel, ?_⟩
  unfold Crosses
  decide +kernel

end TopoGeo
