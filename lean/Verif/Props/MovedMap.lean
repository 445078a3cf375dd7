import Verif.Proofs.MovedClip
import Verif.Proofs.MovedNormalize
import Verif.Spec.Retag
/-!
# C95 — moving the map, and C96 — tagging regions with something else
-/

namespace TopoGeo

open Spec

/-! ## C95 — what is computed does not depend on where the map is -/

/-- **C95.** Building the topology of a map that is moved moves the topology: the
same regions are kept, with the same rings of the same edges. -/
theorem C95_build {δ ε : Type} (m : Build) (dx dy : Int) (D : δ → ε → Prop) (rs : List (Region δ)) (ss : List (Region ε))
    (h : List.Forall₂ (SameRegion (Moved dx dy) D) rs ss)
    (hc : ∀ r ∈ rs, ∀ ring ∈ r.outerRings ++ r.innerRings, RingCloses ring) :
    Agree (m = .debug) (SameTopology (Moved dx dy) D) (buildTopology m rs) (buildTopology m ss) :=
  buildTopology_agree (moved_rigid m dx dy) h (.inr hc)

/-- **C95.** The same for clipping, if the mask moves along: even the rounded crossings,
and those whose product wraps, move exactly. -/
theorem C95_clip {δ ε : Type} (m : Build) (dx dy : Int) (D : δ → ε → Prop) (t : Topology δ) (u : Topology ε)
    (mask mask' : ClipMask) (hm : MovedMask dx dy mask mask') (h : SameTopology (Moved dx dy) D t u) :
    Agree (m = .debug) (SameTopology (Moved dx dy) D) (clipTopology m t mask) (clipTopology m u mask') :=
  clipTopology_agree (moved_rigid m dx dy) (moved_masks m hm) h

/-- **C95.** The same for normalizing. -/
theorem C95_normalize {δ ε : Type} (m : Build) (dx dy : Int) (D : δ → ε → Prop) (t : Topology δ) (u : Topology ε)
    (h : SameTopology (Moved dx dy) D t u) (hb : BackPointersExact t) (hc : RingsClosed t) :
    Agree (m = .debug) (SameTopology (Moved dx dy) D) (normalize m t) (normalize m u) :=
  normalize_agree (moved_rigid m dx dy) (.inr ⟨hb, hc⟩) h

/-! ### The hypotheses can be met -/

/-- Two squares side by side, one of them with a hole. -/
def exPlaced (dx dy : UInt32) (a b : String) : List (Region String) :=
  [⟨a, [.points [⟨dx + 0, dy + 0⟩, ⟨dx + 9, dy + 0⟩, ⟨dx + 9, dy + 9⟩, ⟨dx + 0, dy + 9⟩, ⟨dx + 0, dy + 0⟩]],
    [.points [⟨dx + 3, dy + 3⟩, ⟨dx + 3, dy + 6⟩, ⟨dx + 6, dy + 6⟩, ⟨dx + 3, dy + 3⟩]]⟩,
   ⟨b, [.edges [[⟨dx + 9, dy + 0⟩, ⟨dx + 18, dy + 4⟩, ⟨dx + 9, dy + 9⟩], [⟨dx + 9, dy + 9⟩, ⟨dx + 9, dy + 0⟩]]], []⟩]

/-- Its topology. -/
def exPlacedTopology (dx dy : UInt32) (a b : String) : Topology String :=
  (buildTopology .debug (exPlaced dx dy a b)).toOption.getD ⟨[], []⟩

/-- Where points are. -/
def pointsOf (rs : List (Region String)) : List Point :=
  rs.flatMap fun r => (r.outerRings ++ r.innerRings).flatMap fun ring => match ring with
    | .points ps => ps
    | .edges es => es.flatten

example : (∀ r ∈ exPlaced 0 0 "A" "B", ∀ ring ∈ r.outerRings ++ r.innerRings, RingCloses ring) ∧
    List.Forall₂ (Moved 100 7) (pointsOf (exPlaced 0 0 "A" "B")) (pointsOf (exPlaced 100 7 "C" "D")) ∧
    (exPlacedTopology 0 0 "A" "B").edges.length = 8 ∧ (exPlacedTopology 100 7 "C" "D").edges.length = 8 ∧
    MovedMask 100 7 (.minX 5) (.minX 105) := by
  refine ⟨by decide +kernel, ?_, by decide +kernel, by decide +kernel, rfl⟩
  simp only [pointsOf, exPlaced, List.flatMap_cons, List.flatMap_nil, List.append_nil, List.nil_append, List.cons_append,
    List.flatten_cons, List.flatten_nil]
  repeat' first | exact List.Forall₂.nil | refine List.Forall₂.cons ?_ ?_
  all_goals exact ⟨by decide, by decide⟩

example : SameRegion (Moved 100 7) (fun _ _ => True) (⟨"A", [.points [⟨0, 0⟩, ⟨9, 4⟩, ⟨0, 9⟩, ⟨0, 0⟩]], []⟩ : Region String)
    (⟨5, [.points [⟨100, 7⟩, ⟨109, 11⟩, ⟨100, 16⟩, ⟨100, 7⟩]], []⟩ : Region Nat) := by
  refine ⟨trivial, .cons ?_ .nil, .nil⟩
  repeat' first | exact List.Forall₂.nil | refine List.Forall₂.cons ?_ ?_
  all_goals exact ⟨by decide, by decide⟩

example : SameTopology (Moved 0 1) (fun _ _ => True)
    (⟨[⟨"A", [⟨[⟨0, .forward⟩], some 0⟩], []⟩], [⟨[⟨0, 0⟩, ⟨9, 4⟩, ⟨0, 9⟩, ⟨0, 0⟩], some ⟨0, false, 0⟩, none⟩]⟩ : Topology String)
    (⟨[⟨5, [⟨[⟨0, .forward⟩], some 0⟩], []⟩], [⟨[⟨0, 1⟩, ⟨9, 5⟩, ⟨0, 10⟩, ⟨0, 1⟩], some ⟨0, false, 0⟩, none⟩]⟩ : Topology Nat) := by
  refine ⟨.cons ⟨trivial, rfl, rfl⟩ .nil, .cons ⟨?_, rfl, rfl⟩ .nil⟩
  repeat' first | exact List.Forall₂.nil | refine List.Forall₂.cons ?_ ?_
  all_goals exact ⟨by decide, by decide⟩

/-- Rings have to be closed: what counts as the area of an open one depends on where
it is, so that it is dropped in one place and kept in another. -/
theorem C95_open_refuted : ¬ ∀ (dx dy : Int) (rs ss : List (Region String)),
    List.Forall₂ (SameRegion (Moved dx dy) (· = ·)) rs ss →
    Agree False (SameTopology (Moved dx dy) (· = ·)) (buildTopology .release rs) (buildTopology .release ss) := by
  intro h
  have := h 0 1 [⟨"A", [.points [⟨0, 0⟩, ⟨1, 0⟩]], []⟩] [⟨"A", [.points [⟨0, 1⟩, ⟨1, 1⟩]], []⟩]
    (.cons ⟨rfl, .cons (.cons ⟨by decide, by decide⟩ (.cons ⟨by decide, by decide⟩ .nil)) .nil, .nil⟩ .nil)
  have e1 : buildTopology .release ([⟨"A", [.points [⟨0, 0⟩, ⟨1, 0⟩]], []⟩] : List (Region String)) = .ok ⟨[], []⟩ := by
    decide +kernel
  have e2 : buildTopology .release ([⟨"A", [.points [⟨0, 1⟩, ⟨1, 1⟩]], []⟩] : List (Region String)) =
      .ok ⟨[⟨"A", [⟨[⟨0, .forward⟩], some 0⟩], []⟩], [⟨[⟨0, 1⟩, ⟨1, 1⟩], some ⟨0, false, 0⟩, none⟩]⟩ := by
    decide +kernel
  rw [e1, e2] at this
  cases this.regions

/-- A checked build may overflow in one place and not in another: products of
coordinates are larger far from the origin. -/
theorem C95_checked_refuted : ¬ ∀ (dx dy : Int) (rs ss : List (Region String)),
    List.Forall₂ (SameRegion (Moved dx dy) (· = ·)) rs ss →
    (∀ r ∈ rs, ∀ ring ∈ r.outerRings ++ r.innerRings, RingCloses ring) →
    Agree False (SameTopology (Moved dx dy) (· = ·)) (buildTopology .debug rs) (buildTopology .debug ss) := by
  intro h
  have := h 4294967286 4294967286 [⟨"A", [.points [⟨0, 0⟩, ⟨9, 4⟩, ⟨0, 9⟩, ⟨0, 0⟩]], []⟩]
    [⟨"A", [.points [⟨4294967286, 4294967286⟩, ⟨4294967295, 4294967290⟩, ⟨4294967286, 4294967295⟩, ⟨4294967286, 4294967286⟩]], []⟩]
    (.cons ⟨rfl, .cons (.cons ⟨by decide, by decide⟩ (.cons ⟨by decide, by decide⟩ (.cons ⟨by decide, by decide⟩
      (.cons ⟨by decide, by decide⟩ .nil)))) .nil, .nil⟩ .nil) (by decide +kernel)
  have e1 : (buildTopology .debug ([⟨"A", [.points [⟨0, 0⟩, ⟨9, 4⟩, ⟨0, 9⟩, ⟨0, 0⟩]], []⟩] : List (Region String))).isOk = true := by
    decide +kernel
  have e2 : buildTopology .debug ([⟨"A", [.points [⟨4294967286, 4294967286⟩, ⟨4294967295, 4294967290⟩,
      ⟨4294967286, 4294967295⟩, ⟨4294967286, 4294967286⟩]], []⟩] : List (Region String)) = .error .overflow := by
    decide +kernel
  rw [e2] at this
  cases hb : buildTopology .debug ([⟨"A", [.points [⟨0, 0⟩, ⟨9, 4⟩, ⟨0, 9⟩, ⟨0, 0⟩]], []⟩] : List (Region String)) with
  | error e => rw [hb] at e1; cases e1
  | ok t =>
    rw [hb] at this
    exact this.1

/-! ## C96 — what regions are tagged with is carried along and never looked at -/

theorem sameTopology_retag {δ ε : Type} {f : δ → ε} {t : Topology δ} {u : Topology ε}
    (h : SameTopology (· = ·) (fun a b => b = f a) t u) : u = retag f t := by
  obtain ⟨h1, h2⟩ := h
  obtain ⟨tr, te⟩ := t
  obtain ⟨ur, ue⟩ := u
  have e1 : ur = tr.map fun r => ⟨f r.data, r.outerRings, r.innerRings⟩ := by
    dsimp only at h1
    clear h2
    induction h1 with
    | nil => rfl
    | @cons a b _ _ h _ ih =>
      obtain ⟨h3, h4, h5⟩ := h
      cases a
      cases b
      dsimp only at h3 h4 h5
      rw [List.map_cons, ← ih, h3, h4, h5]
  have e2 : ue = te := by
    dsimp only at h2
    clear h1 e1
    induction h2 with
    | nil => rfl
    | @cons a b _ _ h _ ih =>
      obtain ⟨h3, h4, h5⟩ := h
      cases a
      cases b
      dsimp only at h3 h4 h5
      rw [ih, h4, h5, forall₂_fixed (fun _ _ h => h) h3]
  rw [e1, e2]
  rfl

theorem retag_sameTopology {δ ε : Type} (f : δ → ε) (t : Topology δ) :
    SameTopology (· = ·) (fun a b => b = f a) t (retag f t) := by
  constructor
  · show List.Forall₂ _ t.regions (t.regions.map _)
    rw [List.forall₂_map_right_iff]
    exact List.forall₂_same.mpr fun r _ => ⟨rfl, rfl, rfl⟩
  · exact List.forall₂_same.mpr fun e _ => ⟨List.forall₂_same.mpr fun _ _ => rfl, rfl, rfl⟩

theorem agree_retag {δ ε : Type} {f : δ → ε} {x : R (Topology δ)} {y : R (Topology ε)}
    (h : Agree False (SameTopology (· = ·) (fun a b => b = f a)) x y) : y = x.map (retag f) := by
  cases x with
  | error e =>
    cases y with
    | error e' =>
      rcases h with rfl | ⟨h, _⟩
      · rfl
      · exact h.elim
    | ok u => exact h.1.elim
  | ok t =>
    cases y with
    | error e' => exact h.1.elim
    | ok u =>
      rw [sameTopology_retag h]
      rfl

/-- **C96.** Building commutes with changing data: nothing else depends on it, not even
whether there is a panic. -/
theorem C96_build {δ ε : Type} (m : Build) (f : δ → ε) (rs : List (Region δ)) :
    buildTopology m (rs.map (retagRegion f)) = (buildTopology m rs).map (retag f) := by
  apply agree_retag
  refine buildTopology_agree (same_rigid m) ?_ (.inl fun _ _ h => h)
  rw [List.forall₂_map_right_iff]
  refine List.forall₂_same.mpr fun r _ => ⟨rfl, ?_, ?_⟩
  · refine List.forall₂_same.mpr fun ring _ => ?_
    cases ring with
    | points ps => exact List.forall₂_same.mpr fun _ _ => rfl
    | edges es => exact List.forall₂_same.mpr fun _ _ => List.forall₂_same.mpr fun _ _ => rfl
  · refine List.forall₂_same.mpr fun ring _ => ?_
    cases ring with
    | points ps => exact List.forall₂_same.mpr fun _ _ => rfl
    | edges es => exact List.forall₂_same.mpr fun _ _ => List.forall₂_same.mpr fun _ _ => rfl

/-- **C96.** So does clipping. -/
theorem C96_clip {δ ε : Type} (m : Build) (f : δ → ε) (t : Topology δ) (mask : ClipMask) :
    clipTopology m (retag f t) mask = (clipTopology m t mask).map (retag f) :=
  agree_retag (clipTopology_agree (same_rigid m) (same_masks m mask) (retag_sameTopology f t))

/-- **C96.** So does normalizing. -/
theorem C96_normalize {δ ε : Type} (m : Build) (f : δ → ε) (t : Topology δ) :
    normalize m (retag f t) = (normalize m t).map (retag f) :=
  agree_retag (normalize_agree (same_rigid m) (.inl fun _ _ h => h) (retag_sameTopology f t))

/-- **C96.** So does simplifying. -/
theorem C96_simplify {δ ε : Type} (m : Build) (f : δ → ε) (t : Topology δ) (s : Nat) :
    simplify m (retag f t) s = (simplify m t s).map (retag f) := by
  unfold simplify
  show simplifyEdges m s t.edges >>= _ = _
  cases simplifyEdges m s t.edges <;> rfl

-- non-vacuity
example : (exPlaced 0 0 "A" "B").map (retagRegion String.length) ≠ [] ∧
    ((buildTopology .debug (exPlaced 0 0 "A" "Bc")).map (retag String.length)).toOption.map (fun t => t.regions.map (·.data)) =
      some [1, 2] := by decide +kernel

end TopoGeo
