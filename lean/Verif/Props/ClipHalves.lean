import Verif.Proofs.ClipHalves
import Verif.Props.ClipRectangle
/-!
# Property C76: the two halves of a map that is cut along a line
-/

namespace TopoGeo

open Spec

theorem mem_visibleParts_of_pair {mask : ClipMask} {X : Point → Point → Point} {p q x : Point} {edge : List Point}
    (hpq : [p, q] ∈ pairs edge) (hx : x ∈ visiblePart mask X p q) : x ∈ (visibleParts mask X edge).flatten := by
  match edge with
  | [] => simp [pairs] at hpq
  | [_] => simp [pairs] at hpq
  | a :: b :: rest =>
    rw [visibleParts, List.flatten_cons, List.mem_append]
    simp only [pairs, List.mem_cons] at hpq
    rcases hpq with h | h
    · simp only [List.cons.injEq, and_true] at h
      obtain ⟨rfl, rfl⟩ := h
      exact Or.inl hx
    · exact Or.inr (mem_visibleParts_of_pair h hx)

theorem crossing_mem_visiblePart {mask : ClipMask} (X : Point → Point → Point) {p q : Point} (hc : Crosses mask p q) :
    X p q ∈ visiblePart mask X p q := by
  unfold visiblePart
  rcases hc with ⟨h1, h2⟩ | ⟨h1, h2⟩
  · rw [if_pos (Or.inr h2), if_pos h1]; simp
  · rw [if_pos (Or.inl h1), if_neg (by omega), if_pos h2]; simp

theorem crosses_mirror {mask : ClipMask} {p q : Point} (h : Crosses mask p q) : Crosses (mirror mask) p q := by
  unfold Crosses at *
  rw [depth_mirror, depth_mirror]
  omega

/-- C76: where a segment crosses the line, both halves of the edge have the same
point, and it is on the line. -/
theorem C76_seam {m : Build} {mask : ClipMask} {edge out out' : List Point} (h : clipEdge m mask edge = .ok out)
    (h' : clipEdge m (mirror mask) edge = .ok out') {p q : Point} (hpq : [p, q] ∈ pairs edge) (hc : Crosses mask p q) :
    ∃ x, mask.intersect m p q = .ok x ∧ depth mask x = 0 ∧ x ∈ out ∧ x ∈ out' := by
  obtain ⟨r, hr⟩ := C28_crossings h p q hpq hc
  obtain ⟨X, hX, hv⟩ := C28_visible h
  obtain ⟨X', hX', hv'⟩ := C28_visible h'
  refine ⟨r, hr, intersect_onLine hr, ?_, ?_⟩
  · rw [← mem_unrepeat, hv, mem_unrepeat, ← hX p q r hr]
    exact mem_visibleParts_of_pair hpq (crossing_mem_visiblePart X hc)
  · rw [← mem_unrepeat, hv', mem_unrepeat, ← hX' p q r (by rw [intersect_mirror]; exact hr)]
    exact mem_visibleParts_of_pair hpq (crossing_mem_visiblePart X' (crosses_mirror hc))

/-- C76: if a map of closed rings is cut along a line, then but for rounding each
region's area is the sum of the areas of its two halves. -/
theorem C76_area {δ : Type} (m : Build) (mask : ClipMask) (t t₁ t₂ : Topology δ)
    (h₁ : clipTopology m t mask = .ok t₁) (h₂ : clipTopology m t (mirror mask) = .ok t₂)
    (hlen : ∀ e ∈ t.edges, 2 ≤ e.points.length)
    (hclosed : ∀ ring ∈ allRings t, ∃ paths, ReadsAs t.edges paths ring ∧ ClosedRing paths)
    (hprod : ProductsFit mask t)
    (hfit₁ : LeftoversFit m mask t) (hfit₂ : LeftoversFit m (mirror mask) t)
    (hholes₁ : HolesFollow m mask t) (hholes₂ : HolesFollow m (mirror mask) t) :
    ∃ L₁ L₂, Survivors t t₁ L₁ ∧ Survivors t t₂ L₂ ∧ ∀ (i : Nat) (r : TopoRegion δ), t.regions[i]? = some r →
      ∃ o₁ o₂, L₁[i]? = some o₁ ∧ L₂[i]? = some o₂ ∧
        (o₁.elim 0 (topoRegionArea t₁.edges) + o₂.elim 0 (topoRegionArea t₂.edges) - topoRegionArea t.edges r).natAbs ≤
          regionRounding mask t.edges r := by
  obtain ⟨cs₁, L₁, hcs₁, hs₁, ha₁⟩ := clipped_areas h₁ hfit₁ hholes₁
  obtain ⟨cs₂, L₂, hcs₂, hs₂, ha₂⟩ := clipped_areas h₂ hfit₂ hholes₂
  refine ⟨L₁, L₂, hs₁, hs₂, fun i r hr => ?_⟩
  obtain ⟨o₁, ho₁, e₁⟩ := forall₂_getElem?_exists ha₁ hr
  obtain ⟨o₂, ho₂, e₂⟩ := forall₂_getElem?_exists ha₂ hr
  refine ⟨o₁, o₂, ho₁, ho₂, ?_⟩
  rw [e₁, e₂]
  unfold topoRegionArea regionRounding
  rw [sum_combine]
  apply natAbs_sum_le
  intro ring hring
  obtain ⟨paths, hp, hc⟩ := hclosed ring (List.mem_flatMap.mpr ⟨r, List.mem_of_getElem? hr, hring⟩)
  exact ring_both hcs₁ hcs₂ hlen hprod hp hc

/-- C76: in a checked build, that it does not panic is enough. -/
theorem C76_checked {δ : Type} (mask : ClipMask) (t t' : Topology δ) (h : clipTopology .debug t mask = .ok t') :
    ProductsFit mask t ∧ LeftoversFit .debug mask t := by
  constructor
  · obtain ⟨cs, hcs, _⟩ := clipTopology_ok h
    intro e he p q hpq hc
    obtain ⟨c, _, hce⟩ := forall₂_exists_right hcs he
    obtain ⟨r, hr⟩ := C28_crossings hce p q hpq hc
    by_contra hcon
    have := (C25_debug hc).mpr hcon
    rw [this] at hr
    cases hr
  · simp only [clipTopology, bind_ok] at h
    obtain ⟨b, h1, ⟨regions, b'⟩, h2, h⟩ := h
    obtain ⟨cs, hcs, hb, hne⟩ := clipBuilder_new_ok h1
    intro cs' hcs'
    obtain rfl : cs' = cs := by rw [clippedBy_eq hcs, clippedBy_eq hcs']
    exact clipRegions_fits (ks := []) hb hne h2

/-- C76: so in a debug build, cutting a map of closed rings whose holes follow
their regions conserves areas but for rounding. -/
theorem C76_debug {δ : Type} (mask : ClipMask) (t t₁ t₂ : Topology δ)
    (h₁ : clipTopology .debug t mask = .ok t₁) (h₂ : clipTopology .debug t (mirror mask) = .ok t₂)
    (hlen : ∀ e ∈ t.edges, 2 ≤ e.points.length)
    (hclosed : ∀ ring ∈ allRings t, ∃ paths, ReadsAs t.edges paths ring ∧ ClosedRing paths)
    (hholes₁ : HolesFollow .debug mask t) (hholes₂ : HolesFollow .debug (mirror mask) t) :
    ∃ L₁ L₂, Survivors t t₁ L₁ ∧ Survivors t t₂ L₂ ∧ ∀ (i : Nat) (r : TopoRegion δ), t.regions[i]? = some r →
      ∃ o₁ o₂, L₁[i]? = some o₁ ∧ L₂[i]? = some o₂ ∧
        (o₁.elim 0 (topoRegionArea t₁.edges) + o₂.elim 0 (topoRegionArea t₂.edges) - topoRegionArea t.edges r).natAbs ≤
          regionRounding mask t.edges r :=
  C76_area .debug mask t t₁ t₂ h₁ h₂ hlen hclosed (C76_checked mask t t₁ h₁).1 (C76_checked mask t t₁ h₁).2
    (C76_checked (mirror mask) t t₂ h₂).2 hholes₁ hholes₂

-- non-vacuity: two regions are cut, the third is on one side

/-- The right half of the example. -/
def exClippedRight : Topology String :=
  match clipTopology .debug exClipTopology (.minX 20) with
  | .ok t => t
  | .error _ => ⟨[], []⟩

theorem exClip_clipped_right : clipTopology .debug exClipTopology (mirror (.maxX 20)) = .ok exClippedRight := by
  decide +kernel

example : ∀ e ∈ exClipTopology.edges, 2 ≤ e.points.length := by decide +kernel

example : ∀ ring ∈ allRings exClipTopology, ∃ paths, ReadsAs exClipTopology.edges paths ring ∧ ClosedRing paths := by
  intro ring hring
  refine ⟨ring.directedEdges.map fun de => (walk exClipTopology.edges de).getD [], ?_, ?_⟩
  · revert ring; unfold ReadsAs; decide +kernel
  · revert ring; decide +kernel

example : HolesFollow .debug (.maxX 20) exClipTopology ∧ HolesFollow .debug (mirror (.maxX 20)) exClipTopology := by
  constructor <;>
  · intro cs hcs
    rw [clippedBy_eq hcs]
    decide +kernel

example : exClipTopology.regions.map (fun r => (r.data, topoRegionArea exClipTopology.edges r,
      regionRounding (.maxX 20) exClipTopology.edges r)) = [("A", 400, 40), ("B", 800, 40), ("right", 100, 0)] ∧
    exClipped.regions.map (fun r => (r.data, topoRegionArea exClipped.edges r)) = [("A", 200), ("B", 400)] ∧
    exClippedRight.regions.map (fun r => (r.data, topoRegionArea exClippedRight.edges r)) =
      [("A", 200), ("B", 400), ("right", 100)] := by decide +kernel

/-- A triangle whose sides cross the line x = 5 between integers. -/
def exTilted : Topology Nat :=
  match buildTopology .debug [⟨1, [.points [⟨0, 0⟩, ⟨9, 4⟩, ⟨2, 9⟩, ⟨0, 0⟩]], []⟩] with
  | .ok t => t
  | .error _ => ⟨[], []⟩

-- the areas of its halves add up to 76 rather than 73; 16 is what rounding may do
example : exTilted.regions.map (topoRegionArea exTilted.edges) = [73] ∧
    exTilted.regions.map (regionRounding (.maxX 5) exTilted.edges) = [16] ∧
    ((clipTopology .debug exTilted (.maxX 5)).toOption.map fun t => t.regions.map (topoRegionArea t.edges)) = some [56] ∧
    ((clipTopology .debug exTilted (.minX 5)).toOption.map fun t => t.regions.map (topoRegionArea t.edges)) = some [20] := by
  decide +kernel

end TopoGeo
