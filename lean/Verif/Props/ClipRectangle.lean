import Verif.Props.Clip
import Verif.Props.ClipTopology
/-!
# Property C67: clipping by a rectangle, one side after the other

README.md: "Clips a topology along a single axis (do this four times to clip by
rectangle)".
-/

namespace TopoGeo
open Spec

theorem mem_unrepeat {x : Point} (l : List Point) : x ∈ unrepeat l ↔ x ∈ l := by
  match l with
  | [] => rfl
  | [_] => rfl
  | p :: q :: rest =>
    have ih := mem_unrepeat (x := x) (q :: rest)
    rw [unrepeat]
    split
    · rename_i h
      subst h
      rw [ih]
      simp
    · rw [List.mem_cons, ih, List.mem_cons (a := x) (b := p)]

theorem mem_visibleParts {mask : ClipMask} {X : Point → Point → Point} {x : Point} {edge : List Point}
    (h : x ∈ (visibleParts mask X edge).flatten) :
    x ∈ edge ∨ ∃ p q, [p, q] ∈ pairs edge ∧ Crosses mask p q ∧ x = X p q := by
  match edge with
  | [] => simp [visibleParts] at h
  | [_] => simp [visibleParts] at h
  | p :: q :: rest =>
    rw [visibleParts, List.flatten_cons, List.mem_append] at h
    rcases h with h | h
    · unfold visiblePart at h
      split at h
      · rename_i h1
        split at h
        · simp only [List.mem_cons, List.not_mem_nil, or_false] at h
          rcases h with rfl | rfl
          · exact Or.inr ⟨p, q, by simp [pairs], Or.inl ⟨by assumption, by omega⟩, rfl⟩
          · exact Or.inl (by simp)
        · split at h
          · simp only [List.mem_cons, List.not_mem_nil, or_false] at h
            rcases h with rfl | rfl
            · exact Or.inl (by simp)
            · exact Or.inr ⟨p, q, by simp [pairs], Or.inr ⟨by omega, by assumption⟩, rfl⟩
          · simp only [List.mem_cons, List.not_mem_nil, or_false] at h
            rcases h with rfl | rfl <;> exact Or.inl (by simp)
      · simp at h
    · rcases mem_visibleParts h with h | ⟨a, b, h1, h2, h3⟩
      · exact Or.inl (List.mem_cons_of_mem _ h)
      · exact Or.inr ⟨a, b, by rw [pairs]; exact List.mem_cons_of_mem _ h1, h2, h3⟩

/-- A crossing that `intersect` computes is between the two points. -/
theorem crossing_between {m : Build} {mask : ClipMask} {p q r : Point} (hc : Crosses mask p q)
    (h : mask.intersect m p q = .ok r) (box : ClipMask)
    (hp : 0 ≤ depth box p) (hq : 0 ≤ depth box q) : 0 ≤ depth box r := by
  have hr : tested mask r = bound mask ∧
      min (other mask p) (other mask q) ≤ other mask r ∧ other mask r ≤ max (other mask p) (other mask q) := by
    cases m with
    | release =>
      obtain ⟨r', h1, h2⟩ := C25_release_between hc
      rw [h] at h1
      obtain rfl := Except.ok.inj h1
      exact h2
    | debug =>
      by_cases hin : InI64 (crossProduct mask p q)
      · obtain ⟨r', h1, h2, h3, h4, _⟩ := C25_intersect .debug hc hin
        rw [h] at h1
        obtain rfl := Except.ok.inj h1
        exact ⟨h2, h3, h4⟩
      · rw [(C25_debug hc).mpr hin] at h
        cases h
  obtain ⟨h2, h3, h4⟩ := hr
  have hb := crosses_between hc
  cases mask <;> cases box <;> simp only [depth, tested, bound, other] at * <;> omega

theorem mem_pairs {a b : Point} {l : List Point} (h : [a, b] ∈ pairs l) : a ∈ l ∧ b ∈ l := by
  match l with
  | [] => simp [pairs] at h
  | [_] => simp [pairs] at h
  | p :: q :: rest =>
    rw [pairs, List.mem_cons] at h
    rcases h with h | h
    · obtain ⟨rfl, rfl⟩ : a = p ∧ b = q := by simpa using h
      simp
    · have := mem_pairs h
      exact ⟨List.mem_cons_of_mem _ this.1, List.mem_cons_of_mem _ this.2⟩

/-- C67: clipping an edge never leaves a half-plane that contained it. -/
theorem C67_edge {m : Build} {mask : ClipMask} {edge out : List Point} (h : clipEdge m mask edge = .ok out)
    (box : ClipMask) (hb : ∀ p ∈ edge, 0 ≤ depth box p) : ∀ p ∈ out, 0 ≤ depth box p := by
  obtain ⟨X, h1, h2⟩ := C28_visible h
  have h3 := C28_crossings h
  intro x hx
  rw [← mem_unrepeat, h2, mem_unrepeat] at hx
  rcases mem_visibleParts hx with hx | ⟨p, q, hpq, hc, rfl⟩
  · exact hb x hx
  · obtain ⟨r, hr⟩ := h3 p q hpq hc
    rw [h1 p q r hr]
    obtain ⟨hp, hq⟩ := mem_pairs hpq
    exact crossing_between hc hr box (hb p hp) (hb q hq)

/-- Clipping never leaves a half-plane that contained everything. -/
theorem clipTopology_box {δ : Type} {m : Build} {mask : ClipMask} {t t' : Topology δ}
    (h : clipTopology m t mask = .ok t') (box : ClipMask)
    (hb : ∀ e ∈ t.edges, ∀ p ∈ e.points, 0 ≤ depth box p) : ∀ e ∈ t'.edges, ∀ p ∈ e.points, 0 ≤ depth box p := by
  obtain ⟨cs, hcs, hf⟩ := clipTopology_ok h
  obtain ⟨_, h2, _⟩ := finishTopology_backPointers hf
  have hc : ∀ c ∈ cs, ∀ p ∈ c, 0 ≤ depth box p := by
    intro c hc p hp
    obtain ⟨e, hmem, he⟩ := forall₂_exists_left hcs hc
    exact C67_edge he box (hb e hmem) p hp
  intro e he p hp
  have hmem : e.points ∈ clippedPoints cs t := by rw [← h2]; exact List.mem_map_of_mem he
  rcases List.mem_append.mp hmem with hmem | hmem
  · exact hc _ (List.mem_filter.mp hmem).1 p hp
  · obtain ⟨⟨a, b⟩, hk, hab⟩ := List.mem_map.mp hmem
    obtain ⟨r, _, ring, _, pc, hpc, hpe⟩ := plug_mem_newKeys hk
    obtain ⟨⟨c1, h3, h4⟩, c2, h5, h6⟩ := plug_ends hpc hpe
    rw [← hab] at hp
    simp only [List.mem_cons, List.not_mem_nil, or_false] at hp
    rcases hp with rfl | rfl
    · exact hc _ h3 _ h4
    · exact hc _ h5 _ h6

/-- C67: after clipping with several masks, one after the other, everything lies
within all of them, and within each half-plane in which everything lay
before. -/
theorem C67_rectangle {δ : Type} (m : Build) (masks : List ClipMask) (t t' : Topology δ)
    (h : masks.foldlM (fun t mask => clipTopology m t mask) t = .ok t') :
    (∀ mask ∈ masks, ∀ e ∈ t'.edges, ∀ p ∈ e.points, 0 ≤ depth mask p) ∧
    ∀ box : ClipMask, (∀ e ∈ t.edges, ∀ p ∈ e.points, 0 ≤ depth box p) →
      ∀ e ∈ t'.edges, ∀ p ∈ e.points, 0 ≤ depth box p := by
  induction masks generalizing t with
  | nil =>
    obtain rfl := Except.ok.inj h
    exact ⟨by simp, fun box hb => hb⟩
  | cons mask masks ih =>
    rw [List.foldlM_cons, bind_ok] at h
    obtain ⟨t1, h1, h⟩ := h
    obtain ⟨h2, h3⟩ := ih t1 h
    refine ⟨?_, fun box hb => h3 box (clipTopology_box h1 box hb)⟩
    intro mask' hmask
    rcases List.mem_cons.mp hmask with rfl | hmask
    · exact h3 mask' (C32_inside m mask' t t1 h1)
    · exact h2 mask' hmask

/-- C67: each of its rings is closed, and back pointers are exact, provided there
is a mask. -/
theorem C67_closed {δ : Type} (m : Build) (masks : List ClipMask) (hne : masks ≠ []) (t t' : Topology δ)
    (h : masks.foldlM (fun t mask => clipTopology m t mask) t = .ok t') :
    BackPointersExact t' ∧ ∀ ring ∈ allRings t', ∃ paths, ReadsAs t'.edges paths ring ∧ ClosedRing paths := by
  induction masks generalizing t with
  | nil => exact absurd rfl hne
  | cons mask masks ih =>
    rw [List.foldlM_cons, bind_ok] at h
    obtain ⟨t1, h1, h⟩ := h
    cases masks with
    | nil =>
      obtain rfl := Except.ok.inj h
      exact ⟨C33_back_pointers m mask t t1 h1, C30_closed m mask t t1 h1⟩
    | cons mask' masks => exact ih (by simp) t1 h

/-- C67: its regions are among the original ones, in order, with their data. -/
theorem C67_regions {δ : Type} (m : Build) (masks : List ClipMask) (t t' : Topology δ)
    (h : masks.foldlM (fun t mask => clipTopology m t mask) t = .ok t') :
    (t'.regions.map (·.data)).Sublist (t.regions.map (·.data)) := by
  induction masks generalizing t with
  | nil =>
    obtain rfl := Except.ok.inj h
    exact List.Sublist.refl _
  | cons mask masks ih =>
    rw [List.foldlM_cons, bind_ok] at h
    obtain ⟨t1, h1, h⟩ := h
    refine (ih t1 h).trans ?_
    obtain ⟨cs, _, h2⟩ := C31_regions m mask t t1 h1
    have hdata : ∀ (ks : List (ClippedRegion δ)) (rs : List (TopoRegion δ)), List.Forall₂ (fun k r => r.data = k.data) ks rs →
        rs.map (·.data) = ks.map (·.data) := by
      intro ks rs h
      induction h with
      | nil => rfl
      | cons h3 _ ih => rw [List.map_cons, List.map_cons, h3, ih]
    rw [hdata _ _ (h2.imp fun _ _ h => h.1)]
    unfold clippedRegions
    rw [List.map_map]
    exact List.Sublist.map _ List.filter_sublist

/-- Non-vacuity: the example topology clipped to a rectangle. -/
example : ([ClipMask.minX 15, .maxX 45, .minY 12, .maxY 30].foldlM (fun t mask => clipTopology .debug t mask) exClipTopology
    |>.toOption.map fun t' => (t'.regions.map (·.data), t'.edges.map fun e => e.points.map fun p => (p.x.toNat, p.y.toNat))) =
    some (["A", "B", "right"], [[(30, 12), (30, 20)], [(15, 20), (30, 20)], [(30, 20), (30, 30)], [(42, 12), (45, 15)],
      [(15, 12), (15, 20)], [(15, 20), (15, 30)], [(45, 12), (45, 15)], [(15, 12), (30, 12)], [(42, 12), (45, 12)],
      [(15, 30), (30, 30)]]) := by decide +kernel

end TopoGeo
