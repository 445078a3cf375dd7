import Mathlib.Data.List.Nodup
import Verif.Props.Topology
import Verif.Proofs.ClipTopology
/-!
# Properties C30-C37 and the second half of C13: `clip_topology`
(`src/clip/topology.rs`)
-/

namespace TopoGeo

open Spec

/-! ## Helpers -/

/-- What the rings of the clipped topology consist of. -/
theorem clip_rings {δ : Type} {cs : List (List Point)} {t t' : Topology δ}
    (h : finishTopology (clippedPoints cs t) (clippedBuild cs t) = .ok t') :
    List.Forall₂ (fun (k : ClippedRegion δ) (r : TopoRegion δ) =>
      k ∈ clippedRegions cs t.regions ∧ r.data = k.data ∧
      List.Forall₂ (fun ps (ring : TopoRing) => ring.directedEdges =
        ps.map (toDE cs (cs.filter (· ≠ [])).length (newKeys cs t))) k.outer r.outerRings ∧
      List.Forall₂ (fun ps (ring : TopoRing) => ring.directedEdges =
        ps.map (toDE cs (cs.filter (· ≠ [])).length (newKeys cs t))) k.inner r.innerRings)
      (clippedRegions cs t.regions) t'.regions := by
  obtain ⟨_, _, h3⟩ := finishTopology_backPointers h
  rw [h3, setRegionPtrs_eq, List.forall₂_map_right_iff]
  unfold clippedBuild
  rw [List.map_map]
  have aux : ∀ (l : List (ClippedRegion δ)) (n : Nat), (∀ k ∈ l, k ∈ clippedRegions cs t.regions) →
      List.Forall₂ (fun (k : ClippedRegion δ) (x : TopoRegion δ × Nat) =>
        k ∈ clippedRegions cs t.regions ∧
        x.1 = toTopoRegion (toBuild cs (cs.filter (· ≠ [])).length (newKeys cs t) k)) l
        ((l.map (toTopoRegion ∘ toBuild cs (cs.filter (· ≠ [])).length (newKeys cs t))).zipIdx n) := by
    intro l
    induction l with
    | nil => intro _ _; exact List.Forall₂.nil
    | cons k l ih =>
      intro n hl
      rw [List.map_cons, List.zipIdx_cons]
      exact List.Forall₂.cons ⟨hl k (by simp), rfl⟩ (ih (n + 1) (fun k hk => hl k (by simp [hk])))
  refine (aux _ 0 (fun _ hk => hk)).imp ?_
  rintro k ⟨r, n⟩ ⟨hk, hr⟩
  simp only at hr
  subst hr
  have hrings : ∀ rings : List (List Piece),
      List.Forall₂ (fun ps (ring : TopoRing) => ring.directedEdges =
        ps.map (toDE cs (cs.filter (· ≠ [])).length (newKeys cs t))) rings
        (((rings.map fun ps => ps.map (toDE cs (cs.filter (· ≠ [])).length (newKeys cs t))).map
          (fun ds => (⟨ds, none⟩ : TopoRing))).map (fun t => { t with region := some n })) := by
    intro rings
    induction rings with
    | nil => exact List.Forall₂.nil
    | cons p rings ih => exact List.Forall₂.cons rfl ih
  exact ⟨hk, rfl, hrings k.outer, hrings k.inner⟩

theorem mem_allPieces_of {δ : Type} {rs : List (ClippedRegion δ)} {k : ClippedRegion δ} (hk : k ∈ rs)
    {ps : List Piece} (hps : ps ∈ k.outer ++ k.inner) {pc : Piece} (hpc : pc ∈ ps) : pc ∈ allPieces rs := by
  refine List.mem_flatMap.mpr ⟨k, hk, ?_⟩
  rw [← List.flatten_append]
  exact List.mem_flatten.mpr ⟨ps, hps, hpc⟩

/-- Rings made of directed edges for pieces read as the paths of the pieces. -/
theorem reads_of_toDE {δ : Type} {cs : List (List Point)} {t t' : Topology δ}
    (h : finishTopology (clippedPoints cs t) (clippedBuild cs t) = .ok t') {ps : List Piece}
    (hps : ∀ pc ∈ ps, pc ∈ allPieces (clippedRegions cs t.regions)) {ring : TopoRing}
    (hr : ring.directedEdges = ps.map (toDE cs (cs.filter (· ≠ [])).length (newKeys cs t))) :
    ReadsAs t'.edges (ps.map (Piece.path cs)) ring := by
  obtain ⟨_, h2, _⟩ := finishTopology_backPointers h
  unfold ReadsAs
  rw [hr, List.map_map, List.map_map]
  apply List.map_congr_left
  intro pc hpc
  exact walk_toDE h2 (valid_of_mem (hps pc hpc))

theorem forall₂_imp_mem {α β : Type} {R S : α → β → Prop} {as : List α} {bs : List β} (h : List.Forall₂ R as bs)
    (himp : ∀ a ∈ as, ∀ b, R a b → S a b) : List.Forall₂ S as bs := by
  induction h with
  | nil => exact .nil
  | cons h1 _ ih => exact .cons (himp _ (by simp) _ h1) (ih fun a ha => himp a (by simp [ha]))

theorem forall₂_exists_left {α β : Type} {R : α → β → Prop} {as : List α} {bs : List β} (h : List.Forall₂ R as bs)
    {b : β} (hb : b ∈ bs) : ∃ a ∈ as, R a b := by
  induction h with
  | nil => simp at hb
  | cons h1 _ ih =>
    rcases List.mem_cons.mp hb with rfl | hb
    · exact ⟨_, by simp, h1⟩
    · obtain ⟨a, ha, hr⟩ := ih hb
      exact ⟨a, by simp [ha], hr⟩

theorem forall₂_exists_right {α β : Type} {R : α → β → Prop} {as : List α} {bs : List β} (h : List.Forall₂ R as bs)
    {a : α} (ha : a ∈ as) : ∃ b ∈ bs, R a b := forall₂_exists_left h.flip ha

/-! ## C13, second half -/

/-- C13: the order in which the hash map of new edges is iterated does not
matter. -/
theorem C13_hash_order_clip {δ : Type} (m : Build) (mask : ClipMask) (t : Topology δ) (b b' : ClipBuilder)
    (regions : List (BuildRegion δ)) (h1 : ClipBuilder.new m mask t.edges = .ok b)
    (h2 : clipRegions m b t.regions = .ok (regions, b'))
    (order : List ((Point × Point) × Nat)) (ho : order.Perm b'.newEdges.edges) :
    b'.intoTopologyWith regions order = clipTopology m t mask := by
  obtain ⟨cs, _, h4, h5, _⟩ := clipBuilder_ok h1 h2
  unfold clipTopology
  rw [h1, ok_bind, h2, ok_bind]
  simp only
  rw [clip_intoTopology_eq h4 h5 ho, clip_intoTopology_eq h4 h5 (List.Perm.refl _)]

/-! ## The example -/

/-- Two rectangles side by side, and one far right. -/
def exClipRegions : List (Region String) :=
  [⟨"A", [.points [⟨10, 10⟩, ⟨30, 10⟩, ⟨30, 20⟩, ⟨10, 20⟩, ⟨10, 10⟩]], []⟩,
   ⟨"B", [.points [⟨10, 20⟩, ⟨30, 20⟩, ⟨30, 40⟩, ⟨10, 40⟩, ⟨10, 20⟩]], []⟩,
   ⟨"right", [.points [⟨40, 10⟩, ⟨50, 10⟩, ⟨50, 20⟩, ⟨40, 10⟩]], []⟩]

/-- The topology built from `exClipRegions`. -/
def exClipTopology : Topology String :=
  match buildTopology .debug exClipRegions with
  | .ok t => t
  | .error _ => ⟨[], []⟩

/-- The left half of it. -/
def exClipped : Topology String :=
  match clipTopology .debug exClipTopology (.maxX 20) with
  | .ok t => t
  | .error _ => ⟨[], []⟩

theorem exClip_built : buildTopology .debug exClipRegions = .ok exClipTopology := by decide +kernel

theorem exClip_clipped : clipTopology .debug exClipTopology (.maxX 20) = .ok exClipped := by decide +kernel

example : exClipped.regions.map (·.data) = ["A", "B"] ∧ exClipped.edges.length = 7 ∧
    exClipTopology.edges.length = 10 := by decide +kernel

-- non-vacuity of C13: two new edges, in another order
example : ((ClipBuilder.new .debug (.maxX 20) exClipTopology.edges).bind fun b =>
      clipRegions .debug b exClipTopology.regions).toOption.map
    (fun x => (x.2.newEdges.edges.length, decide (x.2.newEdges.edges.reverse = x.2.newEdges.edges),
      decide (x.2.newEdges.edges.reverse.Perm x.2.newEdges.edges))) = some (2, false, true) := by decide +kernel

/-! ## C30 -/

/-- C30: every ring of a clipped topology is closed and has no gaps. -/
theorem C30_closed {δ : Type} (m : Build) (mask : ClipMask) (t t' : Topology δ)
    (h : clipTopology m t mask = .ok t') :
    ∀ ring ∈ allRings t', ∃ paths, ReadsAs t'.edges paths ring ∧ ClosedRing paths := by
  obtain ⟨cs, _, hf⟩ := clipTopology_ok h
  intro ring hring
  obtain ⟨r, hr, hring⟩ := List.mem_flatMap.mp hring
  obtain ⟨k, hk, _, _, h1, h2⟩ := forall₂_exists_left (clip_rings hf) hr
  have hex : ∃ ps ∈ k.outer ++ k.inner,
      ring.directedEdges = ps.map (toDE cs (cs.filter (· ≠ [])).length (newKeys cs t)) := by
    rcases List.mem_append.mp hring with hring | hring
    · obtain ⟨ps, hps, h⟩ := forall₂_exists_left h1 hring
      exact ⟨ps, by simp [hps], h⟩
    · obtain ⟨ps, hps, h⟩ := forall₂_exists_left h2 hring
      exact ⟨ps, by simp [hps], h⟩
  obtain ⟨ps, hps, hde⟩ := hex
  refine ⟨ps.map (Piece.path cs), reads_of_toDE hf (fun pc hpc => mem_allPieces_of hk hps hpc) hde, ?_⟩
  obtain ⟨r0, _, rfl⟩ := List.mem_map.mp hk
  have hmem : ∃ rings, ps ∈ keptClipped cs rings := by
    rcases List.mem_append.mp hps with h | h
    · exact ⟨_, h⟩
    · exact ⟨_, h⟩
  obtain ⟨rings, hps⟩ := hmem
  have hne := kept_ne_nil hps
  obtain ⟨ring0, _, rfl⟩ := List.mem_map.mp (List.mem_filter.mp hps).1
  exact clippedPieces_closed hne

-- non-vacuity: the clipped example has rings, with plugs
example : (allRings exClipped).map (fun r => r.directedEdges.map (walk exClipped.edges)) =
    [[some [⟨10, 10⟩, ⟨20, 10⟩], some [⟨20, 10⟩, ⟨20, 20⟩], some [⟨20, 20⟩, ⟨10, 20⟩], some [⟨10, 20⟩, ⟨10, 10⟩]],
     [some [⟨10, 20⟩, ⟨20, 20⟩], some [⟨20, 20⟩, ⟨20, 40⟩], some [⟨20, 40⟩, ⟨10, 40⟩], some [⟨10, 40⟩, ⟨10, 20⟩]]] := by
  decide +kernel

/-! ## C31 -/

/-- C31: with `cs` the clipped edges, the regions of the result are, in order
and with their data, those that keep an outer ring of non-zero area, and each
ring reads as its pieces. -/
theorem C31_regions {δ : Type} (m : Build) (mask : ClipMask) (t t' : Topology δ)
    (h : clipTopology m t mask = .ok t') :
    ∃ cs, ClippedBy m mask t.edges cs ∧
      List.Forall₂ (fun (k : ClippedRegion δ) (r : TopoRegion δ) =>
        r.data = k.data ∧
        List.Forall₂ (fun ps ring => ReadsAs t'.edges (ps.map (Piece.path cs)) ring) k.outer r.outerRings ∧
        List.Forall₂ (fun ps ring => ReadsAs t'.edges (ps.map (Piece.path cs)) ring) k.inner r.innerRings)
      (clippedRegions cs t.regions) t'.regions := by
  obtain ⟨cs, hcs, hf⟩ := clipTopology_ok h
  refine ⟨cs, hcs, (clip_rings hf).imp ?_⟩
  rintro k r ⟨hk, hd, h1, h2⟩
  refine ⟨hd, forall₂_imp_mem h1 ?_, forall₂_imp_mem h2 ?_⟩ <;>
  · intro ps hps ring hr
    exact reads_of_toDE hf (fun pc hpc => mem_allPieces_of hk (by simp [hps]) hpc) hr

/-- C31: a clipped ring consists of its visible edges, in order and direction,
and of plugs. -/
theorem C31_visible_edges (cs : List (List Point)) (ring : TopoRing) :
    (clippedPieces cs ring).filter Piece.isKept = ring.directedEdges.filterMap (visiblePiece cs) := by
  have hgap : ∀ o1 o2, (gap o1 o2).filter Piece.isKept = [] := by
    intro o1 o2
    rw [List.filter_eq_nil_iff]
    intro pc hpc
    obtain ⟨p, q, _, _, _, rfl⟩ := mem_gap hpc
    unfold plugPiece
    split <;> simp [Piece.isKept]
  have hbridge : ∀ (ps : List Piece) (prev : Option Point), (∀ pc ∈ ps, pc.isKept = true) →
      (bridge cs prev ps).filter Piece.isKept = ps := by
    intro ps
    induction ps with
    | nil => intros; rfl
    | cons e ps ih =>
      intro prev hp
      rw [bridge, List.filter_append, hgap, List.nil_append,
        List.filter_cons_of_pos (hp e (by simp)), ih _ fun pc hpc => hp pc (by simp [hpc])]
  unfold clippedPieces closeUp
  rw [List.filter_append, hgap, List.append_nil, hbridge]
  intro pc hpc
  obtain ⟨de, _, hv⟩ := List.mem_filterMap.mp hpc
  obtain ⟨rfl, _⟩ := visiblePiece_some hv
  rfl

-- non-vacuity: in the example, a region is dropped and others are kept
example : exClipTopology.regions.map (·.data) = ["A", "B", "right"] ∧
    exClipped.regions.map (·.data) = ["A", "B"] := by decide +kernel

/-! ## C32 -/

theorem mem_triedPieces {δ : Type} {cs : List (List Point)} {rs : List (TopoRegion δ)} {pc : Piece}
    (h : pc ∈ triedPieces cs rs) :
    ∃ r ∈ rs, ∃ ring ∈ r.outerRings ++ r.innerRings, pc ∈ clippedPieces cs ring := by
  obtain ⟨r, hr, h⟩ := List.mem_flatMap.mp h
  refine ⟨r, hr, ?_⟩
  rw [List.mem_append] at h
  rcases h with h | h
  · obtain ⟨ps, hps, h⟩ := List.mem_flatten.mp h
    obtain ⟨ring, hring, rfl⟩ := List.mem_map.mp hps
    exact ⟨ring, by simp [hring], h⟩
  · split at h
    · simp at h
    · obtain ⟨ps, hps, h⟩ := List.mem_flatten.mp h
      obtain ⟨ring, hring, rfl⟩ := List.mem_map.mp hps
      exact ⟨ring, by simp [hring], h⟩

theorem plug_mem_newKeys {δ : Type} {cs : List (List Point)} {t : Topology δ} {p q : Point}
    (h : (p, q) ∈ newKeys cs t) :
    ∃ r ∈ t.regions, ∃ ring ∈ r.outerRings ++ r.innerRings, ∃ pc ∈ clippedPieces cs ring, pc.edge = .plug p q := by
  rcases mem_addKeys.mp h with h | h
  · simp at h
  · obtain ⟨pc, hpc, hk⟩ := List.mem_filterMap.mp h
    obtain ⟨r, hr, ring, hring, hmem⟩ := mem_triedPieces hpc
    refine ⟨r, hr, ring, hring, pc, hmem, ?_⟩
    cases he : pc.edge with
    | kept i => rw [he] at hk; cases hk
    | plug a b =>
      rw [he] at hk
      obtain ⟨rfl, rfl⟩ := Prod.mk.inj (Option.some.inj hk)
      rfl

/-- The ends of plugs are ends of clipped edges. -/
theorem plug_ends {cs : List (List Point)} {ring : TopoRing} {pc : Piece} (h : pc ∈ clippedPieces cs ring)
    {p q : Point} (he : pc.edge = .plug p q) : (∃ c ∈ cs, p ∈ c) ∧ ∃ c ∈ cs, q ∈ c := by
  have hend : ∀ e ∈ ring.directedEdges.filterMap (visiblePiece cs), ∀ x ∈ e.path cs, ∃ c ∈ cs, x ∈ c := by
    intro e he x hx
    obtain ⟨de, _, hv⟩ := List.mem_filterMap.mp he
    obtain ⟨rfl, c, hc, _⟩ := visiblePiece_some hv
    refine ⟨c, List.mem_of_getElem? hc, ?_⟩
    unfold Piece.path PieceEdge.points at hx
    simp only [hc, Option.getD_some] at hx
    cases hd : de.direction <;> rw [hd] at hx <;> simpa [facing] using hx
  have hplug : ∀ {o1 o2 : Option Point}, (∀ x, o1 = some x → ∃ c ∈ cs, x ∈ c) → (∀ x, o2 = some x → ∃ c ∈ cs, x ∈ c) →
      pc ∈ gap o1 o2 → (∃ c ∈ cs, p ∈ c) ∧ ∃ c ∈ cs, q ∈ c := by
    intro o1 o2 h1 h2 hpc
    obtain ⟨a, b, ha, hb, _, rfl⟩ := mem_gap hpc
    unfold plugPiece at he
    split at he
    · obtain ⟨rfl, rfl⟩ := PieceEdge.plug.inj he
      exact ⟨h1 _ ha, h2 _ hb⟩
    · obtain ⟨rfl, rfl⟩ := PieceEdge.plug.inj he
      exact ⟨h2 _ hb, h1 _ ha⟩
  have hbridge : ∀ (ps : List Piece) (prev : Option Point), (∀ e ∈ ps, ∀ x ∈ e.path cs, ∃ c ∈ cs, x ∈ c) →
      (∀ e ∈ ps, ∃ i, e.edge = .kept i) →
      (∀ x, prev = some x → ∃ c ∈ cs, x ∈ c) → pc ∈ bridge cs prev ps → (∃ c ∈ cs, p ∈ c) ∧ ∃ c ∈ cs, q ∈ c := by
    intro ps
    induction ps with
    | nil => intro _ _ _ _ hpc; simp [bridge] at hpc
    | cons e ps ih =>
      intro prev h1 h2 h3 hpc
      simp only [bridge, List.mem_append, List.mem_cons] at hpc
      rcases hpc with hpc | rfl | hpc
      · exact hplug h3 (fun x hx => h1 e (by simp) x (List.mem_of_mem_head? (by rw [hx]; rfl))) hpc
      · obtain ⟨i, hi⟩ := h2 pc (by simp)
        rw [hi] at he; cases he
      · exact ih _ (fun e he => h1 e (by simp [he])) (fun e he => h2 e (by simp [he]))
          (fun x hx => h1 e (by simp) x (List.mem_of_getLast? hx)) hpc
  have hkept : ∀ e ∈ ring.directedEdges.filterMap (visiblePiece cs), ∃ i, e.edge = .kept i := by
    intro e he
    obtain ⟨de, _, hv⟩ := List.mem_filterMap.mp he
    obtain ⟨rfl, _⟩ := visiblePiece_some hv
    exact ⟨_, rfl⟩
  unfold clippedPieces closeUp at h
  rw [List.mem_append] at h
  rcases h with h | h
  · exact hbridge _ _ hend hkept (fun x hx => by cases hx) h
  · apply hplug _ _ h
    · intro x hx
      unfold endOf at hx
      obtain ⟨e, he, hx⟩ := Option.bind_eq_some_iff.mp hx
      exact hend e (List.mem_of_getLast? he) x (List.mem_of_getLast? hx)
    · intro x hx
      unfold startOf at hx
      obtain ⟨e, he, hx⟩ := Option.bind_eq_some_iff.mp hx
      exact hend e (List.mem_of_mem_head? (by rw [he]; rfl)) x (List.mem_of_mem_head? (by rw [hx]; rfl))

/-- The clipped edges are determined by the edges. -/
theorem clippedBy_eq {m : Build} {mask : ClipMask} {edges : List TopoEdge} {cs : List (List Point)}
    (h : ClippedBy m mask edges cs) : cs = edges.map fun e => (clipEdge m mask e.points).toOption.getD [] := by
  unfold ClippedBy at h
  induction h with
  | nil => rfl
  | cons h1 _ ih => rw [List.map_cons, h1, ← ih]; rfl

/-- C32: all points of all edges of a clipped topology are inside of the mask
or on its line. -/
theorem C32_inside {δ : Type} (m : Build) (mask : ClipMask) (t t' : Topology δ)
    (h : clipTopology m t mask = .ok t') :
    ∀ e ∈ t'.edges, ∀ p ∈ e.points, 0 ≤ depth mask p := by
  obtain ⟨cs, hcs, hf⟩ := clipTopology_ok h
  obtain ⟨_, h2, _⟩ := finishTopology_backPointers hf
  have hc : ∀ c ∈ cs, ∀ p ∈ c, 0 ≤ depth mask p := by
    intro c hc p hp
    obtain ⟨e, _, he⟩ := forall₂_exists_left hcs hc
    exact C26_stays_inside he p hp
  intro e he p hp
  have hmem : e.points ∈ clippedPoints cs t := by rw [← h2]; exact List.mem_map_of_mem he
  rcases List.mem_append.mp hmem with hmem | hmem
  · exact hc _ (List.mem_filter.mp hmem).1 p hp
  · obtain ⟨⟨a, b⟩, hk, hab⟩ := List.mem_map.mp hmem
    obtain ⟨r, _, ring, _, pc, hpc, hpe⟩ := plug_mem_newKeys hk
    obtain ⟨⟨c1, h3, h4⟩, c2, h5, h6⟩ := plug_ends hpc hpe
    rw [← hab] at hp
    simp only [List.mem_cons, List.not_mem_nil, or_false] at hp
    rcases hp with rfl | rfl
    · exact hc _ h3 _ h4
    · exact hc _ h5 _ h6

/-- C32: if the rings of the input are closed, each edge of the result is the
clipped form of an old edge, or a segment of the mask line with distinct ends,
the smaller one first. -/
theorem C32_plugs {δ : Type} (m : Build) (mask : ClipMask) (t t' : Topology δ)
    (h : clipTopology m t mask = .ok t') (hlen : ∀ e ∈ t.edges, 2 ≤ e.points.length)
    (hclosed : ∀ ring ∈ allRings t, ∃ paths, ReadsAs t.edges paths ring ∧ ClosedRing paths) :
    ∀ e ∈ t'.edges, (∃ f ∈ t.edges, clipEdge m mask f.points = .ok e.points) ∨
      ∃ p q, e.points = [p, q] ∧ p < q ∧ depth mask p = 0 ∧ depth mask q = 0 := by
  obtain ⟨cs, hcs, hf⟩ := clipTopology_ok h
  obtain ⟨_, h2, _⟩ := finishTopology_backPointers hf
  intro e he
  have hmem : e.points ∈ clippedPoints cs t := by rw [← h2]; exact List.mem_map_of_mem he
  rcases List.mem_append.mp hmem with hmem | hmem
  · left
    exact forall₂_exists_left hcs (List.mem_filter.mp hmem).1
  · right
    obtain ⟨⟨a, b⟩, hk, hab⟩ := List.mem_map.mp hmem
    obtain ⟨r, hr, ring, hring, pc, hpc, hpe⟩ := plug_mem_newKeys hk
    obtain ⟨paths, h3, h4⟩ := hclosed ring (List.mem_flatMap.mpr ⟨r, hr, hring⟩)
    have hon := clippedPieces_onLine hcs hlen h3 h4 pc hpc
    refine ⟨a, b, hab.symm, ?_, ?_⟩
    · rcases mem_clippedPieces hpc with ⟨de, _, hv⟩ | ⟨p, q, hne, rfl⟩
      · obtain ⟨rfl, _⟩ := visiblePiece_some hv
        cases hpe
      · unfold plugPiece at hpe
        split at hpe
        · rename_i hlt
          obtain ⟨rfl, rfl⟩ := PieceEdge.plug.inj hpe
          exact hlt
        · rename_i hlt
          obtain ⟨rfl, rfl⟩ := PieceEdge.plug.inj hpe
          rcases Point.trichotomy p q with h | h | h
          · exact absurd h hlt
          · exact absurd h hne
          · exact h
    · unfold PlugOnLine at hon
      rw [hpe] at hon
      exact hon

-- non-vacuity: the example has plugs, and its rings are closed
example : exClipped.edges.map (·.points) =
    [[⟨10, 10⟩, ⟨20, 10⟩], [⟨10, 20⟩, ⟨20, 20⟩], [⟨10, 10⟩, ⟨10, 20⟩], [⟨10, 40⟩, ⟨20, 40⟩], [⟨10, 20⟩, ⟨10, 40⟩],
     [⟨20, 10⟩, ⟨20, 20⟩], [⟨20, 20⟩, ⟨20, 40⟩]] := by decide +kernel

/-! ## C33 -/

/-- C33: the back pointers of a clipped topology are exact. -/
theorem C33_back_pointers {δ : Type} (m : Build) (mask : ClipMask) (t t' : Topology δ)
    (h : clipTopology m t mask = .ok t') : BackPointersExact t' := by
  obtain ⟨cs, _, hf⟩ := clipTopology_ok h
  exact (finishTopology_backPointers hf).1

-- non-vacuity: a shared edge and a plug
example : (exClipped.edges.map fun e => (e.ring0, e.ring1)).drop 1 =
    [(some ⟨0, false, 0⟩, some ⟨1, false, 0⟩), (some ⟨0, false, 0⟩, none), (some ⟨1, false, 0⟩, none),
     (some ⟨1, false, 0⟩, none), (some ⟨0, false, 0⟩, none), (some ⟨1, false, 0⟩, none)] := by decide +kernel

/-! ## C34 -/

/-- C34: one edge per piece edge: the directed edges of the clipped rings are
their pieces, with an edge number that is the same for the same old edge or
plug, and different for different ones. -/
theorem C34_sharing {δ : Type} (m : Build) (mask : ClipMask) (t t' : Topology δ)
    (h : clipTopology m t mask = .ok t') :
    ∃ cs, ClippedBy m mask t.edges cs ∧ ∃ number : PieceEdge → Nat,
      (∀ a ∈ allPieces (clippedRegions cs t.regions), ∀ b ∈ allPieces (clippedRegions cs t.regions),
        number a.edge = number b.edge → a.edge = b.edge) ∧
      List.Forall₂ (fun (k : ClippedRegion δ) (r : TopoRegion δ) =>
        List.Forall₂ (fun ps ring => ring.directedEdges =
          ps.map fun pc => (⟨number pc.edge, pc.direction⟩ : DirectedEdge)) k.outer r.outerRings ∧
        List.Forall₂ (fun ps ring => ring.directedEdges =
          ps.map fun pc => (⟨number pc.edge, pc.direction⟩ : DirectedEdge)) k.inner r.innerRings)
      (clippedRegions cs t.regions) t'.regions := by
  obtain ⟨cs, hcs, hf⟩ := clipTopology_ok h
  refine ⟨cs, hcs, place cs (cs.filter (· ≠ [])).length (newKeys cs t), ?_, ?_⟩
  · intro a ha b hb hab
    exact place_inj (valid_of_mem ha) (valid_of_mem hb) hab
  · exact (clip_rings hf).imp fun k r hk => ⟨hk.2.2.1, hk.2.2.2⟩

/-- C34: a plug from `p` to `q` and one from `q` to `p` are the same piece edge
in opposite directions. -/
theorem C34_plug {p q : Point} (h : p ≠ q) :
    (plugPiece p q).edge = (plugPiece q p).edge ∧
    (plugPiece p q).direction = opposite (plugPiece q p).direction := by
  unfold plugPiece
  rcases Point.trichotomy p q with hlt | heq | hlt
  · rw [if_pos hlt, if_neg (Point.lt_asymm hlt)]
    exact ⟨rfl, rfl⟩
  · exact absurd heq h
  · rw [if_pos hlt, if_neg (Point.lt_asymm hlt)]
    exact ⟨rfl, rfl⟩

-- non-vacuity: a hole and its filling share an old edge's remainder and a plug
example : ((buildTopology .debug
    [(⟨1, [.points [⟨10, 10⟩, ⟨40, 10⟩, ⟨40, 40⟩, ⟨10, 40⟩, ⟨10, 10⟩]],
      [.points [⟨15, 20⟩, ⟨15, 30⟩, ⟨30, 30⟩, ⟨30, 20⟩, ⟨15, 20⟩]]⟩ : Region Nat),
     ⟨2, [.points [⟨15, 20⟩, ⟨30, 20⟩, ⟨30, 30⟩, ⟨15, 30⟩, ⟨15, 20⟩]], []⟩]).bind
    (clipTopology .debug · (.maxX 20))).toOption.map (fun t => (allRings t).map (·.directedEdges)) =
    some [[⟨0, .forward⟩, ⟨6, .forward⟩, ⟨1, .backward⟩, ⟨2, .backward⟩],
      [⟨3, .forward⟩, ⟨4, .forward⟩, ⟨7, .backward⟩, ⟨5, .backward⟩],
      [⟨5, .forward⟩, ⟨7, .forward⟩, ⟨4, .backward⟩, ⟨3, .backward⟩]] := by decide +kernel

/-! ## C35 -/

/-- C35: a topology that lies inside of the mask does not change. -/
theorem C35_identity {δ : Type} (mask : ClipMask) (t : Topology δ) (h : AllInside mask t) :
    clipTopology .release t mask = .ok t := by
  obtain ⟨cs, hcs, hclip⟩ := clipTopology_release mask t h.pointers.2.2
  rw [hclip, clippedBy_inside h hcs]
  obtain ⟨h1, h2⟩ := clippedBuild_inside h
  rw [h1, h2, finishTopology_self h.pointers]

/-- C35: nor does it change in a checked build, if that does not panic. -/
theorem C35_identity_debug {δ : Type} (m : Build) (mask : ClipMask) (t t' : Topology δ) (h : AllInside mask t)
    (ht : clipTopology m t mask = .ok t') : t' = t := by
  obtain ⟨cs, hcs, hclip⟩ := clipTopology_ok ht
  rw [clippedBy_inside h hcs] at hclip
  obtain ⟨h1, h2⟩ := clippedBuild_inside h
  rw [h1, h2, finishTopology_self h.pointers] at hclip
  exact (Except.ok.inj hclip).symm

theorem shoelace_zeroLength {e : List Point} (h : ZeroLength e) : shoelace e = 0 := by
  rcases h with h | ⟨p, rfl⟩
  · match e, h with
    | [], _ => rfl
    | [_], _ => rfl
  · simp [shoelace, cross_self]

theorem shoelaceEdges_filter (es : List (List Point)) :
    shoelaceEdges (es.filter fun e => ¬ ZeroLength e) = shoelaceEdges es := by
  induction es with
  | nil => rfl
  | cons e es ih =>
    unfold shoelaceEdges at ih ⊢
    by_cases h : ZeroLength e
    · rw [List.filter_cons_of_neg (by simpa using h), ih, List.map_cons, List.sum_cons, shoelace_zeroLength h]
      omega
    · rw [List.filter_cons_of_pos (by simpa using h), List.map_cons, List.sum_cons, ih, List.map_cons, List.sum_cons]

theorem shoelaceEdges_pairs (ps : List Point) : shoelaceEdges (pairs ps) = shoelace ps := by
  match ps with
  | [] => rfl
  | [_] => rfl
  | p :: q :: rest =>
    have := shoelaceEdges_pairs (q :: rest)
    unfold shoelaceEdges at this ⊢
    simp only [pairs, List.map_cons, List.sum_cons, this, shoelace]
    omega

/-- The area of the paths of a ring is the area of the ring. -/
theorem shoelaceEdges_ringPaths (r : Ring) : shoelaceEdges (ringPaths r) = ringShoelace r := by
  unfold ringPaths
  rw [shoelaceEdges_filter]
  cases r with
  | points ps => exact shoelaceEdges_pairs ps
  | edges es => rfl

/-- A built topology of closed rings that lies inside of the mask. -/
theorem allInside_of_built {δ : Type} {m : Build} {rs : List (Region δ)} {t : Topology δ} {mask : ClipMask}
    (h : buildTopology m rs = .ok t)
    (hclosed : ∀ r ∈ rs, ∀ ring ∈ r.outerRings ++ r.innerRings, ringArea ring ≠ 0 → ClosedRing (ringPaths ring))
    (hin : ∀ e ∈ t.edges, ∀ p ∈ e.points, 0 < depth mask p) : AllInside mask t := by
  have h7 := C07_round_trip m rs t h
  refine ⟨(buildTopology_facts h).1, ?_, ?_, ?_⟩
  · intro e he
    refine ⟨?_, hin e he⟩
    have := (C09_canonical m rs t h e he).1
    by_contra hlt
    exact this (Or.inl (by omega))
  · intro r hr
    obtain ⟨k, hk, _, h1, _⟩ := forall₂_exists_left h7 hr
    obtain ⟨r0, hr0, rfl⟩ := List.mem_map.mp hk
    have hne : keptRings r0.outerRings ≠ [] := by simpa using (List.mem_filter.mp hr0).2
    intro h0
    rw [h0] at h1
    have := h1.length_eq
    simp only [List.length_map, List.length_nil, List.length_eq_zero_iff] at this
    exact hne this
  · intro ring hring
    obtain ⟨r, hr, hring⟩ := List.mem_flatMap.mp hring
    obtain ⟨k, hk, _, h1, h2⟩ := forall₂_exists_left h7 hr
    obtain ⟨r0, hr0, rfl⟩ := List.mem_map.mp hk
    have hex : ∃ ring0 ∈ r0.outerRings ++ r0.innerRings, ringArea ring0 ≠ 0 ∧ ReadsAs t.edges (ringPaths ring0) ring := by
      have aux : ∀ rings : List Ring, ∀ trings : List TopoRing,
          List.Forall₂ (ReadsAs t.edges) ((keptRings rings).map ringPaths) trings → ring ∈ trings →
          ∃ ring0 ∈ rings, ringArea ring0 ≠ 0 ∧ ReadsAs t.edges (ringPaths ring0) ring := by
        intro rings trings hf hm
        obtain ⟨p, hp, hread⟩ := forall₂_exists_left hf hm
        obtain ⟨ring0, hr0, rfl⟩ := List.mem_map.mp hp
        obtain ⟨h3, h4⟩ := List.mem_filter.mp hr0
        exact ⟨ring0, h3, by simpa using h4, hread⟩
      rcases List.mem_append.mp hring with hring | hring
      · obtain ⟨ring0, h3, h4⟩ := aux _ _ h1 hring
        exact ⟨ring0, by simp [h3], h4⟩
      · obtain ⟨ring0, h3, h4⟩ := aux _ _ h2 hring
        exact ⟨ring0, by simp [h3], h4⟩
    obtain ⟨ring0, h3, h4, h5⟩ := hex
    refine ⟨ringPaths ring0, h5, hclosed r0 (List.mem_filter.mp hr0).1 ring0 h3 h4, ?_⟩
    rw [shoelaceEdges_ringPaths]
    exact h4

/-- C35 for built topologies: if the non-degenerate input rings are closed, and
all points are strictly inside of the mask, `clip_topology` returns the
topology itself. -/
theorem C35_built {δ : Type} (m : Build) (rs : List (Region δ)) (t : Topology δ) (mask : ClipMask)
    (h : buildTopology m rs = .ok t)
    (hclosed : ∀ r ∈ rs, ∀ ring ∈ r.outerRings ++ r.innerRings, ringArea ring ≠ 0 → ClosedRing (ringPaths ring))
    (hin : ∀ e ∈ t.edges, ∀ p ∈ e.points, 0 < depth mask p) :
    clipTopology .release t mask = .ok t ∧ ∀ m' t', clipTopology m' t mask = .ok t' → t' = t :=
  ⟨C35_identity mask t (allInside_of_built h hclosed hin),
   fun m' t' => C35_identity_debug m' mask t t' (allInside_of_built h hclosed hin)⟩

-- non-vacuity: the example topology lies left of x = 60
example : ∀ e ∈ exClipTopology.edges, ∀ p ∈ e.points, 0 < depth (.maxX 60) p := by decide +kernel
example : ∀ r ∈ exClipRegions, ∀ ring ∈ r.outerRings ++ r.innerRings,
    ringArea ring ≠ 0 → ClosedRing (ringPaths ring) := by decide +kernel
example : clipTopology .debug exClipTopology (.maxX 60) = .ok exClipTopology := by decide +kernel

/-! ## C36 -/

/-- C36: for a topology whose edge pointers are valid, `clip_topology` panics in
a release build exactly if a piece edge is used three times, and then with the
assertion. -/
theorem C36_panics {δ : Type} (mask : ClipMask) (t : Topology δ)
    (hde : ∀ de ∈ allDirectedEdges t, de.edge < t.edges.length) :
    ∃ cs, ClippedBy .release mask t.edges cs ∧
      ((∃ e, 3 ≤ ((allPieces (clippedRegions cs t.regions)).filter fun pc => pc.edge = e).length) →
        clipTopology .release t mask = .error .assert) ∧
      ((∀ e, ((allPieces (clippedRegions cs t.regions)).filter fun pc => pc.edge = e).length ≤ 2) →
        ∃ t', clipTopology .release t mask = .ok t') := by
  obtain ⟨cs, hcs, hclip⟩ := clipTopology_release mask t hde
  refine ⟨cs, hcs, ?_⟩
  rw [hclip, finishTopology_eq (clippedBuild_inBounds cs t)]
  have hcount : ∀ a ∈ allPieces (clippedRegions cs t.regions),
      ((allPieces (clippedRegions cs t.regions)).filter fun pc =>
        place cs (cs.filter (· ≠ [])).length (newKeys cs t) pc.edge =
        place cs (cs.filter (· ≠ [])).length (newKeys cs t) a.edge).length =
      ((allPieces (clippedRegions cs t.regions)).filter fun pc => pc.edge = a.edge).length := by
    intro a ha
    congr 1
    apply List.filter_congr
    intro pc hpc
    rw [decide_eq_decide]
    constructor
    · exact place_inj (valid_of_mem hpc) (valid_of_mem ha)
    · intro h; rw [h]
  constructor
  · rintro ⟨e, he⟩
    rw [if_neg]
    intro hall
    obtain ⟨a, ha⟩ := List.exists_mem_of_ne_nil ((allPieces (clippedRegions cs t.regions)).filter fun pc => pc.edge = e)
      (by intro h0; rw [h0] at he; simp at he)
    obtain ⟨ha, hae⟩ := List.mem_filter.mp ha
    have hae : a.edge = e := by simpa using hae
    have := hall (place cs (cs.filter (· ≠ [])).length (newKeys cs t) a.edge)
    rw [usersOf_clipped, hcount a ha, hae] at this
    omega
  · intro hall
    rw [if_pos]
    · exact ⟨_, rfl⟩
    · intro i
      rw [usersOf_clipped]
      cases hl : (allPieces (clippedRegions cs t.regions)).filter fun pc =>
        place cs (cs.filter (· ≠ [])).length (newKeys cs t) pc.edge = i with
      | nil => simp
      | cons a l =>
        have ha : a ∈ (allPieces (clippedRegions cs t.regions)).filter fun pc =>
          place cs (cs.filter (· ≠ [])).length (newKeys cs t) pc.edge = i := by rw [hl]; simp
        obtain ⟨ha, hai⟩ := List.mem_filter.mp ha
        have hai : place cs (cs.filter (· ≠ [])).length (newKeys cs t) a.edge = i := by simpa using hai
        rw [← hl, ← hai, hcount a ha]
        exact hall _

/-- C36: in a checked build, it may also panic with an arithmetic overflow, but
in no other way. -/
theorem C36_debug {δ : Type} (m : Build) (mask : ClipMask) (t : Topology δ)
    (hde : ∀ de ∈ allDirectedEdges t, de.edge < t.edges.length) (e : Panic)
    (h : clipTopology m t mask = .error e) : (m = .debug ∧ e = .overflow) ∨ e = .assert := by
  have hnew : OnlyOverflow m (ClipBuilder.new m mask t.edges) :=
    OnlyOverflow.bind (clipOldEdges_onlyOverflow _ _ _ _ _) fun x _ => OnlyOverflow.ok _
  cases hb : ClipBuilder.new m mask t.edges with
  | error e' =>
    unfold clipTopology at h
    rw [hb] at h
    obtain rfl := Except.error.inj h
    exact Or.inl (hnew _ hb)
  | ok b =>
    obtain ⟨cs0, hcs0, hb0, _⟩ := clipBuilder_new_ok hb
    have hreg : OnlyOverflow m (clipRegions m b t.regions) := by
      apply clipRegions_onlyOverflow hb0
      intro r hr ring hring de hd
      rw [← hcs0.length_eq]
      apply hde
      exact List.mem_flatMap.mpr ⟨ring, List.mem_flatMap.mpr ⟨r, hr, hring⟩, hd⟩
    cases hx : clipRegions m b t.regions with
    | error e' =>
      unfold clipTopology at h
      rw [hb, ok_bind, hx] at h
      obtain rfl := Except.error.inj h
      exact Or.inl (hreg _ hx)
    | ok x =>
      obtain ⟨regions, b'⟩ := x
      obtain ⟨cs, _, h4, h5, h6⟩ := clipBuilder_ok hb hx
      unfold clipTopology at h
      rw [hb, ok_bind, hx, ok_bind] at h
      simp only at h
      rw [clip_intoTopology_eq h4 h5 (List.Perm.refl _), h6, finishTopology_eq (clippedBuild_inBounds cs t)] at h
      split at h
      · cases h
      · exact Or.inr (Except.error.inj h).symm

/-- Three rectangles that cross the line x = 20 at the same two points. -/
def exThrice : List (Region Nat) :=
  [⟨1, [.points [⟨10, 10⟩, ⟨30, 10⟩, ⟨30, 30⟩, ⟨10, 30⟩, ⟨10, 10⟩]], []⟩,
   ⟨2, [.points [⟨9, 10⟩, ⟨31, 10⟩, ⟨31, 30⟩, ⟨9, 30⟩, ⟨9, 10⟩]], []⟩,
   ⟨3, [.points [⟨8, 10⟩, ⟨32, 10⟩, ⟨32, 30⟩, ⟨8, 30⟩, ⟨8, 10⟩]], []⟩]

/-- C36: panic freedom is refuted: there is a topology, built by the topology
builder from closed rings, for which `clip_topology` panics. -/
theorem C36_panic_freedom_refuted :
    ∃ (rs : List (Region Nat)) (t : Topology Nat), buildTopology .release rs = .ok t ∧ BackPointersExact t ∧
      (∀ r ∈ rs, ∀ ring ∈ r.outerRings ++ r.innerRings, Closed ring.getPoints) ∧
      clipTopology .release t (.maxX 20) = .error .assert := by
  have hok : ∃ t, buildTopology .release exThrice = .ok t ∧ clipTopology .release t (.maxX 20) = .error .assert := by
    have : ((buildTopology .release exThrice).toOption.map fun t =>
        decide (clipTopology .release t (.maxX 20) = .error .assert)) = some true := by decide +kernel
    cases hb : buildTopology .release exThrice with
    | error e => rw [hb] at this; cases this
    | ok t =>
      rw [hb] at this
      exact ⟨t, rfl, by simpa [Except.toOption] using this⟩
  obtain ⟨t, h1, h2⟩ := hok
  exact ⟨exThrice, t, h1, (buildTopology_facts h1).1, by decide +kernel, h2⟩

-- non-vacuity: the clipped example falls under the second case
example : ∀ de ∈ allDirectedEdges exClipTopology, de.edge < exClipTopology.edges.length := by decide +kernel

/-! ## C37 -/

theorem newId_surj {cs : List (List Point)} {i : Nat} {c : List Point} (h : (cs.filter (· ≠ []))[i]? = some c) :
    ∃ j, cs[j]? = some c ∧ c ≠ [] ∧ newId cs j = i := by
  induction cs generalizing i with
  | nil => simp at h
  | cons a cs ih =>
    by_cases ha : a = []
    · rw [List.filter_cons_of_neg (by simpa using ha)] at h
      obtain ⟨j, h1, h2, h3⟩ := ih h
      exact ⟨j + 1, by simpa using h1, h2, by simpa [newId, ha] using h3⟩
    · rw [List.filter_cons_of_pos (by simpa using ha)] at h
      cases i with
      | zero =>
        refine ⟨0, by simpa using h, ?_, rfl⟩
        simp only [List.getElem?_cons_zero, Option.some.injEq] at h
        rw [← h]; exact ha
      | succ i =>
        obtain ⟨j, h1, h2, h3⟩ := ih (by simpa using h)
        exact ⟨j + 1, by simpa using h1, h2, by simpa [newId, ha] using h3⟩

theorem validEdge_iff {δ : Type} {cs : List (List Point)} {t : Topology δ} {o : PieceEdge} :
    ValidEdge cs (newKeys cs t) o ↔ MakesEdge cs t.regions o := by
  cases o with
  | kept i => exact Iff.rfl
  | plug p q =>
    simp only [ValidEdge, MakesEdge, newKeys, mem_addKeys, List.not_mem_nil, false_or, plugKeys, List.mem_filterMap,
      triedPieces, List.mem_flatMap, List.mem_append]
    constructor
    · rintro ⟨pc, ⟨r, hr, hpc⟩, hk⟩
      have he : pc.edge = .plug p q := by
        cases he : pc.edge with
        | kept i => rw [he] at hk; cases hk
        | plug a b =>
          rw [he] at hk
          obtain ⟨rfl, rfl⟩ := Prod.mk.inj (Option.some.inj hk)
          rfl
      rcases hpc with hpc | hpc
      · obtain ⟨l, hl, hpc⟩ := List.mem_flatten.mp hpc
        obtain ⟨ring, hring, rfl⟩ := List.mem_map.mp hl
        exact ⟨r, hr, ring, Or.inl hring, pc, hpc, he⟩
      · by_cases hne : keptClipped cs r.outerRings = []
        · rw [if_pos hne] at hpc; simp at hpc
        · rw [if_neg hne] at hpc
          obtain ⟨l, hl, hpc⟩ := List.mem_flatten.mp hpc
          obtain ⟨ring, hring, rfl⟩ := List.mem_map.mp hl
          exact ⟨r, hr, ring, Or.inr ⟨hring, hne⟩, pc, hpc, he⟩
    · rintro ⟨r, hr, ring, hring, pc, hpc, he⟩
      refine ⟨pc, ⟨r, hr, ?_⟩, by rw [he]⟩
      rcases hring with hring | ⟨hring, hne⟩
      · exact Or.inl (List.mem_flatten.mpr ⟨_, List.mem_map_of_mem hring, hpc⟩)
      · rw [if_neg hne]
        exact Or.inr (List.mem_flatten.mpr ⟨_, List.mem_map_of_mem hring, hpc⟩)

/-- Every edge of the clipped topology stands for something. -/
theorem exists_place {δ : Type} {cs : List (List Point)} {t : Topology δ} {i : Nat}
    (hi : i < (clippedPoints cs t).length) :
    ∃ o, ValidEdge cs (newKeys cs t) o ∧ place cs (cs.filter (· ≠ [])).length (newKeys cs t) o = i := by
  have hlen : (clippedPoints cs t).length = (cs.filter (· ≠ [])).length + (newKeys cs t).length := by
    simp [clippedPoints]
  by_cases hlt : i < (cs.filter (· ≠ [])).length
  · obtain ⟨j, h4, h5, h6⟩ := newId_surj (List.getElem?_eq_getElem hlt)
    exact ⟨.kept j, ⟨_, h4, h5⟩, h6⟩
  · obtain ⟨k, hk⟩ : ∃ k, (newKeys cs t)[i - (cs.filter (· ≠ [])).length]? = some k :=
      ⟨_, List.getElem?_eq_getElem (by omega)⟩
    refine ⟨.plug k.1 k.2, List.mem_of_getElem? hk, ?_⟩
    simp only [place]
    have hnd : (newKeys cs t).Nodup := nodup_addKeys List.nodup_nil
    have hget := getElem?_keyIdx (List.mem_of_getElem? hk)
    have : keyIdx (newKeys cs t) k = i - (cs.filter (· ≠ [])).length := by
      obtain ⟨h1, h2⟩ := List.getElem?_eq_some_iff.mp hk
      obtain ⟨h3, h4⟩ := List.getElem?_eq_some_iff.mp hget
      exact hnd.getElem_inj_iff.mp (h4.trans h2.symm)
    rw [show (k.1, k.2) = k from rfl, this]
    omega

theorem clip_used_iff {δ : Type} {cs : List (List Point)} {t t' : Topology δ}
    (hf : finishTopology (clippedPoints cs t) (clippedBuild cs t) = .ok t') (i : Nat) :
    (∃ de ∈ allDirectedEdges t', de.edge = i) ↔ ∃ pc ∈ allPieces (clippedRegions cs t.regions),
      place cs (cs.filter (· ≠ [])).length (newKeys cs t) pc.edge = i := by
  have hr := clip_rings hf
  constructor
  · rintro ⟨de, hde, rfl⟩
    obtain ⟨ring, hring, hde⟩ := List.mem_flatMap.mp hde
    obtain ⟨r, hr', hring⟩ := List.mem_flatMap.mp hring
    obtain ⟨k, hk, _, _, h1, h2⟩ := forall₂_exists_left hr hr'
    have hex : ∃ ps ∈ k.outer ++ k.inner,
        ring.directedEdges = ps.map (toDE cs (cs.filter (· ≠ [])).length (newKeys cs t)) := by
      rcases List.mem_append.mp hring with hring | hring
      · obtain ⟨ps, hps, h⟩ := forall₂_exists_left h1 hring
        exact ⟨ps, by simp [hps], h⟩
      · obtain ⟨ps, hps, h⟩ := forall₂_exists_left h2 hring
        exact ⟨ps, by simp [hps], h⟩
    obtain ⟨ps, hps, hps'⟩ := hex
    rw [hps'] at hde
    obtain ⟨pc, hpc, rfl⟩ := List.mem_map.mp hde
    exact ⟨pc, mem_allPieces_of hk hps hpc, rfl⟩
  · rintro ⟨pc, hpc, rfl⟩
    obtain ⟨k, hk, hpc⟩ := List.mem_flatMap.mp hpc
    rw [← List.flatten_append] at hpc
    obtain ⟨ps, hps, hpc⟩ := List.mem_flatten.mp hpc
    obtain ⟨r, hr', _, _, h1, h2⟩ := forall₂_exists_right hr hk
    have hex : ∃ ring ∈ r.outerRings ++ r.innerRings,
        ring.directedEdges = ps.map (toDE cs (cs.filter (· ≠ [])).length (newKeys cs t)) := by
      rcases List.mem_append.mp hps with hps | hps
      · obtain ⟨ring, hring, h⟩ := forall₂_exists_right h1 hps
        exact ⟨ring, by simp [hring], h⟩
      · obtain ⟨ring, hring, h⟩ := forall₂_exists_right h2 hps
        exact ⟨ring, by simp [hring], h⟩
    obtain ⟨ring, hring, hde⟩ := hex
    refine ⟨toDE cs (cs.filter (· ≠ [])).length (newKeys cs t) pc, List.mem_flatMap.mpr ⟨ring,
      List.mem_flatMap.mpr ⟨r, hr', hring⟩, ?_⟩, rfl⟩
    rw [hde]
    exact List.mem_map_of_mem hpc

/-- C72: the edges of the clipped topology are the leftovers of the old
edges and the plugs that were met, each once, and an edge is used if and only if
it belongs to a ring that is not dropped. -/
theorem C72_edges {δ : Type} (m : Build) (mask : ClipMask) (t t' : Topology δ)
    (h : clipTopology m t mask = .ok t') :
    ∃ cs, ClippedBy m mask t.edges cs ∧ ∃ origin : Nat → PieceEdge,
      (∀ i < t'.edges.length, ∀ j < t'.edges.length, origin i = origin j → i = j) ∧
      (∀ o, (∃ i < t'.edges.length, origin i = o) ↔ MakesEdge cs t.regions o) ∧
      ∀ i e, t'.edges[i]? = some e → e.points = (origin i).points cs ∧
        ((∃ de ∈ allDirectedEdges t', de.edge = i) ↔
          ∃ pc ∈ allPieces (clippedRegions cs t.regions), pc.edge = origin i) := by
  obtain ⟨cs, hcs, hf⟩ := clipTopology_ok h
  obtain ⟨_, h2, _⟩ := finishTopology_backPointers hf
  have hlen : t'.edges.length = (clippedPoints cs t).length := by rw [← h2, List.length_map]
  have hex : ∀ i, ∃ o, i < t'.edges.length → ValidEdge cs (newKeys cs t) o ∧
      place cs (cs.filter (· ≠ [])).length (newKeys cs t) o = i := by
    intro i
    by_cases hi : i < t'.edges.length
    · obtain ⟨o, ho⟩ := exists_place (t := t) (cs := cs) (i := i) (by omega)
      exact ⟨o, fun _ => ho⟩
    · exact ⟨.kept 0, fun hi' => absurd hi' hi⟩
  choose origin ho using hex
  refine ⟨cs, hcs, origin, ?_, ?_, ?_⟩
  · intro i hi j hj he
    rw [← (ho i hi).2, ← (ho j hj).2, he]
  · intro o
    rw [← validEdge_iff]
    constructor
    · rintro ⟨i, hi, rfl⟩; exact (ho i hi).1
    · intro hv
      have hp := (List.getElem?_eq_some_iff.mp (clippedPoints_place hv)).1
      rw [← hlen] at hp
      exact ⟨_, hp, place_inj (ho _ hp).1 hv (ho _ hp).2⟩
  · intro i e he
    obtain ⟨hi, he⟩ := List.getElem?_eq_some_iff.mp he
    refine ⟨?_, ?_⟩
    · have := clippedPoints_place (ho i hi).1
      rw [(ho i hi).2, ← h2, List.getElem?_map, List.getElem?_eq_getElem hi, he] at this
      exact Option.some.inj this
    · rw [clip_used_iff hf]
      constructor
      · rintro ⟨pc, hpc, hpl⟩
        exact ⟨pc, hpc, place_inj (valid_of_mem hpc) (ho i hi).1 (hpl.trans (ho i hi).2.symm)⟩
      · rintro ⟨pc, hpc, hpe⟩
        exact ⟨pc, hpc, by rw [hpe, (ho i hi).2]⟩

/-- C37, as far as it holds: if every edge of the topology is used, and no ring
that leaves something is dropped, every edge of the clipped topology is used.
Missing: the case that a ring is dropped since its clipped area is zero; there
the claim is false, see `C37_refuted`. -/
theorem C37_used_partial {δ : Type} (m : Build) (mask : ClipMask) (t t' : Topology δ)
    (h : clipTopology m t mask = .ok t')
    (hused : ∀ i < t.edges.length, ∃ de ∈ allDirectedEdges t, de.edge = i)
    (hkeep : ∀ cs, ClippedBy m mask t.edges cs → ∀ r ∈ t.regions, ∀ ring ∈ r.outerRings ++ r.innerRings,
      clippedPieces cs ring ≠ [] → piecesArea cs (clippedPieces cs ring) ≠ 0 ∧ keptClipped cs r.outerRings ≠ []) :
    ∀ i < t'.edges.length, ∃ de ∈ allDirectedEdges t', de.edge = i := by
  obtain ⟨cs, hcs, origin, _, h2, h3⟩ := C72_edges m mask t t' h
  have hall : ∀ r ∈ t.regions, ∀ ring ∈ r.outerRings ++ r.innerRings, ∀ pc ∈ clippedPieces cs ring,
      pc ∈ allPieces (clippedRegions cs t.regions) := by
    intro r hr ring hring pc hpc
    obtain ⟨ha, hne⟩ := hkeep cs hcs r hr ring hring (List.ne_nil_of_mem hpc)
    have hk : ∀ rings : List TopoRing, ring ∈ rings → clippedPieces cs ring ∈ keptClipped cs rings := by
      intro rings hm
      exact List.mem_filter.mpr ⟨List.mem_map_of_mem hm, by simpa using ha⟩
    refine mem_allPieces_of (k := ⟨r.data, keptClipped cs r.outerRings, keptClipped cs r.innerRings⟩) ?_ ?_ hpc
    · exact List.mem_map.mpr ⟨r, List.mem_filter.mpr ⟨hr, by simpa using hne⟩, rfl⟩
    · rcases List.mem_append.mp hring with hring | hring
      · simp [hk _ hring]
      · simp [hk _ hring]
  intro i hi
  refine ((h3 i _ (List.getElem?_eq_getElem hi)).2).mpr ?_
  have hm := (h2 (origin i)).mp ⟨i, hi, rfl⟩
  cases ho : origin i with
  | plug p q =>
    rw [ho] at hm
    obtain ⟨r, hr, ring, hring, pc, hpc, he⟩ := hm
    refine ⟨pc, hall r hr ring (List.mem_append.mpr (hring.imp_right And.left)) pc hpc, he⟩
  | kept j =>
    rw [ho] at hm
    obtain ⟨c, h4, h5⟩ := hm
    have hj : j < t.edges.length := by
      rw [hcs.length_eq]; exact (List.getElem?_eq_some_iff.mp h4).1
    obtain ⟨de, hde, rfl⟩ := hused j hj
    obtain ⟨ring, hring, hde⟩ := List.mem_flatMap.mp hde
    obtain ⟨r, hr, hring⟩ := List.mem_flatMap.mp hring
    have hv : visiblePiece cs de = some ⟨.kept de.edge, de.direction⟩ := by
      unfold visiblePiece
      rw [h4, if_neg (by simpa using h5)]
    have hpc : (⟨.kept de.edge, de.direction⟩ : Piece) ∈ clippedPieces cs ring := by
      have : (⟨.kept de.edge, de.direction⟩ : Piece) ∈ ring.directedEdges.filterMap (visiblePiece cs) :=
        List.mem_filterMap.mpr ⟨de, hde, hv⟩
      rw [← C31_visible_edges] at this
      exact (List.mem_filter.mp this).1
    exact ⟨_, hall r hr ring hring _ hpc, rfl⟩

-- non-vacuity: the example satisfies the hypotheses
example : ∀ cs, ClippedBy .debug (.maxX 20) exClipTopology.edges cs →
    ∀ r ∈ exClipTopology.regions, ∀ ring ∈ r.outerRings ++ r.innerRings,
      clippedPieces cs ring ≠ [] → piecesArea cs (clippedPieces cs ring) ≠ 0 ∧ keptClipped cs r.outerRings ≠ [] := by
  intro cs hcs
  rw [clippedBy_eq hcs]
  decide +kernel
example : ∀ i < exClipTopology.edges.length, ∃ de ∈ allDirectedEdges exClipTopology, de.edge = i := by decide +kernel

/-- A square with a spike that reaches over the line x = 20 and back, so that
only the spike is inside of `.minX 20`. -/
def exSpike : List (Region Nat) :=
  [⟨1, [.points [⟨10, 10⟩, ⟨30, 10⟩, ⟨10, 10⟩, ⟨12, 15⟩, ⟨5, 15⟩, ⟨10, 10⟩]], []⟩]

/-- C37: without further conditions, the claim is refuted: the topology is
built from a closed ring, but an edge of the clipped topology has no user. -/
theorem C37_refuted :
    ∃ (rs : List (Region Nat)) (t t' : Topology Nat), buildTopology .release rs = .ok t ∧
      clipTopology .release t (.minX 20) = .ok t' ∧ t'.regions.length = 0 ∧
      t'.edges.map (fun e => (e.points, e.ring0, e.ring1)) = [([⟨20, 10⟩, ⟨30, 10⟩], none, none)] := by
  have hok : ∃ t t', buildTopology .release exSpike = .ok t ∧ clipTopology .release t (.minX 20) = .ok t' ∧
      t'.regions.length = 0 ∧
      t'.edges.map (fun e => (e.points, e.ring0, e.ring1)) = [([⟨20, 10⟩, ⟨30, 10⟩], none, none)] := by
    have : ((buildTopology .release exSpike).toOption.bind fun t =>
        (clipTopology .release t (.minX 20)).toOption.map fun t' => decide (t'.regions.length = 0 ∧
          t'.edges.map (fun e => (e.points, e.ring0, e.ring1)) = [([⟨20, 10⟩, ⟨30, 10⟩], none, none)])) = some true := by
      decide +kernel
    cases hb : buildTopology .release exSpike with
    | error e => rw [hb] at this; cases this
    | ok t =>
      rw [hb] at this
      cases hc : clipTopology .release t (.minX 20) with
      | error e => simp [Except.toOption, hc] at this
      | ok t' =>
        refine ⟨t, t', rfl, hc, ?_⟩
        simpa [Except.toOption, hc] using this
  obtain ⟨t, t', h⟩ := hok
  exact ⟨exSpike, t, t', h⟩

end TopoGeo
