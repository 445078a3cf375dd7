import Verif.Proofs.SymmetryClip
import Verif.Spec.MovedMap
/-!
# Building the topology of a mirrored or turned map
-/

namespace TopoGeo

open Spec

variable {m : Build} {δ : Type} (g : GridSymmetry)

/-! ## What is seen of a topology -/

theorem outlines_drawn (t : Topology δ) : outlines t = (drawn t).map fun d =>
    ⟨d.data, d.outer.map (List.map drawnPath), d.inner.map (List.map drawnPath)⟩ := by
  have h : ∀ ring : TopoRing, pathsOf t ring = (drawnRing t ring).map drawnPath := by
    intro ring
    unfold pathsOf drawnRing
    rw [List.map_map]
    apply List.map_congr_left
    intro de _
    simp only [Function.comp, drawnPath, pathOf, walk]
    cases t.edges[de.edge]? with
    | none => cases de.direction <;> rfl
    | some e => cases de.direction <;> rfl
  unfold outlines drawn
  rw [List.map_map]
  apply List.map_congr_left
  intro r _
  simp [Function.comp_def, funext h]

theorem outlines_clip {mask : ClipMask} {t t' : Topology δ} (h : clipTopology m t mask = .ok t') :
    ∃ cs, ClippedBy m mask t.edges cs ∧ outlines t' = (clippedRegions cs t.regions).map fun r =>
      ⟨r.data, r.outer.map (List.map (Piece.path cs)), r.inner.map (List.map (Piece.path cs))⟩ := by
  obtain ⟨cs, h1, h2⟩ := drawn_clipped h
  refine ⟨cs, h1, ?_⟩
  rw [outlines_drawn, h2, List.map_map]
  apply List.map_congr_left
  intro r _
  have e : drawnPath ∘ drawPiece cs = Piece.path cs := funext (drawnPath_piece cs)
  simp [Function.comp_def, ← e]

theorem clippedBy_unique {mask : ClipMask} {edges : List TopoEdge} {cs ds : List (List Point)} (h : ClippedBy m mask edges cs)
    (h' : ClippedBy m mask edges ds) : cs = ds := by
  unfold ClippedBy at h h'
  induction h generalizing ds with
  | nil => cases h'; rfl
  | cons h1 _ ih =>
    cases h' with
    | cons h2 h3 =>
      rw [h1] at h2
      rw [Except.ok.inj h2, ih h3]

theorem outlines_turned {mask : ClipMask} {t t1 t2 : Topology δ} (h1 : clipTopology m t mask = .ok t1)
    (h2 : clipTopology m (g.topology t) (g.mask mask) = .ok t2) : outlines t2 = (outlines t1).map g.outline := by
  obtain ⟨cs, a1, a2⟩ := outlines_clip h1
  obtain ⟨ds, b1, b2⟩ := outlines_clip h2
  obtain rfl := clippedBy_unique b1 (clippedBy_turned g a1)
  rw [a2, b2]
  show (clippedRegions _ t.regions).map _ = _
  rw [clippedRegions_turned, List.map_map, List.map_map]
  apply List.map_congr_left
  intro r _
  simp [turnClipped, GridSymmetry.outline, turnPiece_path, Function.comp_def]

/-! ## Building -/

theorem pairs_turned (ps : List Point) : pairs (g.path ps) = (pairs ps).map g.path :=
  match ps with
  | [] => rfl
  | [_] => rfl
  | p :: q :: rest => by
    have := pairs_turned (q :: rest)
    show [g.point p, g.point q] :: pairs (g.path (q :: rest)) = _
    rw [this]; rfl

theorem zeroLength_turned (e : List Point) : ZeroLength (g.path e) ↔ ZeroLength e := by
  unfold ZeroLength
  rw [List.length_map]
  refine or_congr_right ?_
  constructor
  · rintro ⟨p, hp⟩
    have hl : (g.path e).length = 2 := by rw [hp]; rfl
    rw [List.length_map] at hl
    obtain ⟨a, b, rfl⟩ := List.length_eq_two.mp hl
    obtain ⟨h1, h2⟩ : g.point a = p ∧ g.point b = p := by simpa using hp
    exact ⟨a, by rw [(symmetry_inj g).mp (h1.trans h2.symm)]⟩
  · rintro ⟨p, rfl⟩
    exact ⟨g.point p, rfl⟩

theorem ringPaths_turned (r : Ring) : ringPaths (g.ring r) = (ringPaths r).map g.path := by
  have h : ∀ l : List (List Point), (l.map g.path).filter (fun e => ¬ ZeroLength e) = (l.filter fun e => ¬ ZeroLength e).map g.path := by
    intro l
    rw [List.filter_map]
    congr 1
    apply List.filter_congr
    intro e _
    simp [zeroLength_turned]
  cases r with
  | points ps => simp only [ringPaths, GridSymmetry.ring, pairs_turned, h]
  | edges es => simp only [ringPaths, GridSymmetry.ring, h]

theorem ringArea_turned {r : Ring} (hc : RingCloses r) : ringArea (g.ring r) = 0 ↔ ringArea r = 0 := by
  have : ringShoelace (g.ring r) = turnSign g * ringShoelace r := by
    cases r with
    | points ps =>
      cases ps with
      | nil => simp [GridSymmetry.ring, ringShoelace, shoelace]
      | cons p t =>
        have hl : (p :: t).getLast? = some p := by
          have : (p :: t).head? = (p :: t).getLast? := hc
          rw [← this]; rfl
        have := shoelace_symmetry g (ps := p :: t) rfl hl
        simp only [GridSymmetry.ring, ringShoelace]
        rw [this]; ring
    | edges es =>
      rcases hc with rfl | ⟨_, a, ha⟩
      · simp [GridSymmetry.ring, ringShoelace, shoelaceEdges]
      · have := shoelaceEdges_symmetry g ha
        simp only [GridSymmetry.ring, ringShoelace]
        rw [this]; ring
  unfold ringArea
  rw [this, wrap64_turned]

theorem keptRings_turned {rs : List Ring} (hc : ∀ r ∈ rs, RingCloses r) :
    keptRings (rs.map g.ring) = (keptRings rs).map g.ring := by
  unfold keptRings
  rw [List.filter_map]
  congr 1
  apply List.filter_congr
  intro r hr
  simp [ringArea_turned g (hc r hr)]

theorem keptRegions_turned {rs : List (Region δ)}
    (hc : ∀ r ∈ rs, ∀ ring ∈ r.outerRings ++ r.innerRings, RingCloses ring) :
    keptRegions (rs.map g.region) = (keptRegions rs).map fun k =>
      ⟨k.data, k.outer.map (List.map g.path), k.inner.map (List.map g.path)⟩ := by
  unfold keptRegions
  rw [List.filter_map, List.map_map, List.map_map]
  have h1 : ∀ r ∈ rs, keptRings (g.region r).outerRings = (keptRings r.outerRings).map g.ring := fun r hr =>
    keptRings_turned g fun ring h => hc r hr ring (by simp [h])
  have h2 : ∀ r ∈ rs, keptRings (g.region r).innerRings = (keptRings r.innerRings).map g.ring := fun r hr =>
    keptRings_turned g fun ring h => hc r hr ring (by simp [h])
  have h3 : rs.filter ((fun r : Region δ => decide (keptRings r.outerRings ≠ [])) ∘ g.region) =
      rs.filter fun r => keptRings r.outerRings ≠ [] := by
    apply List.filter_congr
    intro r hr
    simp [h1 r hr]
  rw [h3]
  apply List.map_congr_left
  intro r hr
  have hr := List.mem_of_mem_filter hr
  simp only [Function.comp_def, h1 r hr, h2 r hr, List.map_map, ringPaths_turned]
  rfl

theorem outlines_build {rs : List (Region δ)} {t : Topology δ} (h : buildTopology m rs = .ok t) :
    outlines t = (keptRegions rs).map fun k => ⟨k.data, k.outer, k.inner⟩ := by
  have hp : ∀ e : List Point, drawnPath (some (stored e), if storedForward e then Direction.forward else Direction.backward) = e := by
    intro e
    unfold drawnPath stored
    by_cases hf : storedForward e
    · simp [hf, facing]
    · simp [hf, facing]
  rw [outlines_drawn, drawn_build h]
  unfold keptRegions
  clear h
  induction rs with
  | nil => rfl
  | cons r rs ih =>
    rw [List.filterMap_cons, List.filter_cons]
    by_cases hr : keptRings r.outerRings = []
    · simp only [builtDrawn, hr, if_true, ne_eq, not_true_eq_false, decide_false, Bool.false_eq_true, if_false]
      exact ih
    · simp only [builtDrawn, hr, if_false, ne_eq, not_false_eq_true, decide_true, if_true, List.map_cons, ih, List.map_map,
        Function.comp_def, hp, List.map_id_fun', id]

theorem allPaths_turned {rs : List (Region δ)}
    (hc : ∀ r ∈ rs, ∀ ring ∈ r.outerRings ++ r.innerRings, RingCloses ring) :
    allPaths (rs.map g.region) = (allPaths rs).map g.path := by
  unfold allPaths
  rw [keptRegions_turned g hc, List.flatMap_map, List.map_flatMap]
  congr 1
  funext k
  simp [List.map_flatten]

/-! ## Which paths are one edge -/

theorem not_orientable {e : List Point} (h : ¬ Orientable e) : storedForward e.reverse ↔ storedForward e := by
  obtain ⟨h1, h2⟩ : e.head? = e.getLast? ∧ (pathArea e = 0 ∨ pathArea e = -2 ^ 63) := by
    unfold Orientable at h
    push Not at h
    refine ⟨h.1, ?_⟩
    by_cases h0 : pathArea e = 0
    · exact .inl h0
    · exact .inr (h.2 h0)
  unfold storedForward
  rw [List.head?_reverse, List.getLast?_reverse, pathArea_reverse, h1]
  rcases h2 with h2 | h2 <;> rw [h2] <;> simp

theorem stored_eq {e f : List Point} : stored e = stored f ↔ e = f ∨ (e = f.reverse ∧ Orientable f) := by
  constructor
  · intro h
    unfold stored at h
    by_cases he : storedForward e <;> by_cases hf : storedForward f
    · rw [if_pos he, if_pos hf] at h; exact .inl h
    · rw [if_pos he, if_neg hf] at h
      subst h
      refine .inr ⟨rfl, ?_⟩
      by_contra hn
      exact hf ((not_orientable hn).mp he)
    · rw [if_neg he, if_pos hf] at h
      obtain rfl : e = f.reverse := by rw [← h, List.reverse_reverse]
      refine .inr ⟨rfl, ?_⟩
      by_contra hn
      exact he ((not_orientable hn).mpr hf)
    · rw [if_neg he, if_neg hf] at h; exact .inl (List.reverse_injective h)
  · rintro (rfl | ⟨rfl, h⟩)
    · rfl
    · exact (stored_reverse h).1

theorem orientable_turned (e : List Point) : Orientable (g.path e) ↔ Orientable e := by
  unfold Orientable
  cases h1 : e.head? with
  | none =>
    obtain rfl : e = [] := by simpa using h1
    exact Iff.rfl
  | some a =>
    obtain ⟨z, hz⟩ : ∃ z, e.getLast? = some z := by
      cases h2 : e.getLast? with
      | none =>
        obtain rfl : e = [] := by simpa using h2
        cases h1
      | some z => exact ⟨z, rfl⟩
    rw [List.head?_map, List.getLast?_map, h1, hz]
    simp only [Option.map_some, ne_eq, Option.some.injEq, symmetry_inj]
    by_cases haz : a = z
    · subst haz
      have := shoelace_symmetry g h1 hz
      have e2 : shoelace (g.path e) = turnSign g * shoelace e := by rw [this]; ring
      unfold pathArea
      rw [e2]
      simp only [not_true_eq_false, false_or]
      rcases turnSign_cases g with h | h <;> rw [h] <;> unfold wrap64 <;> omega
    · simp [haz]

theorem stored_turned (e f : List Point) : stored (g.path e) = stored (g.path f) ↔ stored e = stored f := by
  have hi : Function.Injective g.path := List.map_injective_iff.mpr fun _ _ h => (symmetry_inj g).mp h
  rw [stored_eq, stored_eq, orientable_turned, ← List.map_reverse]
  exact or_congr ⟨fun h => hi h, fun h => by rw [h]⟩ (and_congr_left fun _ => ⟨fun h => hi h, fun h => by rw [h]⟩)

theorem thrice_iff {rs : List (Region δ)} : (∃ p, 3 ≤ ((allPaths rs).filter fun e => stored e = p).length) ↔
    ∃ f, 3 ≤ ((allPaths rs).filter fun e => stored e = stored f).length := by
  constructor
  · rintro ⟨p, hp⟩
    cases hl : (allPaths rs).filter fun e => stored e = p with
    | nil => rw [hl] at hp; simp at hp
    | cons f l =>
      have : f ∈ (allPaths rs).filter fun e => stored e = p := by rw [hl]; simp
      have := (List.mem_filter.mp this).2
      simp only [decide_eq_true_eq] at this
      exact ⟨f, by rw [this]; exact hp⟩
  · rintro ⟨f, h⟩
    exact ⟨_, h⟩

theorem thrice_turned {rs : List (Region δ)}
    (hc : ∀ r ∈ rs, ∀ ring ∈ r.outerRings ++ r.innerRings, RingCloses ring) :
    (∃ p, 3 ≤ ((allPaths (rs.map g.region)).filter fun e => stored e = p).length) ↔
      ∃ p, 3 ≤ ((allPaths rs).filter fun e => stored e = p).length := by
  have hcount : ∀ f, ((allPaths (rs.map g.region)).filter fun e => stored e = stored (g.path f)).length =
      ((allPaths rs).filter fun e => stored e = stored f).length := by
    intro f
    rw [allPaths_turned g hc, List.filter_map, List.length_map]
    congr 1
    apply List.filter_congr
    intro e _
    simp [stored_turned]
  rw [thrice_iff, thrice_iff]
  constructor
  · rintro ⟨f, hf⟩
    cases hl : (allPaths (rs.map g.region)).filter fun e => stored e = stored f with
    | nil => rw [hl] at hf; simp at hf
    | cons f' l =>
      have h1 : f' ∈ (allPaths (rs.map g.region)).filter fun e => stored e = stored f := by rw [hl]; simp
      obtain ⟨h2, h3⟩ := List.mem_filter.mp h1
      simp only [decide_eq_true_eq] at h3
      rw [allPaths_turned g hc] at h2
      obtain ⟨e, _, rfl⟩ := List.mem_map.mp h2
      rw [← h3] at hf
      exact ⟨e, by rw [← hcount]; exact hf⟩
  · rintro ⟨f, hf⟩
    exact ⟨g.path f, by rw [hcount]; exact hf⟩

end TopoGeo
