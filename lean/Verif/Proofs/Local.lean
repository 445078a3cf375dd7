import Verif.Proofs.Parts
import Verif.Proofs.Checked
/-!
# What becomes of a region by itself
-/

namespace TopoGeo

open Spec

variable {δ : Type} {m : Build}

/-- What a run without overflow checks gives. -/
theorem unchecked_ok {α : Type} {x : Build → R α} (h : StopsOrSame (x .debug) (x .release)) {a : α} (ha : x m = .ok a) :
    x .release = .ok a := by
  cases m with
  | release => exact ha
  | debug =>
    rcases h with h | h
    · rw [h] at ha; cases ha
    · rw [← h]; exact ha

/-! ## Finishing -/

/-- What a region with edge numbers looks like. -/
def drawnBuild (P : List (List Point)) (b : BuildRegion δ) : Drawn δ :=
  ⟨b.data, b.outerRings.map (List.map fun de => (P[de.edge]?, de.direction)),
    b.innerRings.map (List.map fun de => (P[de.edge]?, de.direction))⟩

theorem drawn_finish {P : List (List Point)} {B : List (BuildRegion δ)} {t : Topology δ} (h : finishTopology P B = .ok t) :
    drawn t = B.map (drawnBuild P) := by
  obtain ⟨_, hp, hr⟩ := finishTopology_backPointers h
  have hd : ∀ ring, drawnRing t ring = ring.directedEdges.map fun de => (P[de.edge]?, de.direction) := by
    intro ring
    unfold drawnRing
    rw [← hp]
    simp only [List.getElem?_map]
  unfold drawn
  simp only [funext hd]
  rw [hr, setRegionPtrs_eq, List.map_map]
  let F : TopoRegion δ → Drawn δ := fun r => ⟨r.data,
    r.outerRings.map fun ring => ring.directedEdges.map fun de => (P[de.edge]?, de.direction),
    r.innerRings.map fun ring => ring.directedEdges.map fun de => (P[de.edge]?, de.direction)⟩
  have h1 : ∀ (r : TopoRegion δ) (n : Nat), F (setRegionPtr n r) = F r := by
    intro r n
    simp [F, setRegionPtr, Function.comp_def]
  have h2 : (fun x : TopoRegion δ × Nat => F (setRegionPtr x.2 x.1)) = F ∘ Prod.fst := by
    funext x
    exact h1 x.1 x.2
  show (B.map toTopoRegion).zipIdx.map (fun x => F (setRegionPtr x.2 x.1)) = _
  rw [h2, ← List.map_map, List.zipIdx_map_fst, List.map_map]
  apply List.map_congr_left
  intro b _
  simp [F, toTopoRegion, drawnBuild, Function.comp_def]

/-! ## Building -/

/-- What becomes of a region. -/
def builtDrawn (r : Region δ) : Option (Drawn δ) :=
  let ring : Ring → List (Option (List Point) × Direction) := fun ring =>
    (ringPaths ring).map fun e => (some (stored e), if storedForward e then .forward else .backward)
  if keptRings r.outerRings = [] then none
  else some ⟨r.data, (keptRings r.outerRings).map ring, (keptRings r.innerRings).map ring⟩

theorem drawn_build {rs : List (Region δ)} {t : Topology δ} (h : buildTopology m rs = .ok t) :
    drawn t = rs.filterMap builtDrawn := by
  rw [drawn_finish (buildTopology_ok h), List.map_map]
  have h1 : ∀ k ∈ keptRegions rs, (drawnBuild (keysOf rs) ∘ toBuildRegion (keysOf rs)) k =
      ⟨k.data, k.outer.map (List.map fun e => (some (stored e), if storedForward e then .forward else .backward)),
        k.inner.map (List.map fun e => (some (stored e), if storedForward e then .forward else .backward))⟩ := by
    intro k hk
    have hd : ∀ e ∈ k.outer.flatten ++ k.inner.flatten, (keysOf rs)[(directedFor (keysOf rs) e).edge]? = some (stored e) :=
      fun e he => getElem?_keyIdx (stored_mem_keysOf (mem_allPaths hk he))
    simp only [Function.comp, drawnBuild, toBuildRegion, List.map_map]
    congr 1
    · apply List.map_congr_left
      intro p hp
      simp only [Function.comp, List.map_map]
      apply List.map_congr_left
      intro e he
      have := hd e (by simp only [List.mem_append, List.mem_flatten]; exact Or.inl ⟨p, hp, he⟩)
      simp only [Function.comp, this]
      rfl
    · apply List.map_congr_left
      intro p hp
      simp only [Function.comp, List.map_map]
      apply List.map_congr_left
      intro e he
      have := hd e (by simp only [List.mem_append, List.mem_flatten]; exact Or.inr ⟨p, hp, he⟩)
      simp only [Function.comp, this]
      rfl
  rw [List.map_congr_left h1]
  clear h1 h
  unfold keptRegions
  rw [List.map_map]
  induction rs with
  | nil => rfl
  | cons r rs ih =>
    rw [List.filter_cons, List.filterMap_cons]
    by_cases hr : keptRings r.outerRings = []
    · simp only [hr, builtDrawn, ne_eq, not_true_eq_false, decide_false, if_true, Bool.false_eq_true, if_false]
      exact ih
    · simp only [hr, builtDrawn, ne_eq, not_false_eq_true, decide_true, if_true, if_false, List.map_cons]
      rw [ih]
      simp [Function.comp_def]

/-! ## Simplifying -/

/-- What becomes of an edge. -/
def simplifiedPoints (s : Nat) (ps : List Point) : List Point :=
  match simplifyEdge .release ps s with
  | .ok qs => qs
  | .error _ => []

/-- What becomes of a region. -/
def simplifiedDrawn (s : Nat) (r : Drawn δ) : Drawn δ :=
  ⟨r.data, r.outer.map (List.map fun x => (x.1.map (simplifiedPoints s), x.2)),
    r.inner.map (List.map fun x => (x.1.map (simplifiedPoints s), x.2))⟩

theorem drawn_simplify {s : Nat} {t t' : Topology δ} (h : simplify m t s = .ok t') :
    drawn t' = (drawn t).map (simplifiedDrawn s) := by
  obtain ⟨h1, h2⟩ := C45_frame m t t' s h
  have hp : ∀ i : Nat, t'.edges[i]?.map TopoEdge.points = (t.edges[i]?.map TopoEdge.points).map (simplifiedPoints s) := by
    intro i
    cases he : t'.edges[i]? with
    | none =>
      have : t.edges[i]? = none := by
        rw [List.getElem?_eq_none_iff] at he ⊢
        rw [h2.length_eq]; exact he
      rw [this]; rfl
    | some e' =>
      obtain ⟨e, h3, h4⟩ := simplified_at h2 he
      have := unchecked_ok (x := fun m => simplifyEdge m e.points s) (simplifyEdge_checked _ _) h4.1
      rw [h3]
      simp [simplifiedPoints, this]
  have hd : ∀ ring, drawnRing t' ring = (drawnRing t ring).map fun x => (x.1.map (simplifiedPoints s), x.2) := by
    intro ring
    simp [drawnRing, Function.comp_def, ← hp]
  unfold drawn
  rw [h1, List.map_map]
  apply List.map_congr_left
  intro r _
  simp [simplifiedDrawn, Function.comp_def, hd]

/-! ## Clipping -/

/-- What is left of an edge. -/
def clippedTo (mask : ClipMask) (ps : List Point) : List Point :=
  match clipEdge .release mask ps with
  | .ok c => c
  | .error _ => []

/-- The path along stored points in a direction. -/
def drawnPath (x : Option (List Point) × Direction) : List Point := facing x.2 (x.1.getD [])

/-- A straight line. -/
def drawnPlug (p q : Point) : Option (List Point) × Direction :=
  if p < q then (some [p, q], .forward) else (some [q, p], .backward)

/-- What it takes to get from one point to another one. -/
def drawnGap : Option Point → Option Point → List (Option (List Point) × Direction)
  | some p, some q => if p = q then [] else [drawnPlug p q]
  | _, _ => []

/-- Fill the gaps. -/
def drawnBridge (prev : Option Point) : List (Option (List Point) × Direction) → List (Option (List Point) × Direction)
  | [] => []
  | e :: rest => drawnGap prev (drawnPath e).head? ++ e :: drawnBridge (drawnPath e).getLast? rest

/-- Fill all gaps. -/
def drawnCloseUp (l : List (Option (List Point) × Direction)) : List (Option (List Point) × Direction) :=
  drawnBridge none l ++ drawnGap (l.getLast?.bind fun e => (drawnPath e).getLast?) (l.head?.bind fun e => (drawnPath e).head?)

/-- What is left of an edge in a direction, if anything. -/
def drawnVisible (mask : ClipMask) (x : Option (List Point) × Direction) : Option (Option (List Point) × Direction) :=
  let c := (x.1.map (clippedTo mask)).getD []
  if c = [] then none else some (some c, x.2)

/-- What is left of rings. -/
def drawnClipped (mask : ClipMask) (rings : List (List (Option (List Point) × Direction))) :
    List (List (Option (List Point) × Direction)) :=
  (rings.map fun ring => drawnCloseUp (ring.filterMap (drawnVisible mask))).filter fun l =>
    wrap64 (shoelaceEdges (l.map drawnPath)) ≠ 0

/-- What becomes of a region. -/
def clippedDrawn (mask : ClipMask) (r : Drawn δ) : Option (Drawn δ) :=
  if drawnClipped mask r.outer = [] then none
  else some ⟨r.data, drawnClipped mask r.outer, drawnClipped mask r.inner⟩

/-- What a piece looks like. -/
def drawPiece (cs : List (List Point)) (pc : Piece) : Option (List Point) × Direction := (some (pc.edge.points cs), pc.direction)

theorem drawnPath_piece (cs : List (List Point)) (pc : Piece) : drawnPath (drawPiece cs pc) = pc.path cs := rfl

theorem gap_drawn (cs : List (List Point)) (o1 o2 : Option Point) : (gap o1 o2).map (drawPiece cs) = drawnGap o1 o2 := by
  match o1, o2 with
  | none, none => rfl
  | none, some _ => rfl
  | some _, none => rfl
  | some p, some q =>
    simp only [gap, drawnGap]
    split
    · rfl
    · simp only [List.map_cons, List.map_nil, plugPiece, drawnPlug]
      split <;> rfl

theorem bridge_drawn (cs : List (List Point)) (ps : List Piece) (prev : Option Point) :
    (bridge cs prev ps).map (drawPiece cs) = drawnBridge prev (ps.map (drawPiece cs)) := by
  induction ps generalizing prev with
  | nil => rfl
  | cons e rest ih =>
    simp only [bridge, List.map_append, List.map_cons, drawnBridge, gap_drawn, drawnPath_piece, ih]

theorem closeUp_drawn (cs : List (List Point)) (ps : List Piece) :
    (closeUp cs ps).map (drawPiece cs) = drawnCloseUp (ps.map (drawPiece cs)) := by
  unfold closeUp drawnCloseUp
  rw [List.map_append, bridge_drawn, gap_drawn]
  congr 2
  · unfold endOf
    rw [List.getLast?_map]
    cases ps.getLast? <;> rfl
  · unfold startOf
    rw [List.head?_map]
    cases ps.head? <;> rfl

theorem clippedBy_points {mask : ClipMask} {edges : List TopoEdge} {cs : List (List Point)} (h : ClippedBy m mask edges cs) (i : Nat) :
    cs[i]? = (edges[i]?.map (·.points)).map (clippedTo mask) := by
  cases hc : cs[i]? with
  | none =>
    have : edges[i]? = none := by
      rw [List.getElem?_eq_none_iff] at hc ⊢
      rw [h.length_eq]; exact hc
    rw [this]; rfl
  | some c =>
    obtain ⟨e, h1, h2⟩ := clippedBy_at h hc
    have := unchecked_ok (x := fun m => clipEdge m mask e.points) (clipEdge_checked _ _) h2
    rw [h1]
    simp [clippedTo, this]

theorem keptClipped_drawn {mask : ClipMask} {t : Topology δ} {cs : List (List Point)} (h : ClippedBy m mask t.edges cs)
    (rings : List TopoRing) :
    (keptClipped cs rings).map (List.map (drawPiece cs)) = drawnClipped mask (rings.map (drawnRing t)) := by
  have hv : ∀ ring : TopoRing, (ring.directedEdges.filterMap (visiblePiece cs)).map (drawPiece cs) =
      (drawnRing t ring).filterMap (drawnVisible mask) := by
    intro ring
    unfold drawnRing
    rw [List.map_filterMap, List.filterMap_map]
    apply List.filterMap_congr
    intro de _
    simp only [Function.comp, visiblePiece, drawnVisible, ← clippedBy_points h]
    split <;> rfl
  have hp : ∀ ring : TopoRing, (clippedPieces cs ring).map (drawPiece cs) =
      drawnCloseUp ((drawnRing t ring).filterMap (drawnVisible mask)) := by
    intro ring
    unfold clippedPieces
    rw [closeUp_drawn, hv]
  unfold keptClipped drawnClipped
  rw [List.map_map]
  have : (rings.map ((fun ring => drawnCloseUp (ring.filterMap (drawnVisible mask))) ∘ drawnRing t)) =
      (rings.map (clippedPieces cs)).map (List.map (drawPiece cs)) := by
    rw [List.map_map]
    exact List.map_congr_left fun ring _ => (hp ring).symm
  rw [this]
  generalize rings.map (clippedPieces cs) = l
  rw [List.filter_map]
  congr 1
  apply List.filter_congr
  intro ps _
  simp only [Function.comp, piecesArea, List.map_map]
  rfl

theorem drawn_clipped {mask : ClipMask} {t t' : Topology δ} (h : clipTopology m t mask = .ok t') :
    ∃ cs, ClippedBy m mask t.edges cs ∧ drawn t' = (clippedRegions cs t.regions).map fun r =>
      ⟨r.data, r.outer.map (List.map (drawPiece cs)), r.inner.map (List.map (drawPiece cs))⟩ := by
  obtain ⟨cs, hcs, hfin⟩ := clipTopology_ok h
  refine ⟨cs, hcs, ?_⟩
  rw [drawn_finish hfin]
  unfold clippedBuild
  rw [List.map_map]
  have h1 : ∀ r ∈ clippedRegions cs t.regions,
      (drawnBuild (clippedPoints cs t) ∘ toBuild cs (cs.filter (· ≠ [])).length (newKeys cs t)) r =
      ⟨r.data, r.outer.map (List.map (drawPiece cs)), r.inner.map (List.map (drawPiece cs))⟩ := by
    intro r hr
    have hd : ∀ pc ∈ r.outer.flatten ++ r.inner.flatten,
        (clippedPoints cs t)[(toDE cs (cs.filter (· ≠ [])).length (newKeys cs t) pc).edge]? = some (pc.edge.points cs) :=
      fun pc hpc => clippedPoints_place (valid_of_mem (List.mem_flatMap.mpr ⟨r, hr, hpc⟩))
    simp only [Function.comp, drawnBuild, toBuild, List.map_map]
    congr 1
    · apply List.map_congr_left
      intro p hp
      simp only [Function.comp, List.map_map]
      apply List.map_congr_left
      intro e he
      have := hd e (by simp only [List.mem_append, List.mem_flatten]; exact Or.inl ⟨p, hp, he⟩)
      simp only [Function.comp, this]
      rfl
    · apply List.map_congr_left
      intro p hp
      simp only [Function.comp, List.map_map]
      apply List.map_congr_left
      intro e he
      have := hd e (by simp only [List.mem_append, List.mem_flatten]; exact Or.inr ⟨p, hp, he⟩)
      simp only [Function.comp, this]
      rfl
  exact List.map_congr_left h1

theorem drawn_clip {mask : ClipMask} {t t' : Topology δ} (h : clipTopology m t mask = .ok t') :
    drawn t' = (drawn t).filterMap (clippedDrawn mask) := by
  obtain ⟨cs, hcs, hd⟩ := drawn_clipped h
  rw [hd]
  unfold clippedRegions drawn
  rw [List.map_map, List.filterMap_map]
  clear hd h
  generalize t.regions = rs
  induction rs with
  | nil => rfl
  | cons r rs ih =>
    have ho := keptClipped_drawn hcs r.outerRings
    have hi := keptClipped_drawn hcs r.innerRings
    rw [List.filter_cons, List.filterMap_cons]
    by_cases hr : keptClipped cs r.outerRings = []
    · have hr' : drawnClipped mask (r.outerRings.map (drawnRing t)) = [] := by rw [← ho, hr]; rfl
      simp only [hr, ne_eq, not_true_eq_false, decide_false, Bool.false_eq_true, if_false]
      rw [show (clippedDrawn mask ∘ fun r : TopoRegion δ => (⟨r.data, r.outerRings.map (drawnRing t), r.innerRings.map (drawnRing t)⟩ : Drawn δ)) r
        = none by simp [clippedDrawn, hr']]
      exact ih
    · have hr' : drawnClipped mask (r.outerRings.map (drawnRing t)) ≠ [] := by
        rw [← ho]; simpa using hr
      simp only [hr, ne_eq, not_false_eq_true, decide_true, if_true, List.map_cons]
      rw [show (clippedDrawn mask ∘ fun r : TopoRegion δ => (⟨r.data, r.outerRings.map (drawnRing t), r.innerRings.map (drawnRing t)⟩ : Drawn δ)) r
        = some ⟨r.data, drawnClipped mask (r.outerRings.map (drawnRing t)), drawnClipped mask (r.innerRings.map (drawnRing t))⟩ by
          simp [clippedDrawn, hr']]
      dsimp only
      rw [← ih]
      simp only [Function.comp, ho, hi]

end TopoGeo
