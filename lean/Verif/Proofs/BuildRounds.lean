import Verif.Proofs.OperationsTime
import Verif.Spec.Rounds
/-!
# Rounds of building a topology
-/

namespace TopoGeo

open Timed Spec

/-- The rounds of a sequence, when those of the second part depend on what the
first part has used. -/
theorem rounds_bind_le {α β : Type} {x : Timed α} {f : α → Timed β} {n : Nat}
    (he : ∀ e, x.result = .error e → x.rounds ≤ n) (ho : ∀ a, x.result = .ok a → x.rounds + (f a).rounds ≤ n) :
    (x >>= f).rounds ≤ n := by
  cases x with
  | panic e k => exact he e rfl
  | done a k =>
    show ((f a).after k).rounds ≤ n
    rw [rounds_after]
    exact ho a rfl

theorem pathRounds_eq (ps : List (List Point)) : pathRounds ps = pathsVolume ps := rfl

theorem pathsVolume_cons (p : List Point) (ps : List (List Point)) :
    pathsVolume (p :: ps) = p.length + 1 + pathsVolume ps := by simp [pathsVolume]

theorem pathsVolume_length (ps : List (List Point)) : ps.length ≤ pathsVolume ps := by
  induction ps with
  | nil => simp [pathsVolume]
  | cons p ps ih => rw [pathsVolume_cons, List.length_cons]; omega

theorem signedArea2T_rounds (m : Build) (ps : List Point) : (signedArea2T m ps).rounds ≤ ps.length :=
  rounds_ticks_bind (l := 0) (by simp)

theorem edgesAreaLoopT_rounds (m : Build) (a : Int) (es : List Edge) :
    (edgesAreaLoopT m a es).rounds ≤ pathsVolume es := by
  induction es generalizing a with
  | nil => simp [edgesAreaLoopT, pathsVolume]
  | cons e rest ih =>
    rw [pathsVolume_cons]
    have : (edgesAreaLoopT m a (e :: rest)).rounds ≤ (e.length + pathsVolume rest) + 1 :=
      rounds_tick_bind (rounds_bind (signedArea2T_rounds m e) fun t _ => rounds_lift_bind fun a' _ => ih a')
    omega

theorem canonicalizeT_rounds (m : Build) (ps : List Point) : (canonicalizeT m ps).rounds ≤ 3 * ps.length := by
  unfold canonicalizeT
  cases ps.head? with
  | none => simp
  | some p1 =>
    cases ps.getLast? with
    | none => simp
    | some p2 =>
      dsimp only
      split
      · simp
      · split
        · refine Nat.le_trans (rounds_ticks_bind (l := ps.length + (ps.length + 0))
            (rounds_bind (k := ps.length) ?_ fun w _ => ?_)) (by omega)
          · exact rounds_ticks_bind (l := 0) (by simp)
          · split
            · simp
            · exact rounds_ticks_bind (by simp)
        · exact Nat.le_trans (rounds_ticks_bind (l := 0) (by simp)) (by omega)

theorem canonicalize_length {m : Build} {ps : List Point} {x : List Point × Direction} (h : canonicalize m ps = .ok x) :
    x.1.length = ps.length := by
  unfold canonicalize at h
  cases h1 : ps.head? with
  | none => rw [h1] at h; cases h
  | some p1 =>
    cases h2 : ps.getLast? with
    | none => rw [h1, h2] at h; cases h
    | some p2 =>
      rw [h1, h2] at h
      dsimp only at h
      split at h
      · obtain rfl := Except.ok.inj h; rfl
      · split at h
        · rw [bind_ok] at h
          obtain ⟨w, _, h⟩ := h
          split at h <;> obtain rfl := Except.ok.inj h <;> simp
        · obtain rfl := Except.ok.inj h; simp

theorem buildDirectedEdgeT_rounds (m : Build) (es : EdgeMap) (e : Edge) :
    (buildDirectedEdgeT m es e).rounds ≤ 6 * e.length + 1 := by
  have : (buildDirectedEdgeT m es e).rounds ≤ e.length + (3 * e.length + (2 * e.length + 1 + 0)) := by
    refine rounds_ticks_bind ?_
    split
    · simp
    · refine rounds_bind (canonicalizeT_rounds m e) fun x hx => ?_
      rw [canonicalizeT_result] at hx
      rw [canonicalize_length hx]
      exact rounds_ticks_bind (by simp)
  omega

theorem mapEntry_length {κ : Type u} [DecidableEq κ] (n : Nat) (k : κ) (es : List (κ × Nat)) :
    (mapEntry n k es).2.length ≤ es.length + 1 := by
  unfold mapEntry
  split <;> simp

theorem buildDirectedEdge_length {m : Build} {es : EdgeMap} {e : Edge} {x : Option DirectedEdge × EdgeMap}
    (h : buildDirectedEdge m es e = .ok x) : x.2.length ≤ es.length + 1 := by
  unfold buildDirectedEdge at h
  split at h
  · obtain rfl := Except.ok.inj h; simp
  · rw [bind_ok] at h
    obtain ⟨y, _, h⟩ := h
    obtain rfl := Except.ok.inj h
    exact mapEntry_length ..

theorem buildDirectedEdgesT_rounds (m : Build) (es : EdgeMap) (edges : List Edge) :
    (buildDirectedEdgesT m es edges).rounds ≤ 6 * pathsVolume edges := by
  induction edges generalizing es with
  | nil => simp [buildDirectedEdgesT]
  | cons e rest ih =>
    rw [pathsVolume_cons]
    have : (buildDirectedEdgesT m es (e :: rest)).rounds ≤ (6 * e.length + 1 + (6 * pathsVolume rest + 0)) + 1 :=
      rounds_tick_bind (rounds_bind (buildDirectedEdgeT_rounds m es e) fun o _ =>
        rounds_bind (ih o.2) fun ds _ => by simp)
    omega

theorem buildDirectedEdges_length {m : Build} {es : EdgeMap} {edges : List Edge} {x : List DirectedEdge × EdgeMap}
    (h : buildDirectedEdges m es edges = .ok x) :
    x.1.length ≤ edges.length ∧ x.2.length ≤ es.length + edges.length := by
  induction edges generalizing es x with
  | nil => obtain rfl := Except.ok.inj h; simp
  | cons e rest ih =>
    simp only [buildDirectedEdges, bind_ok] at h
    obtain ⟨o, h1, ds, h2, h⟩ := h
    obtain rfl := Except.ok.inj h
    have a1 := buildDirectedEdge_length h1
    have a2 := ih h2
    have a3 : o.1.toList.length ≤ 1 := by cases o.1 <;> simp
    simp only [List.length_append, List.length_cons]
    omega

theorem tupleWindows_length {α : Type} (l : List α) : (tupleWindows l).length ≤ l.length := by
  match l with
  | [] => simp [tupleWindows]
  | [_] => simp [tupleWindows]
  | a :: b :: rest =>
    have := tupleWindows_length (b :: rest)
    simp only [tupleWindows, List.length_cons] at *
    omega

theorem getEdges_volume (r : Ring) : pathsVolume r.getEdges ≤ 3 * ringVolume r := by
  cases r with
  | points ps =>
    have h1 : pathsVolume (Ring.points ps).getEdges = 3 * (tupleWindows ps).length := by
      unfold Ring.getEdges pathsVolume
      rw [List.map_map]
      induction tupleWindows ps with
      | nil => rfl
      | cons a l ih => simp only [List.map_cons, List.sum_cons, ih, List.length_cons, Function.comp_apply, List.length_nil]; omega
    have h2 := tupleWindows_length ps
    simp only [ringVolume]
    omega
  | edges es => simp only [ringVolume, Ring.getEdges]; omega

theorem getEdges_length_volume (r : Ring) : r.getEdges.length + 1 ≤ ringVolume r := by
  cases r with
  | points ps =>
    have h2 := tupleWindows_length ps
    simp only [ringVolume, Ring.getEdges, List.length_map]
    omega
  | edges es =>
    have := pathsVolume_length es
    simp only [ringVolume, Ring.getEdges]
    omega

theorem ringAreaT_rounds (m : Build) (r : Ring) : (r.area2AndWindingOrderT m).rounds + 1 ≤ ringVolume r := by
  cases r with
  | points ps =>
    have : ((Ring.points ps).area2AndWindingOrderT m).rounds ≤ ps.length := rounds_ticks_bind (l := 0) (by simp)
    simp only [ringVolume]; omega
  | edges es =>
    have : ((Ring.edges es).area2AndWindingOrderT m).rounds ≤ pathsVolume es + 0 :=
      rounds_bind (edgesAreaLoopT_rounds m 0 es) fun _ _ => by simp
    simp only [ringVolume]; omega

theorem buildRingT_rounds (m : Build) (es : EdgeMap) (r : Ring) :
    (buildRingT m es r).rounds + 1 ≤ 22 * ringVolume r := by
  have h1 := ringAreaT_rounds m r
  have h2 := getEdges_volume r
  have : (buildRingT m es r).rounds ≤ (r.area2AndWindingOrderT m).rounds +
      (pathsVolume r.getEdges + (6 * pathsVolume r.getEdges + 0)) := by
    refine rounds_bind (Nat.le_refl _) fun a _ => ?_
    split
    · simp
    · exact rounds_ticks_bind (rounds_bind (buildDirectedEdgesT_rounds ..) fun _ _ => by simp)
  omega

/-- The size of rings. -/
def ringsVolume (rs : List Ring) : Nat := (rs.map ringVolume).sum

theorem ringsVolume_cons (r : Ring) (rs : List Ring) : ringsVolume (r :: rs) = ringVolume r + ringsVolume rs := by
  simp [ringsVolume]

theorem regionVolume_eq {δ : Type} (r : Region δ) :
    regionVolume r = 1 + ringsVolume r.outerRings + ringsVolume r.innerRings := by
  simp only [regionVolume, ringsVolume, List.map_append, List.sum_append]; omega

theorem buildRingsT_rounds (m : Build) (es : EdgeMap) (rs : List Ring) :
    (buildRingsT m es rs).rounds ≤ 22 * ringsVolume rs := by
  induction rs generalizing es with
  | nil => simp [buildRingsT]
  | cons r rest ih =>
    rw [ringsVolume_cons]
    have h1 := buildRingT_rounds m es r
    have : (buildRingsT m es (r :: rest)).rounds ≤ ((buildRingT m es r).rounds + (22 * ringsVolume rest + 0)) + 1 :=
      rounds_tick_bind (rounds_bind (Nat.le_refl _) fun o _ => rounds_bind (ih o.2) fun _ _ => by simp)
    omega

theorem addRegionT_rounds {δ : Type} (m : Build) (b : TopologyBuilder δ) (r : Region δ) :
    (b.addRegionT m r).rounds ≤ 22 * regionVolume r := by
  rw [regionVolume_eq]
  have : (b.addRegionT m r).rounds ≤ (22 * ringsVolume r.outerRings + (22 * ringsVolume r.innerRings + 0)) + 1 := by
    refine rounds_tick_bind (rounds_bind (buildRingsT_rounds ..) fun o _ => ?_)
    split
    · exact rounds_bind (buildRingsT_rounds ..) fun _ _ => by simp
    · simp
  omega

theorem addRegionsT_rounds {δ : Type} (m : Build) (b : TopologyBuilder δ) (rs : List (Region δ)) :
    (b.addRegionsT m rs).rounds ≤ 22 * regionsVolume rs := by
  induction rs generalizing b with
  | nil => simp [TopologyBuilder.addRegionsT]
  | cons r rest ih =>
    have : (b.addRegionsT m (r :: rest)).rounds ≤ 22 * regionVolume r + 22 * regionsVolume rest :=
      rounds_bind (addRegionT_rounds m b r) fun b' _ => ih b'
    have e : regionsVolume (r :: rest) = regionVolume r + regionsVolume rest := by simp [regionsVolume]
    omega

/-! ## What the builder holds -/

/-- The size of built rings. -/
def builtVolume (rs : List BuildRing) : Nat := (rs.map fun ring => 1 + ring.length).sum

theorem buildRing_length {m : Build} {es : EdgeMap} {r : Ring} {x : Option BuildRing × EdgeMap}
    (h : buildRing m es r = .ok x) :
    builtVolume x.1.toList ≤ ringVolume r ∧ x.2.length ≤ es.length + ringVolume r := by
  have hg := getEdges_length_volume r
  simp only [buildRing, bind_ok] at h
  obtain ⟨a, _, h⟩ := h
  split at h
  · obtain rfl := Except.ok.inj h
    simp [builtVolume]
  · rw [bind_ok] at h
    obtain ⟨ds, h2, h⟩ := h
    obtain rfl := Except.ok.inj h
    have := buildDirectedEdges_length h2
    simp only [builtVolume, Option.toList, List.map_cons, List.map_nil, List.sum_cons, List.sum_nil]
    omega

theorem builtVolume_append (a b : List BuildRing) : builtVolume (a ++ b) = builtVolume a + builtVolume b := by
  simp [builtVolume]

theorem buildRings_length {m : Build} {es : EdgeMap} {rs : List Ring} {x : List BuildRing × EdgeMap}
    (h : buildRings m es rs = .ok x) :
    builtVolume x.1 ≤ ringsVolume rs ∧ x.2.length ≤ es.length + ringsVolume rs := by
  induction rs generalizing es x with
  | nil => obtain rfl := Except.ok.inj h; simp [builtVolume]
  | cons r rest ih =>
    simp only [buildRings, bind_ok] at h
    obtain ⟨o, h1, rs', h2, h⟩ := h
    obtain rfl := Except.ok.inj h
    have a1 := buildRing_length h1
    have a2 := ih h2
    rw [builtVolume_append, ringsVolume_cons]
    dsimp only at a1 a2 ⊢
    omega

theorem buildRounds_append {δ : Type} (a b : List (BuildRegion δ)) :
    buildRounds (a ++ b) = buildRounds a + buildRounds b := by
  simp [buildRounds]

theorem buildRounds_single {δ : Type} (d : δ) (o i : List BuildRing) :
    buildRounds [⟨d, o, i⟩] = 1 + builtVolume o + builtVolume i := by
  simp only [buildRounds, builtVolume, List.map_cons, List.map_nil, List.sum_cons, List.sum_nil, List.map_append,
    List.sum_append]
  omega

theorem addRegion_length {δ : Type} {m : Build} {b b' : TopologyBuilder δ} {r : Region δ}
    (h : b.addRegion m r = .ok b') :
    buildRounds b'.regions ≤ buildRounds b.regions + regionVolume r ∧
      b'.edges.length ≤ b.edges.length + regionVolume r := by
  rw [regionVolume_eq]
  simp only [TopologyBuilder.addRegion, bind_ok] at h
  obtain ⟨o, h1, h⟩ := h
  have a1 := buildRings_length h1
  split at h
  · rw [bind_ok] at h
    obtain ⟨i, h2, h⟩ := h
    obtain rfl := Except.ok.inj h
    have a2 := buildRings_length h2
    dsimp only at a1 a2 ⊢
    rw [buildRounds_append, buildRounds_single]
    omega
  · obtain rfl := Except.ok.inj h
    dsimp only at a1 ⊢
    omega

theorem addRegions_length {δ : Type} {m : Build} {b b' : TopologyBuilder δ} {rs : List (Region δ)}
    (h : b.addRegions m rs = .ok b') :
    buildRounds b'.regions ≤ buildRounds b.regions + regionsVolume rs ∧
      b'.edges.length ≤ b.edges.length + regionsVolume rs := by
  induction rs generalizing b with
  | nil => obtain rfl := Except.ok.inj h; simp [regionsVolume]
  | cons r rest ih =>
    simp only [TopologyBuilder.addRegions, bind_ok] at h
    obtain ⟨b1, h1, h2⟩ := h
    have a1 := addRegion_length h1
    have a2 := ih h2
    have e : regionsVolume (r :: rest) = regionVolume r + regionsVolume rest := by simp [regionsVolume]
    omega

theorem finishTopologyT_rounds {δ : Type} (ps : List (List Point)) (rs : List (BuildRegion δ)) :
    (finishTopologyT ps rs).rounds ≤ ps.length + 2 * buildRounds rs := by
  have : (finishTopologyT ps rs).rounds ≤ ps.length + (buildRounds rs + (buildRounds rs + 0)) :=
    rounds_ticks_bind (rounds_ticks_bind (rounds_lift_bind fun _ _ => rounds_ticks_bind
      (rounds_lift_bind fun _ _ => by simp)))
  omega

theorem placeEdges_slots {α : Type u} {slots out : List (Option α)} {order : List (α × Nat)}
    (h : placeEdges slots order = .ok out) : out.length = slots.length := by
  induction order generalizing slots with
  | nil => obtain rfl := Except.ok.inj h; rfl
  | cons x rest ih =>
    simp only [placeEdges, bind_ok] at h
    obtain ⟨s, h1, h2⟩ := h
    rw [ih h2]
    unfold vecSet at h1
    split at h1
    · obtain rfl := Except.ok.inj h1; simp
    · cases h1

theorem expectAll_slots {α : Type u} {slots : List (Option α)} {out : List α} (h : expectAll slots = .ok out) :
    out.length = slots.length := by
  induction slots generalizing out with
  | nil => obtain rfl := Except.ok.inj h; rfl
  | cons o rest ih =>
    cases o with
    | none => cases h
    | some a =>
      simp only [expectAll, bind_ok] at h
      obtain ⟨as, h1, h⟩ := h
      obtain rfl := Except.ok.inj h
      simp [ih h1]

theorem intoTopologyT_rounds {δ : Type} (b : TopologyBuilder δ) :
    b.intoTopologyT.rounds ≤ 4 * b.edges.length + 2 * buildRounds b.regions := by
  have : b.intoTopologyT.rounds ≤ b.edges.length + (b.edges.length + (b.edges.length +
      (b.edges.length + 2 * buildRounds b.regions))) := by
    refine rounds_ticks_bind (rounds_ticks_bind (rounds_lift_bind fun slots h1 => rounds_ticks_bind
      (rounds_lift_bind fun ps h2 => ?_)))
    have e1 := placeEdges_slots h1
    have e2 := expectAll_slots h2
    have := finishTopologyT_rounds ps b.regions
    rw [List.length_replicate] at e1
    omega
  omega

theorem buildTopologyT_rounds {δ : Type} (m : Build) (rs : List (Region δ)) :
    (buildTopologyT m rs).rounds ≤ 28 * regionsVolume rs := by
  have : (buildTopologyT m rs).rounds ≤ 22 * regionsVolume rs + 6 * regionsVolume rs := by
    refine rounds_bind (addRegionsT_rounds ..) fun b hb => ?_
    rw [addRegionsT_result] at hb
    have h1 := addRegions_length hb
    have h2 := intoTopologyT_rounds b
    have e1 : buildRounds (TopologyBuilder.new (δ := δ)).regions = 0 := rfl
    have e2 : (TopologyBuilder.new (δ := δ)).edges.length = 0 := rfl
    omega
  omega

end TopoGeo
