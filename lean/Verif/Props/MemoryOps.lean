import Verif.Proofs.MemoryOps
import Verif.Props.Order
/-!
# Property C113: sequences of operations follow raw pointers only within their topology
-/

namespace TopoGeo

open Spec

variable {δ : Type} {m : Build}

/-! ## One operation -/

theorem mWithDirectedEdges_regionsAt (w : World) (T : MTopology δ) (base : Nat) (ds : List MDirectedEdge) :
    mWithDirectedEdges w (regionsAt T base) ds = mWithDirectedEdges w T ds := by
  induction ds with
  | nil => rfl
  | cons d ds ih =>
    simp only [mWithDirectedEdges, ih]
    rfl

theorem mNormalizeRings_regionsAt (w : World) (T : MTopology δ) (base : Nat) (order : WindingOrder) (rings : List MRing) :
    mNormalizeRings m w (regionsAt T base) order rings = mNormalizeRings m w T order rings := by
  induction rings with
  | nil => rfl
  | cons r rings ih => simp only [mNormalizeRings, mNormalizeRing, mWithDirectedEdges_regionsAt, ih]

theorem mNormalize_regionsAt (w w' : World) (T : MTopology δ) (base : Nat) :
    mNormalize m w w' (regionsAt T base) = mNormalize m w w' T := by
  have h : ∀ (rs : List (MRegion δ)) b, mNormalizeLoop m w (regionsAt T base) b rs = mNormalizeLoop m w T b rs := by
    intro rs
    induction rs with
    | nil => exact fun _ => rfl
    | cons r rs ih => exact fun b => by simp only [mNormalizeLoop, mNormalizeRegionRings, mNormalizeRings_regionsAt, ih]
  unfold mNormalize
  rw [h]
  rfl

theorem mApply_regionsAt (w w' : World) (T : MTopology δ) (base : Nat) (op : Operation) :
    op.mApply m w (regionsAt T base) w' =
      (op.mApply m w T w').map fun x => match op with
        | .simplify _ => (x.1, regionsAt x.2 base)
        | _ => x := by
  cases op with
  | normalize =>
    simp only [Operation.mApply, mNormalize_regionsAt]
    cases mNormalize m w w' T <;> rfl
  | clip mask =>
    have h : mClip m w w' (regionsAt T base) mask = mClip m w w' T mask := rfl
    simp only [Operation.mApply, h]
    cases mClip m w w' T mask <;> rfl
  | simplify s =>
    simp only [Operation.mApply, mSimplify]
    have h : (regionsAt T base).edges = T.edges := rfl
    rw [h]
    cases mSimplifyEdges m s T.edges.elems <;> rfl

theorem reads_place_edges {w : World} (hw : RealWorld w) (hx : EdgesExact w) {t : Topology δ} (hb : BackPointersExact t)
    (ha : BoxesApart w (placeTopology w t)) : Reads w (regionsAt (placeTopology w t) (w.address .regions)) t := by
  let w1 : World := { w with regionsCapacity := fun n => n }
  have hw1 : RealWorld w1 := ⟨hw.edge, hw.ring, hw.region, hw.address⟩
  have hp : ∀ n (rs : List (TopoRegion δ)), placeRegions w1 n rs = placeRegions w n rs := by
    intro n rs
    induction rs generalizing n with
    | nil => rfl
    | cons r rs ih => simp only [placeRegions, ih]; rfl
  have hT : placeTopology w1 t = regionsAt (placeTopology w t) (w.address .regions) := by
    unfold placeTopology MVec.intoBoxedSlice regionsAt
    simp only [placeRegions_length, hp]
    by_cases h : w.regionsCapacity t.regions.length = t.regions.length
    · rw [if_pos h, if_pos rfl]
      rfl
    · rw [if_neg h, if_pos rfl]
      rfl
  rw [← hT]
  have ha1 : BoxesApart w1 (placeTopology w1 t) := by
    rw [hT]
    exact ha
  have h := reads_place hw1 ⟨hx, fun _ => rfl⟩ hb ha1
  exact ⟨h.edges, h.regions⟩

theorem regionsAt_place {w : World} (hx : RegionsExact w) (t : Topology δ) :
    regionsAt (placeTopology w t) (w.address .regions) = placeTopology w t := by
  unfold placeTopology MVec.intoBoxedSlice regionsAt
  simp only [placeRegions_length, hx t.regions.length, if_true]

theorem mSimplify_reads {w : World} {T T' : MTopology δ} {t : Topology δ} (hr : Reads w T t) {s : Nat} (h : mSimplify m T s = .ok T') :
    ∃ t', simplify m t s = .ok t' ∧ Reads w T' t' := by
  obtain ⟨Es', h1, h2⟩ := bind_ok.mp h
  obtain ⟨es', h3, h4⟩ := (mSimplifyEdges_reads s hr.edges).2 Es' h1
  obtain rfl := Except.ok.inj h2
  refine ⟨{ t with edges := es' }, by unfold simplify; rw [h3]; rfl, ?_⟩
  have hl : Es'.length = T.edges.elems.length := by
    have g1 := (C45_frame m t _ s (by unfold simplify; rw [h3]; rfl)).2.length_eq
    rw [h4.length_eq, hr.edges.length_eq]
    exact g1.symm
  have hi : ∀ p, edgeIndex w { T with edges := { T.edges with elems := Es' } } p = edgeIndex w T p := by
    intro p
    unfold edgeIndex
    rw [hl]
  have hring : ∀ R ring, RingReads w T R ring → RingReads w { T with edges := { T.edges with elems := Es' } } R ring := by
    intro R ring hR
    refine ⟨hR.1.imp fun d de hd => ?_, hR.2⟩
    rw [hi]
    exact hd
  exact ⟨h4, hr.regions.imp fun R r hR => ⟨hR.1, hR.2.1.imp hring, hR.2.2.imp hring⟩⟩

/-- C113: an operation on a topology whose pointers refer to its own elements follows
pointers to where they should lead: it panics if and only if it does so with numbers for
pointers, and for the same reason, and otherwise returns the same. Whether the regions
have been moved does not matter: it need only be known where they were. -/
theorem C113_step (w w' : World) (hw : RealWorld w) (hw' : RealWorld w') (hx : EdgesExact w') (T : MTopology δ) (base : Nat)
    (t : Topology δ) (hr : Reads w (regionsAt T base) t) (hb : BackPointersExact t) (op : Operation) :
    (∀ p, op.mApply m w T w' = .error p ↔ op.apply m t = .error p) ∧
    ∀ v T', op.mApply m w T w' = .ok (v, T') → BoxesApart v T' → (v = w ∨ v = w') ∧ ∃ t' base', op.apply m t = .ok t' ∧
      Reads v (regionsAt T' base') t' ∧ (RegionsExact w' → regionsAt T base = T → regionsAt T' base' = T') := by
  cases op with
  | normalize =>
    have he : mNormalize m w w' T = (normalize m t).map (placeTopology w') := by
      rw [← mNormalize_regionsAt w w' T base]
      exact mNormalize_reads hw hw' hr hb
    simp only [Operation.mApply, Operation.apply, he]
    cases hn : normalize m t with
    | error p => exact ⟨fun q => by simp [Except.map, bind, Except.bind], fun v T' h => nomatch h⟩
    | ok t' =>
      refine ⟨fun q => by simp [Except.map, bind, Except.bind], fun v T' h ha => ?_⟩
      obtain ⟨rfl, rfl⟩ := Prod.mk.inj (Except.ok.inj h)
      exact ⟨Or.inr rfl, t', _, rfl, reads_place_edges hw' hx (apply_backPointers (m := m) .normalize hb hn) ha, fun h _ => regionsAt_place h t'⟩
  | clip mask =>
    have he : mClip m w w' T mask = (clipTopology m t mask).map (placeTopology w') := mClip_reads (T := regionsAt T base) hw hw' hr mask
    simp only [Operation.mApply, Operation.apply, he]
    cases hn : clipTopology m t mask with
    | error p => exact ⟨fun q => by simp [Except.map, bind, Except.bind], fun v T' h => nomatch h⟩
    | ok t' =>
      refine ⟨fun q => by simp [Except.map, bind, Except.bind], fun v T' h ha => ?_⟩
      obtain ⟨rfl, rfl⟩ := Prod.mk.inj (Except.ok.inj h)
      exact ⟨Or.inr rfl, t', _, rfl, reads_place_edges hw' hx (apply_backPointers (m := m) (.clip mask) hb hn) ha, fun h _ => regionsAt_place h t'⟩
  | simplify s =>
    constructor
    · intro p
      have := (mSimplifyEdges_reads (m := m) s hr.edges).1 p
      have hT : (regionsAt T base).edges = T.edges := rfl
      rw [hT] at this
      simp only [Operation.mApply, Operation.apply, mSimplify, simplify, bind_error, this]
      constructor
      · rintro ((h | ⟨_, _, h⟩) | ⟨_, _, h⟩)
        · exact Or.inl h
        · cases h
        · cases h
      · rintro (h | ⟨_, _, h⟩)
        · exact Or.inl (Or.inl h)
        · cases h
    · intro v T' h _
      have h' := mApply_regionsAt (m := m) w w' T base (.simplify s)
      rw [h] at h'
      obtain ⟨T1, h1, h2⟩ := bind_ok.mp h'
      obtain ⟨e1, e2⟩ := Prod.mk.inj (Except.ok.inj h2)
      obtain ⟨t', h3, h4⟩ := mSimplify_reads hr h1
      rw [e2] at h4
      have e1 : w = v := e1
      subst e1
      refine ⟨Or.inl rfl, t', base, h3, h4, fun _ hT => ?_⟩
      obtain ⟨T2, h5, h6⟩ := bind_ok.mp h
      obtain ⟨Es, _, h7⟩ := bind_ok.mp h5
      obtain ⟨_, rfl⟩ := Prod.mk.inj (Except.ok.inj h6)
      obtain rfl := Except.ok.inj h7
      have := congrArg (fun T : MTopology δ => T.regions) hT
      unfold regionsAt at this ⊢
      simp only at this
      rw [this]

/-! ## Sequences of operations -/

theorem mOperations_reads (m : Build) {w : World} (hw : RealWorld w) {T : MTopology δ} {base : Nat} {t : Topology δ}
    (hr : Reads w (regionsAt T base) t) (hb : BackPointersExact t) (steps : List (Operation × World))
    (hreal : ∀ s ∈ steps, RealWorld s.2) (hedges : ∀ s ∈ steps, EdgesExact s.2)
    (hapart : ∀ first v T', first <+: steps → mOperations m w T first = .ok (v, T') → BoxesApart v T') :
    (∀ p, mOperations m w T steps = .error p ↔ (steps.map (·.1)).foldlM (Operation.apply m) t = .error p) ∧
    ∀ v T', mOperations m w T steps = .ok (v, T') → ∃ t' base', (steps.map (·.1)).foldlM (Operation.apply m) t = .ok t' ∧
      Reads v (regionsAt T' base') t' ∧ ((∀ s ∈ steps, RegionsExact s.2) → regionsAt T base = T → regionsAt T' base' = T') := by
  induction steps generalizing w T base t with
  | nil =>
    refine ⟨fun p => by simp [mOperations, pure, Except.pure], fun v T' h => ?_⟩
    obtain ⟨rfl, rfl⟩ := Prod.mk.inj (Except.ok.inj h)
    exact ⟨t, base, rfl, hr, fun _ h => h⟩
  | cons s steps ih =>
    obtain ⟨op, w'⟩ := s
    have hw' := hreal (op, w') (by simp)
    obtain ⟨h1, h2⟩ := C113_step (m := m) w w' hw hw' (hedges (op, w') (by simp)) T base t hr hb op
    simp only [mOperations, List.map_cons, List.foldlM_cons]
    cases hx : op.mApply m w T w' with
    | error p =>
      rw [(h1 p).mp hx]
      exact ⟨fun q => by simp [bind, Except.bind], fun v T' h => nomatch h⟩
    | ok x =>
      obtain ⟨v, T1⟩ := x
      have ha : BoxesApart v T1 := by
        refine hapart [(op, w')] v T1 ⟨steps, rfl⟩ ?_
        simp only [mOperations, hx, ok_bind]
      obtain ⟨hv, t1, base1, ht1, hr1, hbase⟩ := h2 v T1 hx ha
      rw [ht1, ok_bind, ok_bind]
      have hv' : RealWorld v := by rcases hv with rfl | rfl <;> assumption
      have := ih hv' hr1 (apply_backPointers op hb ht1) (fun s hs => hreal s (by simp [hs])) (fun s hs => hedges s (by simp [hs]))
        (fun first v' T' hf h => hapart ((op, w') :: first) v' T' (List.cons_prefix_cons.mpr ⟨rfl, hf⟩) (by
          simp only [mOperations, hx, ok_bind]
          exact h))
      refine ⟨this.1, fun v' T' h => ?_⟩
      obtain ⟨t', base', g1, g2, g3⟩ := this.2 v' T' h
      exact ⟨t', base', g1, g2, fun hs hT => g3 (fun s h => hs s (by simp [h])) (hbase (hs (op, w') (by simp)) hT)⟩

/-- C113: building a topology and doing any operations to it, in any order, whatever the
addresses, does what the model with numbers for pointers does. It is enough that vectors
of edges have no spare capacity; if vectors of regions have none either, all pointers of
the result refer to its own elements. -/
theorem C113_pipeline (w : World) (rs : List (Region δ)) (steps : List (Operation × World)) (hm : Machine m w rs steps) :
    (∀ p, mPipeline m w rs steps = .error p ↔ pipeline m rs (steps.map (·.1)) = .error p) ∧
    ∀ v T, mPipeline m w rs steps = .ok (v, T) → ∃ t, pipeline m rs (steps.map (·.1)) = .ok t ∧
      (∃ base, Reads v (regionsAt T base) t) ∧ ((∀ w' ∈ w :: steps.map (·.2), RegionsExact w') → Reads v T t) := by
  have hw := hm.real w (by simp)
  unfold mPipeline pipeline
  rw [mBuildTopology_eq hw]
  cases hbuild : buildTopology m rs with
  | error p => exact ⟨fun q => by simp [Except.map, bind, Except.bind], fun v T h => nomatch h⟩
  | ok t0 =>
    have hT : mBuildTopology w m rs = .ok (placeTopology w t0) := by rw [mBuildTopology_eq hw, hbuild]; rfl
    simp only [Except.map, ok_bind]
    have hb := (C11_back_pointers m rs t0 hbuild).1
    have ha : BoxesApart w (placeTopology w t0) := hm.apart [] w _ (by simp) (by
      unfold mPipeline
      rw [hT]
      rfl)
    obtain ⟨h1, h2⟩ := mOperations_reads m hw (reads_place_edges hw (hm.edges w (by simp)) hb ha) hb steps
      (fun s hs => hm.real s.2 (List.mem_cons_of_mem _ (List.mem_map_of_mem hs)))
      (fun s hs => hm.edges s.2 (List.mem_cons_of_mem _ (List.mem_map_of_mem hs)))
      (fun first v T' hf h => hm.apart first v T' hf (by
        unfold mPipeline
        rw [hT, ok_bind]
        exact h))
    refine ⟨h1, fun v T h => ?_⟩
    obtain ⟨t, base, g1, g2, g3⟩ := h2 v T h
    refine ⟨t, g1, ⟨base, g2⟩, fun hx => ?_⟩
    have := g3 (fun s hs => hx s.2 (List.mem_cons_of_mem _ (List.mem_map_of_mem hs))) (regionsAt_place (hx w (by simp)) t0)
    rwa [this] at g2

/-- C113: no sequence of operations follows a pointer to something that is not there,
whatever the regions, closed or not. -/
theorem C113_safe (w : World) (rs : List (Region δ)) (steps : List (Operation × World)) (hm : Machine m w rs steps)
    (hs : ∀ s ∈ steps, ThresholdFits s.1) : mPipeline m w rs steps ≠ .error .nullDeref := by
  intro h0
  have h := ((C113_pipeline w rs steps hm).1 _).mp h0
  clear h0
  unfold pipeline at h
  rcases bind_error.mp h with h1 | ⟨t, ht, h1⟩
  · exact buildTopology_noNull rs h1
  · clear h
    have hb := (C11_back_pointers m rs t ht).1
    clear hm ht
    induction steps generalizing t with
    | nil => simp [pure, Except.pure] at h1
    | cons s steps ih =>
      simp only [List.map_cons, List.foldlM_cons] at h1
      rcases bind_error.mp h1 with h | ⟨t1, ht1, h⟩
      · exact apply_noNull hb s.1 (hs s (by simp)) h
      · exact ih (fun s h => hs s (by simp [h])) t1 h (apply_backPointers s.1 hb ht1)

/-! ## Spare capacity of edges -/

theorem built_first {rs : List (Region δ)} {t : Topology δ} (h : buildTopology m rs = .ok t) (hne : t.regions ≠ []) :
    ∃ r rest ring rings de des, t.regions = r :: rest ∧ r.outerRings = ring :: rings ∧ ring.directedEdges = de :: des ∧
      de.edge < t.edges.length := by
  obtain ⟨r, rest, hr⟩ := List.exists_cons_of_ne_nil hne
  have hmem : r ∈ t.regions := by rw [hr]; simp
  obtain ⟨k, hk, _, h1, _⟩ := forall₂_exists_left (C07_round_trip m rs t h) hmem
  obtain ⟨r0, hr0, rfl⟩ := List.mem_map.mp hk
  have hkept : keptRings r0.outerRings ≠ [] := by simpa using (List.mem_filter.mp hr0).2
  have hout : r.outerRings ≠ [] := by
    intro h0
    rw [h0] at h1
    have := h1.length_eq
    simp only [List.length_map, List.length_nil, List.length_eq_zero_iff] at this
    exact hkept this
  obtain ⟨ring, rings, hrings⟩ := List.exists_cons_of_ne_nil hout
  obtain ⟨ps, hps, hread⟩ := forall₂_exists_left h1 (show ring ∈ r.outerRings by rw [hrings]; simp)
  obtain ⟨ring0, hk0, rfl⟩ := List.mem_map.mp hps
  have ha : ringArea ring0 ≠ 0 := by simpa using (List.mem_filter.mp hk0).2
  have hdes : ring.directedEdges ≠ [] := by
    intro h0
    have h2 := pathsOf_reads hread
    have h3 : pathsOf t ring = [] := by simp [pathsOf, h0]
    rw [h3] at h2
    apply ha
    unfold ringArea
    rw [← shoelaceEdges_ringPaths, ← h2]
    rfl
  obtain ⟨de, des, hd⟩ := List.exists_cons_of_ne_nil hdes
  refine ⟨r, rest, ring, rings, de, des, hr, hrings, hd, ?_⟩
  refine (C11_back_pointers m rs t h).1.2.2 de (List.mem_flatMap.mpr ⟨ring, ?_, by rw [hd]; simp⟩)
  exact mem_allRings_outer hmem ring (by rw [hrings]; simp)

/-- C113: spare capacity of edges that is given back by moving them is fatal: normalizing
any topology with a region begins by following a pointer to where its edges were. -/
theorem C113_dangling_normalize (w w' : World) (hw : RealWorld w) (rs : List (Region δ)) (T : MTopology δ)
    (h : mBuildTopology w m rs = .ok T) (hne : T.regions.elems ≠ []) (hcap : w.edgesCapacity T.edges.elems.length ≠ T.edges.elems.length)
    (ha : Apart (w.address .edges) (w.edgeSize * T.edges.elems.length) (w.address .edgesShrunk) (w.edgeSize * T.edges.elems.length)) :
    mNormalize m w w' T = .error .nullDeref := by
  have hdang := (C75_moved w hw m T (Or.inl ⟨rs, h⟩)).2 hcap ha
  rw [mBuildTopology_eq hw] at h
  obtain ⟨t, ht, rfl⟩ := map_eq_ok h
  have hT2 : (placeTopology w t).regions.elems = placeRegions w 0 t.regions := by
    unfold placeTopology MVec.intoBoxedSlice
    simp only
    split <;> rfl
  have hne' : t.regions ≠ [] := by
    intro h0
    rw [hT2, h0] at hne
    exact hne rfl
  obtain ⟨r, rest, ring, rings, de, des, h1, h2, h3, _⟩ := built_first ht hne'
  have hd : mWithDirectedEdge w (placeTopology w t) (placeDirected w de) = .error .nullDeref := by
    have := (hdang (placeRegion w 0 r) (by rw [hT2, h1, placeRegions]; simp) (placeRing w ring)
      (by simp [placeRegion, h2]) (placeDirected w de) (by simp [placeRing, h3])).2
    unfold mWithDirectedEdge MTopology.edgeAt
    unfold edgeIndex at this
    rw [this]
    rfl
  unfold mNormalize
  rw [hT2, h1]
  simp only [placeRegions, mNormalizeLoop, mNormalizeRegionRings, placeRegion, h2, List.map_cons, mNormalizeRings, mNormalizeRing,
    placeRing, h3, mWithDirectedEdges, hd]
  rfl

theorem clipBuilder_finder {mask : ClipMask} {es : List TopoEdge} {b : ClipBuilder} (h : ClipBuilder.new m mask es = .ok b) :
    b.finder.length = es.length := by
  have key : ∀ (es : List TopoEdge) clipped finder x, clipOldEdges m mask clipped finder es = .ok x → x.2.length = finder.length + es.length := by
    intro es
    induction es with
    | nil =>
      intro clipped finder x h
      rw [← Except.ok.inj h]
      rfl
    | cons e es ih =>
      intro clipped finder x h
      obtain ⟨c, _, h⟩ := bind_ok.mp h
      by_cases hc : c.length ≥ 2
      · rw [if_pos hc] at h
        have := ih _ _ _ h
        rw [this]
        simp
        omega
      · rw [if_neg hc] at h
        have := ih _ _ _ h
        rw [this]
        simp
        omega
  obtain ⟨x, hx, h⟩ := bind_ok.mp h
  rw [← Except.ok.inj h]
  simpa using key es [] [] x hx

/-- C113: clipping such a topology does not follow dangling pointers, but fails as well:
the offset of a pointer to where edges were is never the number of an edge, so that the
subtraction overflows or the index is out of bounds. -/
theorem C113_dangling_clip (w w' : World) (hw : RealWorld w) (rs : List (Region δ)) (T : MTopology δ) (mask : ClipMask)
    (h : mBuildTopology w m rs = .ok T) (hne : T.regions.elems ≠ []) (hcap : w.edgesCapacity T.edges.elems.length ≠ T.edges.elems.length)
    (ha : Apart (w.address .edges) (w.edgeSize * T.edges.elems.length) (w.address .edgesShrunk) (w.edgeSize * T.edges.elems.length))
    (hfit : w.address .edgesShrunk + w.edgeSize * T.edges.elems.length ≤ 2 ^ 64) :
    mClip m w w' T mask = .error .index ∨ m = .debug ∧ mClip m w w' T mask = .error .overflow := by
  rw [mBuildTopology_eq hw] at h
  obtain ⟨t, ht, rfl⟩ := map_eq_ok h
  have hT2 : (placeTopology w t).regions.elems = placeRegions w 0 t.regions := by
    unfold placeTopology MVec.intoBoxedSlice
    simp only
    split <;> rfl
  have hne' : t.regions ≠ [] := by
    intro h0
    rw [hT2, h0] at hne
    exact hne rfl
  have l2 : (placeTopology w t).edges.elems.length = t.edges.length := by
    unfold placeTopology MVec.intoBoxedSlice placeEdges'
    simp only
    split <;> simp
  have hT1 : (placeTopology w t).edges.address = w.address .edgesShrunk := by
    rw [l2] at hcap
    unfold placeTopology MVec.intoBoxedSlice placeEdges'
    simp only [List.length_map, if_neg hcap]
  obtain ⟨r, rest, ring, rings, de, des, h1, h2, h3, hlt⟩ := built_first ht hne'
  rw [l2] at ha hfit
  -- the first offset
  have hoff : (∃ i, mOffset m w (w.address .edgesShrunk) (placeDirected w de).edge = .ok i ∧ t.edges.length ≤ i) ∨
      m = .debug ∧ mOffset m w (w.address .edgesShrunk) (placeDirected w de).edge = .error .overflow := by
    have hm : w.edgeSize * (de.edge + 1) ≤ w.edgeSize * t.edges.length := Nat.mul_le_mul_left _ hlt
    rw [Nat.mul_add, Nat.mul_one] at hm
    have hpos := hw.edge
    unfold mOffset placeDirected elemAddress
    unfold Apart at ha
    by_cases hle : w.address .edgesShrunk ≤ w.address .edges + w.edgeSize * de.edge
    · rw [if_pos hle]
      refine Or.inl ⟨_, rfl, (Nat.le_div_iff_mul_le hpos).mpr ?_⟩
      rw [Nat.mul_comm]
      simp only
      omega
    · rw [if_neg hle]
      cases m with
      | debug => exact Or.inr ⟨rfl, rfl⟩
      | release =>
        refine Or.inl ⟨_, rfl, (Nat.le_div_iff_mul_le hpos).mpr ?_⟩
        rw [Nat.mul_comm]
        simp only
        omega
  unfold mClip
  cases hb : ClipBuilder.new m mask ((placeTopology w t).edges.elems.map fun e => ⟨e.points, none, none⟩) with
  | error p =>
    have hnew : OnlyOverflow m (ClipBuilder.new m mask ((placeTopology w t).edges.elems.map fun e => ⟨e.points, none, none⟩)) :=
      OnlyOverflow.bind (clipOldEdges_onlyOverflow _ _ _ _ _) fun x _ => OnlyOverflow.ok _
    obtain ⟨e1, e2⟩ := hnew p hb
    subst e2
    exact Or.inr ⟨e1, rfl⟩
  | ok b =>
    have hf := clipBuilder_finder hb
    rw [List.length_map, l2] at hf
    rw [ok_bind, hT1, hT2, h1]
    simp only [placeRegions, mClipRegions, mClipRegion, placeRegion, h2, List.map_cons, mClipRings, mClipRing, placeRing, h3,
      mClipRingLoop]
    rcases hoff with ⟨i, hi, hge⟩ | ⟨hm, hi⟩
    · left
      have hstep : ∀ s d, clipRingStep m b s ⟨i, d⟩ = .error .index := by
        intro s d
        unfold clipRingStep ClipBuilder.findOldEdgeId
        rw [List.getElem?_eq_none (by rw [hf]; exact hge)]
        rfl
      rw [hi]
      simp only [ok_bind, hstep]
      rfl
    · right
      rw [hi]
      exact ⟨hm, rfl⟩

/-! ## The hypotheses hold of real cases -/

/-- Another world for examples: vectors of regions have spare capacity. -/
def exWorld2 (spare : Nat) : World := { exWorld 0 with regionsCapacity := fun n => n + spare }

/-- Operations for examples. -/
def exMemorySteps (spare : Nat) : List (Operation × World) :=
  [(.normalize, exWorld2 spare), (.clip (.maxX 3), exWorld2 spare), (.simplify 1, exWorld2 spare), (.normalize, exWorld2 spare)]

/-- The boxes of rings are where `exWorld` places them, and small. -/
def exBoxesSmall (x : R (World × MTopology String)) : Bool :=
  match x with
  | .error _ => true
  | .ok (v, T) => v.ringSize = 24 && T.regions.elems.zipIdx.all fun y => y.1.outerRings.address = 3000 + 200 * y.2 &&
      y.1.innerRings.address = 3100 + 200 * y.2 && y.1.outerRings.elems.length ≤ 4 && y.1.innerRings.elems.length ≤ 4

theorem exBoxesSmall_apart {x : R (World × MTopology String)} (h : exBoxesSmall x = true) {v : World} {T : MTopology String}
    (hx : x = .ok (v, T)) : BoxesApart v T := by
  rw [hx] at h
  simp only [exBoxesSmall, Bool.and_eq_true, decide_eq_true_eq, List.all_eq_true] at h
  obtain ⟨hs, h⟩ := h
  intro n n' r r' i i' hr hr' hne
  obtain ⟨⟨⟨a1, a2⟩, b1⟩, b2⟩ := h (r, n) (List.mk_mem_zipIdx_iff_getElem?.mpr hr)
  obtain ⟨⟨⟨a3, a4⟩, b3⟩, b4⟩ := h (r', n') (List.mk_mem_zipIdx_iff_getElem?.mpr hr')
  simp only [Apart, hs]
  simp only at a1 a2 a3 a4 b1 b2 b3 b4
  cases i <;> cases i' <;> simp at hne ⊢ <;> omega

theorem exMachine : Machine .debug (exWorld2 1) exRegions (exMemorySteps 1) where
  real w' h := by
    have : w' = exWorld2 1 := by simpa [exMemorySteps] using h
    rw [this]
    exact ⟨Nat.zero_lt_succ _, Nat.zero_lt_succ _, Nat.zero_lt_succ _, fun b => by cases b <;> simp [exWorld2, exWorld]⟩
  edges w' h := by
    have : w' = exWorld2 1 := by simpa [exMemorySteps] using h
    rw [this]
    exact fun n => rfl
  apart first v T hf h := by
    refine exBoxesSmall_apart ?_ h
    have hl : first.length ≤ 4 := hf.length_le
    rw [List.prefix_iff_eq_take.mp hf]
    generalize first.length = k at hl
    match k, hl with
    | 0, _ => decide +kernel
    | 1, _ => decide +kernel
    | 2, _ => decide +kernel
    | 3, _ => decide +kernel
    | 4, _ => decide +kernel
    | k + 5, hl => omega

-- the operations succeed, although regions have been moved away from where pointers lead
example : (mPipeline .debug (exWorld2 1) exRegions (exMemorySteps 1)).toOption.map (fun x =>
      (x.2.edges.elems.map (·.points), x.2.regions.address, x.2.regions.elems.map fun R => R.outerRings.elems.map (·.region))) =
    some ([[⟨2, 1⟩, ⟨2, 2⟩], [⟨2, 1⟩, ⟨1, 1⟩, ⟨2, 2⟩], [⟨2, 1⟩, ⟨3, 1⟩, ⟨3, 2⟩, ⟨2, 2⟩]], 20000, [[2000], [2040]]) := by
  decide +kernel

-- with spare capacity of edges, normalizing follows a dangling pointer and clipping panics
example : (mNormalize .debug (exWorld 1) (exWorld 1) (exMemory 1)).toOption.isNone ∧
    (exMemory 1).regions.elems.length = 2 ∧ (exWorld 1).edgesCapacity (exMemory 1).edges.elems.length ≠ (exMemory 1).edges.elems.length ∧
    (exWorld 1).address .edges + (exWorld 1).edgeSize * (exMemory 1).edges.elems.length ≤ (exWorld 1).address .edgesShrunk := by
  decide +kernel

end TopoGeo
