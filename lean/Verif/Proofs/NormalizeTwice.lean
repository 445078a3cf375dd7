import Verif.Props.NormalizeShared
import Verif.Proofs.MergeStarts
/-!
# Normalizing a normalized topology: facts
-/

namespace TopoGeo

open Spec

/-! ## What an edge is joined from -/

/-- An edge that was not joined, or two neighbours that are part of it. -/
def Piece (es : List NormEdge) (e : NormEdge) : Prop :=
  e ∈ es ∨ ∃ x y, (∃ l1 l2, es = l1 ++ x :: y :: l2) ∧ x.regions = e.regions ∧ y.regions = e.regions ∧
    segs x.points ⊆ segs e.points ∧ segs y.points ⊆ segs e.points

/-- What is known while edges are joined. -/
structure Piecing (done ret : List NormEdge) : Prop where
  pieces : ∀ e ∈ ret, Piece done e
  last : ∀ init e, ret = init ++ [e] → ∃ d z, done = d ++ [z] ∧ z.regions = e.regions ∧ segs z.points ⊆ segs e.points
  first : ∀ e rest, ret = e :: rest → ∃ z d, done = z :: d ∧ z.regions = e.regions ∧ segs z.points ⊆ segs e.points
  nil : ret = [] → done = []

theorem piece_mono {es : List NormEdge} {e x : NormEdge} (h : Piece es e) : Piece (es ++ [x]) e := by
  rcases h with h | ⟨a, b, ⟨l1, l2, rfl⟩, h⟩
  · exact Or.inl (by simp [h])
  · exact Or.inr ⟨a, b, ⟨l1, l2 ++ [x], by simp⟩, h⟩

theorem piecing_step {a b c : Point} {ss : List ((Point × Point) × Sides)} {done ret : List NormEdge} {e : NormEdge}
    (hj : Joined a b ss ret) (hp : Piecing done ret) (he : Leads b [e.points] c) :
    Piecing (done ++ [e]) (joinPure ret e) := by
  obtain ⟨he1, _⟩ := leads_single.mp he
  rcases snoc_cases ret with rfl | ⟨init, last, rfl⟩
  · obtain rfl := hp.nil rfl
    refine ⟨?_, ?_, ?_, ?_⟩
    · intro x hx
      exact Or.inl (by simpa [joinPure] using hx)
    · intro init x hx
      obtain ⟨rfl, rfl⟩ : init = [] ∧ x = e := by
        have := List.append_inj' (show [] ++ [e] = init ++ [x] from hx) rfl
        simp at this
        exact ⟨this.1, this.2.symm⟩
      exact ⟨[], x, rfl, rfl, fun _ h => h⟩
    · intro x rest hx
      obtain ⟨rfl, rfl⟩ : x = e ∧ rest = [] := by simpa [joinPure, eq_comm] using hx
      exact ⟨x, [], rfl, rfl, fun _ h => h⟩
    · intro h; simp [joinPure] at h
  · have hl := hj.leads
    rw [show npts (init ++ [last]) = npts init ++ [last.points] by simp [npts]] at hl
    obtain ⟨d, _, hl⟩ := leads_append_iff.mp hl
    obtain ⟨_, hl2⟩ := leads_single.mp hl
    obtain ⟨dn, z, rfl, hz1, hz2⟩ := hp.last init last rfl
    by_cases hr : last.regions = e.regions
    · have hjp : joinPure (init ++ [last]) e = init ++ [{ last with points := last.points ++ e.points.tail }] := by
        simp [joinPure, hr]
      have hs := segs_join hl2 he1
      rw [hjp]
      have hnew : Piece (dn ++ [z] ++ [e]) { last with points := last.points ++ e.points.tail } := by
        refine Or.inr ⟨z, e, ⟨dn, [], by simp⟩, hz1, hr.symm, ?_, ?_⟩
        · intro s hsm
          show s ∈ segs (last.points ++ e.points.tail)
          rw [hs]
          exact List.mem_append_left _ (hz2 hsm)
        · intro s hsm
          show s ∈ segs (last.points ++ e.points.tail)
          rw [hs]
          exact List.mem_append_right _ hsm
      refine ⟨?_, ?_, ?_, ?_⟩
      · intro x hx
        rcases List.mem_append.mp hx with hx | hx
        · exact piece_mono (hp.pieces x (by simp [hx]))
        · obtain rfl := List.mem_singleton.mp hx
          exact hnew
      · intro init' x hx
        obtain ⟨_, hx⟩ := List.append_inj' hx rfl
        obtain rfl := List.singleton_inj.mp hx
        refine ⟨dn ++ [z], e, rfl, hr.symm, ?_⟩
        intro s hsm
        show s ∈ segs (last.points ++ e.points.tail)
        rw [hs]
        exact List.mem_append_right _ hsm
      · intro x rest hx
        cases init with
        | nil =>
          obtain ⟨rfl, rfl⟩ := List.cons_eq_cons.mp hx
          obtain ⟨z0, d0, h0, h1, h2⟩ := hp.first last [] rfl
          refine ⟨z0, d0 ++ [e], by rw [h0]; rfl, h1, ?_⟩
          intro s hsm
          show s ∈ segs (last.points ++ e.points.tail)
          rw [hs]
          exact List.mem_append_left _ (h2 hsm)
        | cons y init =>
          obtain ⟨rfl, rfl⟩ := List.cons_eq_cons.mp hx
          obtain ⟨z0, d0, h0, h1, h2⟩ := hp.first y (init ++ [last]) rfl
          exact ⟨z0, d0 ++ [e], by rw [h0]; rfl, h1, h2⟩
      · intro h; simp at h
    · have hjp : joinPure (init ++ [last]) e = init ++ [last] ++ [e] := by
        simp [joinPure, hr]
      rw [hjp]
      refine ⟨?_, ?_, ?_, ?_⟩
      · intro x hx
        rcases List.mem_append.mp hx with hx | hx
        · exact piece_mono (hp.pieces x hx)
        · obtain rfl := List.mem_singleton.mp hx
          exact Or.inl (by simp)
      · intro init' x hx
        obtain ⟨_, hx⟩ := List.append_inj' hx rfl
        obtain rfl := List.singleton_inj.mp hx
        exact ⟨dn ++ [z], e, rfl, rfl, fun _ h => h⟩
      · intro x rest hx
        obtain ⟨x0, r0, h0⟩ := List.exists_cons_of_ne_nil (show init ++ [last] ≠ [] by simp)
        rw [h0] at hx
        obtain ⟨rfl, rfl⟩ := List.cons_eq_cons.mp hx
        obtain ⟨z0, d0, h0, h1, h2⟩ := hp.first x0 r0 h0
        exact ⟨z0, d0 ++ [e], by rw [h0]; rfl, h1, h2⟩
      · intro h; simp at h

theorem joinLoop_piecing {a b c : Point} {ss : List ((Point × Point) × Sides)} {done ret es out : List NormEdge}
    (hj : Joined a b ss ret) (hp : Piecing done ret) (he : Leads b (npts es) c) (h : joinLoop ret es = .ok out) :
    Piecing (done ++ es) out ∧ ∃ ss', Joined a c ss' out := by
  induction es generalizing b ss done ret with
  | nil =>
    obtain rfl := Except.ok.inj h
    cases he
    exact ⟨by simpa using hp, ss, hj⟩
  | cons e es ih =>
    obtain ⟨he1, d, he2, he3⟩ := he
    have hs : Leads b [e.points] d := leads_single.mpr ⟨he1, he2⟩
    have hpne : e.points ≠ [] := leads_ne_nil hs _ (by simp)
    rw [joinLoop, joinStep_eq hpne, ok_bind] at h
    obtain ⟨h1, h2⟩ := ih (joinPure_joined hj hs) (piecing_step hj hp hs) he3 h
    exact ⟨by simpa using h1, h2⟩

theorem joinRelatedEdges_pieces {es out : List NormEdge} (hc : ClosedRing (npts es))
    (h : joinRelatedEdges es = .ok out) : ∀ e ∈ out, e ∈ es ∨ 2 ≤ es.length ∧ ∃ x y, Adjoins es x y ∧
      x.regions = e.regions ∧ y.regions = e.regions ∧ segs x.points ⊆ segs e.points ∧
      segs y.points ⊆ segs e.points := by
  obtain ⟨hne, a, hl⟩ := hc
  simp only [joinRelatedEdges, bind_ok] at h
  obtain ⟨ret, h1, h⟩ := h
  obtain ⟨hp, ss, hj⟩ := joinLoop_piecing (a := a) (b := a) (ss := []) (ret := []) (done := [])
    ⟨rfl, rfl, by simp [nsides], by simp⟩ ⟨by simp, by simp, by simp, fun _ => rfl⟩ hl h1
  rw [List.nil_append] at hp
  have key : ∀ e ∈ ret, e ∈ es ∨ 2 ≤ es.length ∧ ∃ x y, Adjoins es x y ∧
      x.regions = e.regions ∧ y.regions = e.regions ∧ segs x.points ⊆ segs e.points ∧
      segs y.points ⊆ segs e.points := by
    intro e he
    rcases hp.pieces e he with h | ⟨x, y, ⟨l1, l2, rfl⟩, h⟩
    · exact Or.inl h
    · exact Or.inr ⟨by simp only [List.length_append, List.length_cons]; omega, x, y, adjoins_inner _ _ _ _, h⟩
  match ret, hp, hj, key, h with
  | [], hp, _, _, _ => exact absurd (by rw [hp.nil rfl]; rfl) hne
  | [f], _, _, key, h =>
    obtain rfl := Except.ok.inj (show Except.ok [f] = Except.ok out from h)
    exact key
  | f :: s :: rest, hp, hj, key, h =>
    obtain ⟨mid, l, hml⟩ : ∃ mid l, s :: rest = mid ++ [l] := by
      rcases snoc_cases (s :: rest) with h | ⟨mid, l, h⟩
      · simp at h
      · exact ⟨mid, l, h⟩
    rw [hml] at hp hj key h
    rw [joinWrap_pair] at h
    by_cases hr : f.regions = l.regions
    · rw [if_pos hr] at h
      have hle := hj.leads
      unfold npts at hle
      obtain ⟨hf1, b, hf2, hle⟩ := hle
      rw [List.map_append] at hle
      obtain ⟨c, hmid, hlast⟩ := leads_append_iff.mp hle
      obtain ⟨hl1, hl2⟩ := leads_single.mp hlast
      simp only at hf1 hf2 hl1 hl2
      cases hpt : f.points with
      | nil => rw [hpt] at hf1; simp at hf1
      | cons p ps =>
        rw [hpt] at h
        obtain rfl := Except.ok.inj (show Except.ok _ = Except.ok out from h)
        intro e he
        rcases List.mem_cons.mp he with rfl | he
        · have hs : segs (l.points ++ ps) = segs l.points ++ segs f.points := by
            rw [← segs_join hl2 hf1, hpt]; rfl
          obtain ⟨z, d, h0, hz1, hz2⟩ := hp.first f (mid ++ [l]) rfl
          obtain ⟨d', z', h0', hz1', hz2'⟩ := hp.last (f :: mid) l rfl
          by_cases h2 : 2 ≤ es.length
          · refine Or.inr ⟨h2, z', z, adjoins_wrap (by rw [h0]; rfl) (by rw [h0', List.getLast?_concat]),
              hz1'.trans hr.symm, hz1, ?_, ?_⟩
            · intro x hx
              show x ∈ segs (l.points ++ ps)
              rw [hs]
              exact List.mem_append_left _ (hz2' hx)
            · intro x hx
              show x ∈ segs (l.points ++ ps)
              rw [hs]
              exact List.mem_append_right _ (hz2 hx)
          · exfalso
            -- one edge cannot become two
            have : es = [z] := by
              rw [h0]
              rw [h0] at h2
              cases d with
              | nil => rfl
              | cons _ _ => simp at h2
            rw [this] at h1
            simp [joinLoop, joinStep] at h1
        · exact key e (by simp [he])
    · rw [if_neg hr] at h
      obtain rfl := Except.ok.inj h
      exact key

/-! ## What an edge of a normalized ring is made of -/

/-- An edge of the ring, walked either way (as it is if the ring runs the right
way), or one that contains two neighbouring edges of the ring. -/
def Made {δ : Type} (t : Topology δ) (ring : TopoRing) (right : Prop) (e : NormEdge) : Prop :=
  (∃ de ∈ ring.directedEdges, sides t de.edge = e.regions ∧
    (e.points = pathOf t de ∨ e.points = (pathOf t de).reverse) ∧ (right → e.points = pathOf t de)) ∨
  2 ≤ ring.directedEdges.length ∧ ∃ x y, Adjoins ring.directedEdges x y ∧ sides t x.edge = e.regions ∧
    sides t y.edge = e.regions ∧ (∀ s ∈ segs (pathOf t x), s ∈ segs e.points ∨ s.swap ∈ segs e.points) ∧
    ∀ s ∈ segs (pathOf t y), s ∈ segs e.points ∨ s.swap ∈ segs e.points

theorem adjoins_of_map {α β : Type} {f : α → β} {l : List α} {x y : β} (h : Adjoins (l.map f) x y) :
    ∃ a b, Adjoins l a b ∧ f a = x ∧ f b = y := by
  obtain ⟨i, h1, h2⟩ := h
  rw [List.length_map] at h2
  rw [List.getElem?_map] at h1 h2
  obtain ⟨a, ha, rfl⟩ := Option.map_eq_some_iff.mp h1
  obtain ⟨b, hb, rfl⟩ := Option.map_eq_some_iff.mp h2
  exact ⟨a, b, ⟨i, ha, hb⟩, rfl, rfl⟩

theorem startsLeftmost_reverse {e : List Point} (hc : e.head? = e.getLast?) (h : StartsLeftmost [e]) :
    StartsLeftmost [e.reverse] := by
  intro p hp q hq
  rw [List.head?_reverse, ← hc] at hq
  exact h p (List.mem_reverse.mp hp) q hq

theorem normalizeRing_made {δ : Type} {m : Build} {t : Topology δ} (hw : WellFormed t) {order : WindingOrder}
    {ring : TopoRing} (hr : ring ∈ allRings t) (hf : StartsLeftmost (pathsOf t ring)) {out : NormRing}
    (h : normalizeRing m t order ring = .ok out) : ∀ e ∈ out, Made t ring (Oriented order (pathsOf t ring)) e := by
  have hn := normalizeRing_ok hw.pointers hw.closed hr h
  have hclosed := closed_pathsOf hw.closed hr
  rw [← npts_nedges] at hclosed
  obtain ⟨j, hj, j1, j2, j3, j4⟩ := joinRelatedEdges_closed hclosed
  have hpc := joinRelatedEdges_pieces hclosed hj
  rw [normalizeRing, withDirectedEdges_eq hw.pointers (mem_allDirectedEdges_of_ring hr), ok_bind,
    show ring.directedEdges.map (nedge t) = nedges t ring from rfl, hj, ok_bind, bind_ok] at h
  obtain ⟨w, hwd, h⟩ := h
  obtain ⟨w1, w2⟩ := windEdges_ok hwd
  have hori : Oriented order (npts j) ↔ Oriented order (pathsOf t ring) := by
    rw [← npts_nedges]
    exact oriented_congr (shoelaceEdges_of_perm j2.perm)
  by_cases hlen : ring.directedEdges.length = 1
  · -- a ring of one edge stays as it is
    obtain ⟨de, hde⟩ := List.length_eq_one_iff.mp hlen
    have hes : nedges t ring = [nedge t de] := by unfold nedges; rw [hde]; rfl
    rw [hes] at hj hclosed
    have hj' : j = [nedge t de] := by
      have : joinRelatedEdges [nedge t de] = .ok [nedge t de] := by
        simp [joinRelatedEdges, joinLoop, joinStep, joinWrap]
      exact Except.ok.inj (hj.symm.trans this)
    subst hj'
    have hce := closedRing_single (show ClosedRing [(nedge t de).points] from hclosed)
    have hpe : pathsOf t ring = [(nedge t de).points] := by rw [← npts_nedges, hes]; rfl
    rw [hpe] at hf
    have hwc : ClosedRing (npts w) ∧ StartsLeftmost (npts w) := by
      rw [w2]; split
      · exact ⟨hclosed, hf⟩
      · rw [npts_nturned]
        exact ⟨closedRing_reverse hclosed, startsLeftmost_reverse hce hf⟩
    rw [rotateEdges_first hwc.1 hwc.2] at h
    obtain rfl := Except.ok.inj h
    intro e he
    rw [w2] at he
    left
    refine ⟨de, by rw [hde]; simp, ?_⟩
    split at he
    · obtain rfl := List.mem_singleton.mp he
      exact ⟨rfl, Or.inl rfl, fun _ => rfl⟩
    · rename_i hno
      simp only [nturned, List.map_cons, List.map_nil, List.reverse_singleton, List.mem_singleton] at he
      subst he
      exact ⟨rfl, Or.inr rfl, fun hr => absurd (hori.mpr hr) hno⟩
  · have hpos : ring.directedEdges ≠ [] := by
      intro h0
      exact hclosed.1 (by simp [nedges, h0, npts])
    have hlen2 : 2 ≤ ring.directedEdges.length := by
      have := List.length_pos_iff.mpr hpos
      omega
    have hmade : ∀ e ∈ w, Made t ring (Oriented order (pathsOf t ring)) e := by
      intro e he
      -- the edge before it was turned
      obtain ⟨f, hfj, hfr, hfp, hfo⟩ : ∃ f ∈ j, e.regions = f.regions ∧
          (e.points = f.points ∨ e.points = f.points.reverse) ∧
          (Oriented order (pathsOf t ring) → e.points = f.points) := by
        rw [w2] at he
        split at he
        · exact ⟨e, he, rfl, Or.inl rfl, fun _ => rfl⟩
        · rename_i hno
          unfold nturned at he
          rw [List.mem_reverse] at he
          obtain ⟨f, hf, rfl⟩ := List.mem_map.mp he
          exact ⟨f, hf, rfl, Or.inr rfl, fun hr => absurd (hori.mpr hr) hno⟩
      rcases hpc f hfj with hm | ⟨_, x, y, ha, hx, hy, hsx, hsy⟩
      · obtain ⟨de, hde, rfl⟩ := List.mem_map.mp hm
        exact Or.inl ⟨de, hde, hfr.symm, hfp, hfo⟩
      · obtain ⟨a, b, hab, rfl, rfl⟩ := adjoins_of_map ha
        have hseg : ∀ s, s ∈ segs f.points → s ∈ segs e.points ∨ s.swap ∈ segs e.points := by
          intro s hs
          rcases hfp with hp | hp
          · left; rw [hp]; exact hs
          · right
            rw [hp, segs_reverse, List.mem_reverse]
            exact List.mem_map_of_mem hs
        exact Or.inr ⟨hlen2, a, b, hab, hx.trans hfr.symm, hy.trans hfr.symm, fun s hs => hseg s (hsx hs),
          fun s hs => hseg s (hsy hs)⟩
    have hwc : ClosedRing (npts w) := by
      rw [w2]; split
      · exact j1
      · rw [npts_nturned]; exact closedRing_reverse j1
    by_cases hone : ∃ f, w = [f]
    · -- all edges were joined into one
      obtain ⟨f, rfl⟩ := hone
      obtain ⟨f', hf', hrot⟩ := rotateIslandEdge_ok hwc
      have : out = [f'] := by
        have h' : rotateEdges [f] = .ok [f'] := by simp [rotateEdges, hf']
        exact Except.ok.inj (h.symm.trans h')
      subst this
      intro e he
      obtain rfl := List.mem_singleton.mp he
      have hall : ∀ de ∈ ring.directedEdges, sides t de.edge = e.regions ∧
          ∀ s ∈ segs (pathOf t de), s ∈ segs e.points ∨ s.swap ∈ segs e.points := by
        intro de hde
        have key : ∀ s, s ∈ segs (pathOf t de) → sides t de.edge = e.regions ∧ (s ∈ segs e.points ∨ s.swap ∈ segs e.points) := by
          intro s hs
          have hmem : ∀ a, a ∈ sidedSegs (wound t order ring) → a.2 = e.regions ∧ a.1 ∈ segs e.points := by
            intro a ha
            have := hn.segs.mem_iff.mpr ha
            simp only [nsegs, List.flatMap_cons, List.flatMap_nil, List.append_nil] at this
            obtain ⟨s', hs', rfl⟩ := List.mem_map.mp this
            exact ⟨rfl, hs'⟩
          rcases segment_walked (t := t) order hde (Or.inl hs) with h | h
          · exact ⟨(hmem _ h).1, Or.inl (hmem _ h).2⟩
          · exact ⟨(hmem _ h).1, Or.inr (hmem _ h).2⟩
        refine ⟨?_, fun s hs => (key s hs).2⟩
        have hx := extended_nedges hw.pointers hw.extended hr (nedge t de) (List.mem_map_of_mem hde)
        obtain ⟨a, l, hal⟩ := List.exists_cons_of_ne_nil (edgeSegs_ne_nil hx)
        have ha : a ∈ edgeSegs (nedge t de) := by rw [hal]; simp
        obtain ⟨s, hs, _⟩ := List.mem_map.mp ha
        exact (key s hs).1
      match hd : ring.directedEdges, hlen2 with
      | x :: y :: l, _ =>
        have hx := hall x (by rw [hd]; simp)
        have hy := hall y (by rw [hd]; simp)
        refine Or.inr ⟨by rw [hd]; simp, x, y, ?_, hx.1, hy.1, hx.2, hy.2⟩
        rw [hd]
        exact adjoins_inner [] l x y
    · -- rotating a ring of several edges keeps them
      have : out.Perm w := by
        match w, hone, h with
        | [], _, h =>
          obtain rfl := Except.ok.inj (show Except.ok [] = Except.ok out from h)
          exact List.Perm.refl _
        | [f], hone, _ => exact absurd ⟨f, rfl⟩ hone
        | f :: g :: l, _, h =>
          simp only [rotateEdges, bind_ok] at h
          obtain ⟨ps, _, h⟩ := h
          split at h
          · obtain rfl := Except.ok.inj h; exact List.Perm.refl _
          · obtain rfl := Except.ok.inj h; exact List.Perm.refl _
          · obtain rfl := Except.ok.inj h
            refine List.perm_append_comm.trans ?_
            rw [List.take_append_drop]
      intro e he
      exact hmade e (this.mem_iff.mp he)

theorem normalizeRegionNormRings_made {δ : Type} {m : Build} {t : Topology δ} (hb : BackPointersExact t)
    (hc : RingsClosed t) {order : WindingOrder} {rings : List TopoRing} (hr : ∀ ring ∈ rings, ring ∈ allRings t)
    {out : List NormRing} (h : normalizeRegionNormRings m t rings order = .ok out) :
    ∃ ns merged, normalizeRings m t order rings = .ok ns ∧ NormalizedRings t order rings ns out merged ∧
      ∀ n ∈ merged, NoLoops n := by
  simp only [normalizeRegionNormRings, bind_ok] at h
  obtain ⟨ns, h1, joined, h2, h⟩ := h
  have hns := normalizeRings_ok hb hc hr h1
  obtain ⟨merged, had, hloops⟩ := joinAdjacentRings_loops h2
  obtain ⟨hp, hs⟩ := sortRings_ok h
  have had' : Adjoined ns out merged := ⟨hp.trans had.parts, had.nice, had.segs, had.extended, had.none⟩
  have hmem : ∀ r ∈ out, r ∈ plainRings ns ∨ r ∈ merged := by
    intro r hr
    exact List.mem_append.mp (had'.parts.mem_iff.mp hr)
  refine ⟨ns, merged, h1, ⟨hns, had', ?_, ?_, hs, ?_⟩, hloops⟩
  · intro r hr
    rcases hmem r hr with h | h
    · obtain ⟨x, _, hx⟩ := forall₂_exists_left hns (List.mem_of_mem_filter h)
      exact hx.nice
    · exact had'.nice r h
  · refine (had'.parts.flatMap_right nsegs).trans ?_
    rw [List.flatMap_append]
    refine (had'.segs.append_left _).trans ((plain_loose_segs ns).trans ?_)
    clear h1 h2 h had had' hp hs hmem hr hloops
    unfold boundary
    induction hns with
    | nil => exact List.Perm.refl _
    | cons h1 _ ih =>
      rw [List.flatMap_cons, List.flatMap_cons, sidedSegs_filter]
      exact (h1.segs.perm.filter _).append ih
  · intro hx r hr
    have hx' : ∀ n ∈ ns, Extended n := by
      intro n hn
      obtain ⟨x, hxm, hx1⟩ := forall₂_exists_left hns hn
      exact hx1.extended (hx x hxm)
    rcases hmem r hr with h | h
    · exact hx' r (List.mem_of_mem_filter h)
    · refine had'.extended ?_ r h
      intro e he
      unfold looseEdges at he
      obtain ⟨n, hn, he⟩ := List.mem_flatMap.mp he
      split at he
      · simp at he
      · exact hx' n hn e (List.mem_of_mem_filter he)


theorem normalizeRings_made {δ : Type} {m : Build} {t : Topology δ} (hw : WellFormed t) {order : WindingOrder}
    {rings : List TopoRing} (hr : ∀ ring ∈ rings, ring ∈ allRings t)
    (hf : ∀ ring ∈ rings, StartsLeftmost (pathsOf t ring)) {ns : List NormRing}
    (h : normalizeRings m t order rings = .ok ns) :
    List.Forall₂ (fun ring n => NormalizedRing t order ring n ∧
      ∀ e ∈ n, Made t ring (Oriented order (pathsOf t ring)) e) rings ns := by
  induction rings generalizing ns with
  | nil => obtain rfl := Except.ok.inj h; exact .nil
  | cons r rest ih =>
    simp only [normalizeRings, bind_ok] at h
    obtain ⟨n, h1, ns, h2, h⟩ := h
    obtain rfl := Except.ok.inj h
    exact .cons ⟨normalizeRing_ok hw.pointers hw.closed (hr r (by simp)) h1,
      normalizeRing_made hw (hr r (by simp)) (hf r (by simp)) h1⟩
      (ih (fun x hx => hr x (by simp [hx])) (fun x hx => hf x (by simp [hx])) h2)

/-- A ring runs the way it is to run. -/
def RightWay {δ : Type} (t : Topology δ) (A : Nat) (ring : TopoRing) : Prop :=
  ∀ r, t.regions[A]? = some r → (ring ∈ r.outerRings → Oriented .clockwise (pathsOf t ring)) ∧
    (ring ∈ r.innerRings → Oriented .counterClockwise (pathsOf t ring))

theorem made_mono {δ : Type} {t : Topology δ} {ring : TopoRing} {P Q : Prop} (h : Q → P) {e : NormEdge}
    (hm : Made t ring P e) : Made t ring Q e := by
  rcases hm with ⟨de, h1, h2, h3, h4⟩ | hm
  · exact Or.inl ⟨de, h1, h2, h3, fun hq => h4 (h hq)⟩
  · exact Or.inr hm

/-- Where a ring of the normalized topology comes from. -/
structure Origin {δ : Type} (t t' : Topology δ) (A : Nat) (ring' : TopoRing) (ring : TopoRing) (n : NormRing) :
    Prop where
  region : ∃ r, t.regions[A]? = some r ∧ ring ∈ r.outerRings ++ r.innerRings
  walk : ∃ w, (A, w) ∈ walks t ∧ Turns t' w ring' n ∧
    ∀ a ∈ w, ∃ de ∈ ring.directedEdges, a.2 = sides t de.edge ∧
      (a.1 ∈ segs (pathOf t de) ∨ a.1.swap ∈ segs (pathOf t de))
  made : ∀ e ∈ n, Made t ring (RightWay t A ring) e

theorem origin_of_normalize {δ : Type} {m : Build} {t t' : Topology δ} (hw : WellFormed t)
    (hs : NoSelfEdges t (allRings t)) (ho : ∀ r ∈ t.regions, r.outerRings ≠ [])
    (hmin : ∀ ring ∈ allRings t, wrap64 (shoelaceEdges (pathsOf t ring)) ≠ -2 ^ 63)
    (hf : ∀ ring ∈ allRings t, StartsLeftmost (pathsOf t ring))
    (h : normalize m t = .ok t') {A : Nat} {r' : TopoRegion δ} (hr' : t'.regions[A]? = some r') {ring' : TopoRing}
    (hring' : ring' ∈ r'.outerRings ++ r'.innerRings) : ∃ ring n, Origin t t' A ring' ring n := by
  obtain ⟨rs, h2, h1⟩ := normalize_ok.mp h
  have h7 := C07_round_trip m rs t' h1
  have key : ∀ (order : WindingOrder) (rings : List TopoRing) (out : List NormRing),
      (∀ ring ∈ rings, ring ∈ allRings t) → normalizeRegionNormRings m t rings order = .ok out →
      (keptRings (out.map normRingToRing)).map ringPaths = out.map npts ∧ out.length = rings.length ∧
      ∀ rings', List.Forall₂ (ReadsAs t'.edges) (out.map npts) rings' → ∀ ring' ∈ rings', ∃ ring ∈ rings, ∃ n,
        Turns t' (sidedSegs (wound t order ring)) ring' n ∧ ∀ e ∈ n, Made t ring (Oriented order (pathsOf t ring)) e := by
    intro order rings out hr hout
    obtain ⟨ns, merged, hns, hn, _⟩ := normalizeRegionNormRings_made hw.pointers hw.closed hr hout
    have hmd := normalizeRings_made hw hr (fun ring hring => hf ring (hr ring hring)) hns
    have hx := extended_singles hw hr hn.single
    obtain ⟨_, _, hp⟩ := noSelf_plain hn (fun ring hring de hde => hs ring (hr ring hring) de hde) hx
    refine ⟨?_, ?_, ?_⟩
    · rw [keptRings_normRings fun n hno => hx n (hp.mem_iff.mp hno), List.filter_eq_self]
      intro ps hps
      obtain ⟨n, hno, rfl⟩ := List.mem_map.mp hps
      obtain ⟨ring, hring, hnr⟩ := forall₂_exists_left hn.single (hp.mem_iff.mp hno)
      simpa using hnr.nonzero
    · rw [hp.length_eq, hn.single.length_eq]
    · intro rings' hreads ring' hr'
      obtain ⟨ps, hps, hread⟩ := forall₂_exists_left hreads hr'
      obtain ⟨n, hno, rfl⟩ := List.mem_map.mp hps
      have hn' := hp.mem_iff.mp hno
      obtain ⟨ring, hring, hnr, hmade⟩ := forall₂_exists_left hmd hn'
      exact ⟨ring, hring, n, ⟨pathsOf_reads hread, hnr.nice, hx n hn', hnr.nonzero,
        bounded_of_normalizedRing hnr (hmin ring (hr ring hring)), hnr.segs⟩, hmade⟩
  have hparts : ∀ r x, normalizeRegion m t r = .ok x → ∃ outer inner,
      normalizeRegionNormRings m t r.outerRings .clockwise = .ok outer ∧
      normalizeRegionNormRings m t r.innerRings .counterClockwise = .ok inner ∧
      x.outerRings = outer.map normRingToRing ∧ x.innerRings = inner.map normRingToRing := by
    intro r x hx
    simp only [normalizeRegion, bind_ok] at hx
    obtain ⟨o, h3, i, h4, hx⟩ := hx
    obtain rfl := Except.ok.inj hx
    obtain ⟨no, h5, rfl⟩ := normalizeRegionRings_ok h3
    obtain ⟨ni, h6, rfl⟩ := normalizeRegionRings_ok h4
    exact ⟨no, ni, h5, h6, rfl, rfl⟩
  -- no region is dropped
  have hkept : keptRegions rs = rs.map fun r =>
      ⟨r.data, (keptRings r.outerRings).map ringPaths, (keptRings r.innerRings).map ringPaths⟩ := by
    unfold keptRegions
    congr 1
    rw [List.filter_eq_self]
    intro x hx
    obtain ⟨r, hr, hn⟩ := forall₂_exists_left h2 hx
    obtain ⟨outer, inner, g1, _, e1, _⟩ := hparts r x hn
    obtain ⟨k1, k2, _⟩ := key _ _ _ (mem_allRings_outer hr) g1
    rw [e1]
    simp only [ne_eq, decide_not, Bool.not_eq_eq_eq_not, Bool.not_true, decide_eq_false_iff_not]
    intro h0
    rw [h0] at k1
    have := ho r hr
    have h3 : outer.length = 0 := by simpa using (congrArg List.length k1).symm
    rw [h3] at k2
    exact this (List.eq_nil_of_length_eq_zero k2.symm)
  rw [hkept, List.forall₂_map_left_iff] at h7
  obtain ⟨x, hx, _, h8, h9⟩ := forall₂_getElem? h7.flip hr'
  obtain ⟨r, hr, hn⟩ := forall₂_getElem? h2.flip hx
  obtain ⟨outer, inner, g1, g2, e1, e2⟩ := hparts r x hn
  have hrm := List.mem_of_getElem? hr
  obtain ⟨a1, _, a3⟩ := key _ _ _ (mem_allRings_outer hrm) g1
  obtain ⟨b1, _, b3⟩ := key _ _ _ (mem_allRings_inner hrm) g2
  simp only [e1, a1] at h8
  simp only [e2, b1] at h9
  rcases List.mem_append.mp hring' with hm | hm
  · obtain ⟨ring, hring, n, ht, hmade⟩ := a3 _ h8 ring' hm
    exact ⟨ring, n, ⟨r, hr, by simp [hring]⟩, ⟨_, mem_walks.mpr ⟨r, hr, Or.inl ⟨ring, hring, rfl⟩⟩, ht,
      fun a ha => walk_segment ha⟩, fun e he => made_mono (fun hw => (hw r hr).1 hring) (hmade e he)⟩
  · obtain ⟨ring, hring, n, ht, hmade⟩ := b3 _ h9 ring' hm
    exact ⟨ring, n, ⟨r, hr, by simp [hring]⟩, ⟨_, mem_walks.mpr ⟨r, hr, Or.inr ⟨ring, hring, rfl⟩⟩, ht,
      fun a ha => walk_segment ha⟩, fun e he => made_mono (fun hw => (hw r hr).2 hring) (hmade e he)⟩

/-! ## The sides of edges the second time -/

/-- A region has the segment on its boundary. -/
def PassedBy {δ : Type} (t : Topology δ) (B : Nat) (s : Point × Point) : Prop :=
  ∃ r ring de, t.regions[B]? = some r ∧ ring ∈ r.outerRings ++ r.innerRings ∧ de ∈ ring.directedEdges ∧
    (s ∈ segs (pathOf t de) ∨ s.swap ∈ segs (pathOf t de))

theorem passedBy_swap {δ : Type} {t : Topology δ} {B : Nat} {s : Point × Point} (h : PassedBy t B s) :
    PassedBy t B s.swap := by
  obtain ⟨r, ring, de, h1, h2, h3, h4⟩ := h
  exact ⟨r, ring, de, h1, h2, h3, by simpa [or_comm] using h4⟩

/-- No other region has segments of two neighbouring edges of a ring on its
boundary. -/
def ApartRings {δ : Type} (t : Topology δ) : Prop :=
  ∀ A r ring x y, t.regions[A]? = some r → ring ∈ r.outerRings ++ r.innerRings → 2 ≤ ring.directedEdges.length →
    Adjoins ring.directedEdges x y → ∀ s ∈ segs (pathOf t x), ∀ s' ∈ segs (pathOf t y), ∀ B, B ≠ A →
      PassedBy t B s → PassedBy t B s' → False

/-- The segments of a region. -/
def regionSegs {δ : Type} (t : Topology δ) (r : TopoRegion δ) : List (Point × Point) :=
  (r.outerRings ++ r.innerRings).flatMap fun ring => (pathsOf t ring).flatMap segs

/-- A path whose reverse has the opposite area, so that one of them is the
stored one. -/
def Telling (e : List Point) : Prop := wrap64 (shoelace e) ≠ 0 ∧ wrap64 (shoelace e) ≠ -2 ^ 63

/-- A ring that does not run the right way has no closed edges that are stored
both ways. -/
def LoopsSound {δ : Type} (t : Topology δ) : Prop :=
  ∀ A r ring de, t.regions[A]? = some r → ring ∈ r.outerRings ++ r.innerRings → de ∈ ring.directedEdges →
    (pathOf t de).head? = (pathOf t de).getLast? → Telling (pathOf t de) ∨ RightWay t A ring

/-- What is known of topologies that were normalized once. -/
structure Once {δ : Type} (t : Topology δ) : Prop where
  wellFormed : WellFormed t
  outer : ∀ r ∈ t.regions, r.outerRings ≠ []
  noSelf : NoSelfEdges t (allRings t)
  bounded : ∀ ring ∈ allRings t, wrap64 (shoelaceEdges (pathsOf t ring)) ≠ -2 ^ 63
  first : ∀ ring ∈ allRings t, StartsLeftmost (pathsOf t ring)
  two : ∀ p q, passes t p q ≤ 2
  one : ∀ r ∈ t.regions, ∀ p q, (regionSegs t r).countP (either p q) ≤ 1
  apart : ApartRings t
  loops : LoopsSound t

theorem segment_exists {e : List Point} (h : ¬ ZeroLength e) : ∃ s, s ∈ segs e := by
  match e, h with
  | [], h => exact absurd (Or.inl (by simp)) h
  | [p], h => exact absurd (Or.inl (by simp)) h
  | p :: q :: l, _ => exact ⟨(p, q), by simp [segs]⟩

theorem mem_all_of_region {δ : Type} {t : Topology δ} {A : Nat} {r : TopoRegion δ} {ring : TopoRing} {d : DirectedEdge}
    (h1 : t.regions[A]? = some r) (h2 : ring ∈ r.outerRings ++ r.innerRings) (h3 : d ∈ ring.directedEdges) :
    d ∈ allDirectedEdges t :=
  List.mem_flatMap.mpr ⟨ring, List.mem_flatMap.mpr ⟨r, List.mem_of_getElem? h1, h2⟩, h3⟩

theorem pathOf_same_edge {δ : Type} {t : Topology δ} {x y : DirectedEdge} (h : x.edge = y.edge) (hy : y.edge < t.edges.length) :
    pathOf t x = pathOf t y ∨ pathOf t x = (pathOf t y).reverse := by
  unfold pathOf walk
  rw [h, List.getElem?_eq_getElem hy]
  simp only [Option.map_some, Option.getD_some]
  cases x.direction <;> cases y.direction <;> simp

theorem extended_pathOf {δ : Type} {t : Topology δ} (hw : WellFormed t) {d : DirectedEdge} (hd : d ∈ allDirectedEdges t) :
    ∃ s, s ∈ segs (pathOf t d) := by
  obtain ⟨ring, hring, hd⟩ := List.mem_flatMap.mp hd
  exact segment_exists (extended_nedges hw.pointers hw.extended hring (nedge t d) (List.mem_map_of_mem hd))

theorem swap_mem_reverse {s : Point × Point} {l : List Point} : s ∈ segs l.reverse ↔ s.swap ∈ segs l := by
  rw [segs_reverse, List.mem_reverse]
  constructor
  · intro h
    obtain ⟨x, hx, rfl⟩ := List.mem_map.mp h
    simpa using hx
  · intro h
    exact List.mem_map.mpr ⟨_, h, by simp⟩

/-- A segment of either of two edges with the same segments. -/
theorem mem_either_way {s : Point × Point} {l k : List Point} (h : l = k ∨ l = k.reverse)
    (hs : s ∈ segs l ∨ s.swap ∈ segs l) : s ∈ segs k ∨ s.swap ∈ segs k := by
  rcases h with rfl | rfl
  · exact hs
  · rw [swap_mem_reverse, swap_mem_reverse] at hs
    simpa [or_comm] using hs

theorem either_way_symm {l k : List Point} (h : l = k ∨ l = k.reverse) : k = l ∨ k = l.reverse := by
  rcases h with rfl | rfl
  · exact Or.inl rfl
  · right; simp

theorem either_way_trans {l k j : List Point} (h : l = k ∨ l = k.reverse) (h' : k = j ∨ k = j.reverse) :
    l = j ∨ l = j.reverse := by
  rcases h with rfl | rfl <;> rcases h' with rfl | rfl <;> simp

/-- Edges that run along the same points are the same edge. -/
theorem same_edge_of_path {δ : Type} {m : Build} {rs : List (Region δ)} {t : Topology δ} (h : buildTopology m rs = .ok t)
    {d d' : DirectedEdge} (hd : d ∈ allDirectedEdges t) (hd' : d' ∈ allDirectedEdges t)
    (hp : pathOf t d' = pathOf t d ∨ pathOf t d' = (pathOf t d).reverse)
    (hl : (pathOf t d).head? = (pathOf t d).getLast? →
      wrap64 (shoelace (pathOf t d)) ≠ 0 ∧ wrap64 (shoelace (pathOf t d)) ≠ -2 ^ 63) : d'.edge = d.edge := by
  have hb := (buildTopology_facts h).1
  have hwalk : ∀ d ∈ allDirectedEdges t, walk t.edges d = some (pathOf t d) := by
    intro d hd
    have := hb.2.2 d hd
    unfold pathOf walk
    rw [List.getElem?_eq_getElem this]
    rfl
  obtain ⟨c1, c2, _⟩ := C10_sharing m rs t h d d' hd hd' _ _ (hwalk _ hd) (hwalk _ hd')
  rcases hp with hp | hp
  · rw [c1 hp]
  · refine (c2 hp ?_).1.symm
    by_cases hc : (pathOf t d).head? = (pathOf t d).getLast?
    · exact Or.inr (hl hc)
    · exact Or.inl hc

theorem same_edge_of_path_eq {δ : Type} {m : Build} {rs : List (Region δ)} {t : Topology δ}
    (h : buildTopology m rs = .ok t) {d d' : DirectedEdge} (hd : d ∈ allDirectedEdges t) (hd' : d' ∈ allDirectedEdges t)
    (hp : pathOf t d' = pathOf t d) : d'.edge = d.edge := by
  have hb := (buildTopology_facts h).1
  have hwalk : ∀ d ∈ allDirectedEdges t, walk t.edges d = some (pathOf t d) := by
    intro d hd
    have := hb.2.2 d hd
    unfold pathOf walk
    rw [List.getElem?_eq_getElem this]
    rfl
  rw [(C10_sharing m rs t h d d' hd hd' _ _ (hwalk _ hd) (hwalk _ hd')).1 hp]

theorem telling_reverse {l : List Point} (h : Telling l) : Telling l.reverse := by
  have h1 : shoelace l.reverse = - shoelace l := by
    have := shoelaceEdges_reverse [l]
    simpa [shoelaceEdges_single] using this
  unfold Telling at h ⊢
  rw [h1, wrap64_neg' h.2]
  have := inI64_wrap64 (shoelace l)
  unfold InI64 at this
  omega

theorem telling_either_way {l k : List Point} (h : l = k ∨ l = k.reverse) (hk : Telling k) : Telling l := by
  rcases h with rfl | rfl
  · exact hk
  · exact telling_reverse hk

theorem closed_either_way {l k : List Point} (h : l = k ∨ l = k.reverse) (hl : l.head? = l.getLast?) :
    k.head? = k.getLast? := by
  rcases h with rfl | rfl
  · exact hl
  · rw [List.head?_reverse, List.getLast?_reverse] at hl
    exact hl.symm

/-- A closed edge that is stored both ways is only used one way. -/
theorem loop_same {δ : Type} {m : Build} {rs : List (Region δ)} {t : Topology δ} (h : buildTopology m rs = .ok t)
    {d d' : DirectedEdge} (hd : d ∈ allDirectedEdges t) (hd' : d' ∈ allDirectedEdges t) (he : d'.edge = d.edge)
    (hc : (pathOf t d).head? = (pathOf t d).getLast?) (hn : ¬ Telling (pathOf t d)) : pathOf t d' = pathOf t d := by
  obtain ⟨_, hk, _⟩ := buildTopology_facts h
  have hp : ∀ e ∈ allPaths rs, pathOf t (directedFor (keysOf rs) e) = e := by
    intro e he
    unfold pathOf
    rw [walk_directedFor hk (stored_mem_keysOf he)]
    rfl
  obtain ⟨e, he', rfl⟩ := mem_allDirectedEdges h hd
  obtain ⟨f, hf', rfl⟩ := mem_allDirectedEdges h hd'
  have hef := pathOf_same_edge he ((buildTopology_facts h).1.2.2 _ hd)
  rw [hp e he'] at hc hn hef ⊢
  rw [hp f hf'] at hef ⊢
  rcases hef with hef | hef
  · exact hef
  · have harea : pathArea e = 0 ∨ pathArea e = -2 ^ 63 := by
      unfold Telling at hn
      unfold pathArea
      omega
    have hsame : storedForward f ↔ storedForward e := by
      unfold storedForward
      rw [hef, List.head?_reverse, List.getLast?_reverse, ← hc, pathArea_reverse]
      cases e.head? with
      | none => rfl
      | some p => simp only [true_and]; rcases harea with ha | ha <;> simp [ha]
    have hdir : directedFor (keysOf rs) f = directedFor (keysOf rs) e := by
      unfold directedFor at he ⊢
      simp only at he
      rw [he]
      by_cases hs : storedForward e
      · rw [if_pos hs, if_pos (hsame.mpr hs)]
      · rw [if_neg hs, if_neg fun h => hs (hsame.mp h)]
    rw [← hp f hf', hdir, hp e he']

theorem origin_mem {δ : Type} {t t' : Topology δ} {A : Nat} {ring' ring : TopoRing} {n : NormRing}
    (h : Origin t t' A ring' ring n) {e : NormEdge} (he : e ∈ n) {s : Point × Point} (hs : s ∈ segs e.points) :
    ∃ de ∈ ring.directedEdges, e.regions = sides t de.edge ∧ (s ∈ segs (pathOf t de) ∨ s.swap ∈ segs (pathOf t de)) := by
  obtain ⟨w, _, ht, hw⟩ := h.walk
  have : (s, e.regions) ∈ w := ht.segs.mem_iff.mp (List.mem_flatMap.mpr ⟨e, he, List.mem_map_of_mem hs⟩)
  exact hw _ this

/-- Whatever a region has on its boundary it had there before. -/
theorem passedBy_old {δ : Type} {m : Build} {t t' : Topology δ} (ho : Once t) (h : normalize m t = .ok t') {B : Nat}
    {s : Point × Point} (hp : PassedBy t' B s) : PassedBy t B s := by
  obtain ⟨r', ring', de', h1, h2, h3, h4⟩ := hp
  obtain ⟨ring, n, hO⟩ := origin_of_normalize ho.wellFormed ho.noSelf ho.outer ho.bounded ho.first h h1 h2
  obtain ⟨r, hr, hring⟩ := hO.region
  obtain ⟨w, _, ht, _⟩ := hO.walk
  have : pathOf t' de' ∈ npts n := by rw [← ht.paths]; exact List.mem_map_of_mem h3
  obtain ⟨e, he, hep⟩ := List.mem_map.mp this
  rw [← hep] at h4
  rcases h4 with h4 | h4
  · obtain ⟨de, hde, _, hs⟩ := origin_mem hO he h4
    exact ⟨r, ring, de, hr, hring, hde, hs⟩
  · obtain ⟨de, hde, _, hs⟩ := origin_mem hO he h4
    exact ⟨r, ring, de, hr, hring, hde, by simpa [or_comm] using hs⟩

/-- A segment of an edge with two users lies on no other edge. -/
theorem edge_of_segment {δ : Type} {t : Topology δ} (ho : Once t) {d d' : DirectedEdge} (hd : d ∈ allDirectedEdges t)
    (hd' : d' ∈ allDirectedEdges t) (h2 : (sides t d.edge).2 ≠ none) {s : Point × Point}
    (hs : s ∈ segs (pathOf t d) ∨ s.swap ∈ segs (pathOf t d))
    (hs' : s ∈ segs (pathOf t d') ∨ s.swap ∈ segs (pathOf t d')) : d'.edge = d.edge := by
  by_contra hne
  have hlt := ho.wellFormed.pointers.2.2 d hd
  have hlt' := ho.wellFormed.pointers.2.2 d' hd'
  obtain ⟨p, q⟩ := s
  have h1 := users_add_le_passes hlt hlt' (fun h => hne h.symm) (p := p) (q := q) hs hs'
  have h3 : 0 < (ringsUsing t d'.edge).length := List.length_pos_iff.mpr (ringsUsing_of_mem hd')
  have h4 : 2 ≤ (ringsUsing t d.edge).length := by
    by_contra hc
    apply h2
    unfold sides
    rw [Option.map_eq_none_iff, List.getElem?_eq_none_iff]
    omega
  have := ho.two p q
  omega

/-- An edge with two regions on its sides is kept as it is. -/
theorem shared_kept {δ : Type} {t t' : Topology δ} (ho : Once t) {A : Nat} {ring' ring : TopoRing} {n : NormRing}
    (hO : Origin t t' A ring' ring n) {e : NormEdge} (he : e ∈ n) (h2 : e.regions.2 ≠ none) {s : Point × Point}
    (hs : s ∈ segs e.points) {d : DirectedEdge} (hd : d ∈ allDirectedEdges t)
    (hds : s ∈ segs (pathOf t d) ∨ s.swap ∈ segs (pathOf t d)) :
    e.regions = sides t d.edge ∧ ∃ x ∈ ring.directedEdges, x.edge = d.edge ∧
      (e.points = pathOf t x ∨ e.points = (pathOf t x).reverse) ∧ (RightWay t A ring → e.points = pathOf t x) := by
  obtain ⟨r, hr, hring⟩ := hO.region
  obtain ⟨de, hde, hsd, hseg⟩ := origin_mem hO he hs
  have hdall := mem_all_of_region hr hring hde
  have hsame : d.edge = de.edge := edge_of_segment ho hdall hd (by rw [← hsd]; exact h2) hseg hds
  refine ⟨by rw [hsd, hsame], ?_⟩
  rcases hO.made e he with ⟨f, hf, hfs, hfp, hfo⟩ | ⟨hlen, x, y, hxy, hx, hy, hxs, hys⟩
  · have hfall := mem_all_of_region hr hring hf
    have hsf : s ∈ segs (pathOf t f) ∨ s.swap ∈ segs (pathOf t f) := mem_either_way hfp (Or.inl hs)
    have : f.edge = de.edge := edge_of_segment ho hdall hfall (by rw [← hsd]; exact h2) hseg hsf
    exact ⟨f, hf, this.trans hsame.symm, hfp, hfo⟩
  · exfalso
    obtain ⟨hxm, hym⟩ := adjoins_mem hxy
    have hxall := mem_all_of_region hr hring hxm
    have hyall := mem_all_of_region hr hring hym
    obtain ⟨s1, hs1⟩ := extended_pathOf ho.wellFormed hxall
    obtain ⟨s2, hs2⟩ := extended_pathOf ho.wellFormed hyall
    have hpass : ∀ z ∈ ring.directedEdges, sides t z.edge = e.regions → ∀ u ∈ segs (pathOf t z), ∃ B, B ≠ A ∧
        e.regions = (some (min A B), some (max A B)) ∧ PassedBy t B u := by
      intro z hz hzs u hu
      have hzall := mem_all_of_region hr hring hz
      have hzlt := ho.wellFormed.pointers.2.2 z hzall
      have hle := (ho.wellFormed.pointers.1 z.edge _ (List.getElem?_eq_getElem hzlt)).1
      have hne := ho.noSelf ring (List.mem_flatMap.mpr ⟨r, List.mem_of_getElem? hr, hring⟩) z hz
      obtain ⟨B, hB, hBu, hBs⟩ := other_user hle hne (by rw [hzs]; exact h2)
        (mem_ringsUsing.mpr ⟨r, ring, z, hr, hring, hz, rfl⟩)
      obtain ⟨r2, ring2, d2, g1, g2, g3, g4⟩ := mem_ringsUsing.mp hBu
      refine ⟨B, hB, by rw [← hzs, hBs], r2, ring2, d2, g1, g2, g3, ?_⟩
      exact mem_either_way (either_way_symm (pathOf_same_edge g4 hzlt)) (Or.inl hu)
    obtain ⟨B, hB, hBs, hB1⟩ := hpass x hxm hx s1 hs1
    obtain ⟨B', hB', hBs', hB2⟩ := hpass y hym hy s2 hs2
    have : B = B' := by
      rw [hBs] at hBs'
      obtain ⟨e1, e2⟩ := Prod.mk.inj hBs'
      have e1 := Option.some.inj e1
      have e2 := Option.some.inj e2
      omega
    subst this
    exact ho.apart A r ring x y hr hring hlen hxy s1 hs1 s2 hs2 B hB hB1 hB2

/-- The directed edges of a region. -/
def regionDirected {δ : Type} (r : TopoRegion δ) : List DirectedEdge :=
  (r.outerRings ++ r.innerRings).flatMap (·.directedEdges)

theorem regionSegs_eq {δ : Type} (t : Topology δ) (r : TopoRegion δ) :
    regionSegs t r = (regionDirected r).flatMap fun de => segs (pathOf t de) := by
  unfold regionSegs regionDirected
  rw [List.flatMap_assoc]
  congr 1
  funext ring
  rw [pathsOf, List.flatMap_map]

/-- How often a region uses an edge. -/
theorem regionDirected_count {δ : Type} {t : Topology δ} {A : Nat} {r : TopoRegion δ} (hr : t.regions[A]? = some r) (i : Nat) :
    (regionDirected r).countP (fun de => decide (de.edge = i)) = (ringsUsing t i).countP fun p => decide (p.region = A) := by
  have hrings : ∀ (rings : List TopoRing) (k n : Nat) (inner : Bool),
      ((rings.zipIdx k).flatMap fun (x : TopoRing × Nat) =>
        (x.1.directedEdges.filter (·.edge = i)).map fun _ => (⟨n, inner, x.2⟩ : RingPtr)).countP
          (fun p => decide (p.region = A)) =
      if n = A then (rings.flatMap (·.directedEdges)).countP (fun de => decide (de.edge = i)) else 0 := by
    intro rings
    induction rings with
    | nil => intros; simp
    | cons ring rings ih =>
      intro k n inner
      rw [List.zipIdx_cons, List.flatMap_cons, List.countP_append, ih, List.flatMap_cons, List.countP_append,
        List.countP_map]
      by_cases hn : n = A
      · rw [if_pos hn, if_pos hn]
        congr 1
        rw [List.countP_eq_length_filter (l := ring.directedEdges), List.countP_eq_length]
        intro _ _
        simp [hn]
      · rw [if_neg hn, if_neg hn]
        simp [hn, List.countP_eq_zero]
  have hregs : ∀ (regs : List (TopoRegion δ)) (k : Nat),
      ((regs.zipIdx k).flatMap fun (x : TopoRegion δ × Nat) =>
        (x.1.outerRings.zipIdx.flatMap fun (y : TopoRing × Nat) =>
          (y.1.directedEdges.filter (·.edge = i)).map fun _ => (⟨x.2, false, y.2⟩ : RingPtr)) ++
        (x.1.innerRings.zipIdx.flatMap fun (y : TopoRing × Nat) =>
          (y.1.directedEdges.filter (·.edge = i)).map fun _ => (⟨x.2, true, y.2⟩ : RingPtr))).countP
            (fun p => decide (p.region = A)) =
      if k ≤ A then ((regs[A - k]?).map fun r => (regionDirected r).countP (fun de => decide (de.edge = i))).getD 0 else 0 := by
    intro regs
    induction regs with
    | nil => intros; simp
    | cons r regs ih =>
      intro k
      rw [List.zipIdx_cons, List.flatMap_cons, List.countP_append, ih, List.countP_append, hrings, hrings]
      by_cases hk : k = A
      · subst hk
        rw [if_pos rfl, if_pos rfl, if_neg (by omega), if_pos (Nat.le_refl _), Nat.sub_self]
        simp [regionDirected, List.countP_append, List.flatMap_append]
      · rw [if_neg hk, if_neg hk]
        by_cases hle : k ≤ A
        · rw [if_pos (by omega), if_pos hle, show A - k = (A - (k + 1)) + 1 by omega, List.getElem?_cons_succ]
          omega
        · rw [if_neg (by omega), if_neg hle]
  have := hregs t.regions 0
  rw [if_pos (Nat.zero_le _), Nat.sub_zero, hr] at this
  exact this.symm

theorem regionUsers_le {δ : Type} {t : Topology δ} {A : Nat} {r : TopoRegion δ} (hr : t.regions[A]? = some r)
    {de : DirectedEdge} (hlt : de.edge < t.edges.length) {p q : Point}
    (hs : (p, q) ∈ segs (pathOf t de) ∨ (q, p) ∈ segs (pathOf t de)) :
    ((ringsUsing t de.edge).countP fun p => decide (p.region = A)) ≤ (regionSegs t r).countP (either p q) := by
  rw [← regionDirected_count hr, regionSegs_eq, List.countP_eq_length_filter]
  refine length_filter_le_countP _ _ _ _ ?_
  intro d _ hd
  have hd : d.edge = de.edge := by simpa using hd
  have := mem_either_way (s := (p, q)) (either_way_symm (pathOf_same_edge hd hlt)) hs
  rcases this with h | h
  · exact ⟨_, h, by simp [either]⟩
  · exact ⟨_, h, by simp [either]⟩

theorem regionSegs_kept {δ : Type} {m : Build} {t t' : Topology δ} (hw : WellFormed t)
    (hs : NoSelfEdges t (allRings t)) (ho : ∀ r ∈ t.regions, r.outerRings ≠ []) (h : normalize m t = .ok t')
    {A : Nat} {r' : TopoRegion δ} (hr' : t'.regions[A]? = some r') : ∃ r, t.regions[A]? = some r ∧
      ∀ p q, (regionSegs t' r').countP (either p q) = (regionSegs t r).countP (either p q) := by
  have h15 := C15_topology m t t' hw hs ho h
  obtain ⟨r, hr, _, _, _, h4, h5⟩ := forall₂_getElem? h15.flip hr'
  refine ⟨r, hr, fun p q => ?_⟩
  have hw : ∀ (order : WindingOrder) (rings : List TopoRing),
      (rings.flatMap fun ring => (sidedSegs (wound t order ring)).map (·.1)).countP (either p q) =
      (rings.flatMap fun ring => (pathsOf t ring).flatMap segs).countP (either p q) := by
    intro order rings
    induction rings with
    | nil => rfl
    | cons ring rings ih => rw [List.flatMap_cons, List.flatMap_cons, List.countP_append, List.countP_append, ih, countP_wound]
  unfold regionSegs
  rw [List.flatMap_append, List.flatMap_append, List.countP_append, List.countP_append, h4.countP_eq, h5.countP_eq,
      hw, hw]

/-- An edge of the twice normalized topology has the regions on its sides that
it was joined by. -/
theorem edge_sides_again {δ : Type} {m0 m : Build} {rs : List (Region δ)} {t t' : Topology δ}
    (hb : buildTopology m0 rs = .ok t) (ho : Once t)
    (h : normalize m t = .ok t') {A : Nat} {r' : TopoRegion δ} (hr' : t'.regions[A]? = some r') {ring' : TopoRing}
    (hring' : ring' ∈ r'.outerRings ++ r'.innerRings) {ring : TopoRing} {n : NormRing}
    (hO : Origin t t' A ring' ring n) {e : NormEdge}
    (he : e ∈ n) {de' : DirectedEdge} (hde' : de' ∈ ring'.directedEdges) (hp : pathOf t' de' = e.points) :
    sides t' de'.edge = e.regions := by
  have hw' := wellFormed_normalize ho.wellFormed h
  have hd := mem_all_of_region hr' hring' hde'
  have hlt := hw'.pointers.2.2 de' hd
  have hle := (hw'.pointers.1 de'.edge _ (List.getElem?_eq_getElem hlt)).1
  have hAuse : ∃ p ∈ ringsUsing t' de'.edge, p.region = A :=
    mem_ringsUsing.mpr ⟨r', ring', de', hr', hring', hde', rfl⟩
  obtain ⟨rs', _, hbuilt⟩ := normalize_ok.mp h
  obtain ⟨r, hr, hring⟩ := hO.region
  obtain ⟨w, hwA, ht, _⟩ := hO.walk
  obtain ⟨s, hs⟩ := segment_exists (ht.extended e he)
  obtain ⟨de, hde, hsd, hseg⟩ := origin_mem hO he hs
  have hdall := mem_all_of_region hr hring hde
  have hdlt := ho.wellFormed.pointers.2.2 de hdall
  have hdle := (ho.wellFormed.pointers.1 de.edge _ (List.getElem?_eq_getElem hdlt)).1
  have horg := fun {B : Nat} {x : TopoRegion δ} (hx : t'.regions[B]? = some x) {y : TopoRing}
    (hy : y ∈ x.outerRings ++ x.innerRings) =>
      origin_of_normalize ho.wellFormed ho.noSelf ho.outer ho.bounded ho.first h hx hy
  by_cases h2 : e.regions.2 = none
  · -- a second user would share the edge already
    rw [sides_of_one ?_ hAuse]
    · rw [hsd, sides_of_one ?_ (mem_ringsUsing.mpr ⟨r, ring, de, hr, hring, hde, rfl⟩)]
      by_contra hc
      rw [hsd] at h2
      unfold sides at h2
      rw [Option.map_eq_none_iff, List.getElem?_eq_none_iff] at h2
      omega
    · by_contra hc
      -- the region of the other user
      obtain ⟨B, hBA, hB⟩ : ∃ B, B ≠ A ∧ ∃ p ∈ ringsUsing t' de'.edge, p.region = B := by
        by_contra hno
        have hall : ∀ p ∈ ringsUsing t' de'.edge, p.region = A := by
          intro p hp
          by_contra hpA
          exact hno ⟨p.region, hpA, p, hp, rfl⟩
        have hcount : ((ringsUsing t' de'.edge).countP fun p => decide (p.region = A)) = (ringsUsing t' de'.edge).length := by
          rw [List.countP_eq_length]
          intro p hp
          simpa using hall p hp
        obtain ⟨p, q⟩ := s
        have h1 := regionUsers_le hr' hlt (p := p) (q := q) (Or.inl (by rw [hp]; exact hs))
        obtain ⟨r0, hr0, h0⟩ := regionSegs_kept ho.wellFormed ho.noSelf ho.outer h hr'
        have h3 := ho.one r0 (List.mem_of_getElem? hr0) p q
        rw [h0] at h1
        omega
      obtain ⟨r2, ring2, d2, g1, g2, g3, g4⟩ := mem_ringsUsing.mp hB
      have hpath : pathOf t' d2 = e.points ∨ pathOf t' d2 = e.points.reverse := by
        rw [← hp]; exact pathOf_same_edge g4 hlt
      -- it has all segments of the edge on its boundary
      have hBpass : ∀ u, u ∈ segs e.points ∨ u.swap ∈ segs e.points → PassedBy t B u := by
        intro u hu
        exact passedBy_old ho h ⟨r2, ring2, d2, g1, g2, g3, mem_either_way (either_way_symm hpath) hu⟩
      have hApass : ∀ u, u ∈ segs e.points ∨ u.swap ∈ segs e.points → PassedBy t A u := by
        intro u hu
        exact passedBy_old ho h ⟨r', ring', de', hr', hring', hde', by rw [hp]; exact hu⟩
      have hxe := fun {z : DirectedEdge} (hz : z ∈ allDirectedEdges t) => extended_pathOf ho.wellFormed hz
      rcases hO.made e he with ⟨f, hf, hfs, hfp, hfo⟩ | ⟨hlen, x, y, hxy, _, _, hxs, hys⟩
      · obtain ⟨ring3, n3, hO3⟩ := horg g1 g2
        obtain ⟨r3, hr3, hring3⟩ := hO3.region
        obtain ⟨w3, _, ht3, _⟩ := hO3.walk
        have : pathOf t' d2 ∈ npts n3 := by rw [← ht3.paths]; exact List.mem_map_of_mem g3
        obtain ⟨e3, he3, hep3⟩ := List.mem_map.mp this
        rcases hO3.made e3 he3 with ⟨f3, hf3, hfs3, hfp3, hfo3⟩ | ⟨hlen3, x, y, hxy, _, _, hxs, hys⟩
        · have hfall := mem_all_of_region hr hring hf
          have hflt := ho.wellFormed.pointers.2.2 f hfall
          have hpp : pathOf t f3 = pathOf t f ∨ pathOf t f3 = (pathOf t f).reverse := by
            have i1 := either_way_symm hfp3
            rw [hep3] at i1
            exact either_way_trans i1 (either_way_trans hpath hfp)
          have hf3all := mem_all_of_region hr3 hring3 hf3
          have hsame : f3.edge = f.edge := by
            by_cases htell : (pathOf t f).head? = (pathOf t f).getLast? → Telling (pathOf t f)
            · exact same_edge_of_path hb hfall hf3all hpp htell
            · -- both run the right way
              rw [Classical.not_imp] at htell
              obtain ⟨hcl, hno⟩ := htell
              have hright := (ho.loops A r ring f hr hring hf hcl).resolve_left hno
              have hcl3 := closed_either_way (either_way_symm hpp) hcl
              have hno3 : ¬ Telling (pathOf t f3) := fun h => hno (telling_either_way (either_way_symm hpp) h)
              have hright3 := (ho.loops B r3 ring3 f3 hr3 hring3 hf3 hcl3).resolve_left hno3
              have e1 : e.points = pathOf t f := hfo hright
              have e3' : pathOf t' d2 = pathOf t f3 := hep3.symm.trans (hfo3 hright3)
              have := loop_same hbuilt hd (mem_all_of_region g1 g2 g3) g4 (by rw [hp, e1]; exact hcl)
                (by rw [hp, e1]; exact hno)
              rw [hp, e1, e3'] at this
              exact same_edge_of_path_eq hb hfall hf3all this
          have hfle := (ho.wellFormed.pointers.1 f.edge _ (List.getElem?_eq_getElem hflt)).1
          have hA2 : ∃ p ∈ ringsUsing t f.edge, p.region = A := mem_ringsUsing.mpr ⟨r, ring, f, hr, hring, hf, rfl⟩
          have hB2 : ∃ p ∈ ringsUsing t f.edge, p.region = B := mem_ringsUsing.mpr ⟨r3, ring3, f3, hr3, hring3, hf3, hsame⟩
          have : (sides t f.edge).2 ≠ none := by
            rcases Nat.lt_or_gt_of_ne hBA with hlt | hlt
            · rw [sides_of_two hfle hlt hB2 hA2]; simp
            · rw [sides_of_two hfle hlt hA2 hB2]; simp
          exact this (by rw [hfs]; exact h2)
        · obtain ⟨hxm, hym⟩ := adjoins_mem hxy
          obtain ⟨s1, hs1⟩ := hxe (mem_all_of_region hr3 hring3 hxm)
          obtain ⟨s2, hs2⟩ := hxe (mem_all_of_region hr3 hring3 hym)
          refine ho.apart B r3 ring3 x y hr3 hring3 hlen3 hxy s1 hs1 s2 hs2 A (fun h => hBA h.symm) (hApass _ ?_) (hApass _ ?_)
          · exact mem_either_way (by rw [hep3]; exact hpath) (hxs s1 hs1)
          · exact mem_either_way (by rw [hep3]; exact hpath) (hys s2 hs2)
      · obtain ⟨hxm, hym⟩ := adjoins_mem hxy
        obtain ⟨s1, hs1⟩ := hxe (mem_all_of_region hr hring hxm)
        obtain ⟨s2, hs2⟩ := hxe (mem_all_of_region hr hring hym)
        exact ho.apart A r ring x y hr hring hlen hxy s1 hs1 s2 hs2 B hBA (hBpass _ (hxs s1 hs1)) (hBpass _ (hys s2 hs2))
  · -- both regions keep the edge
    obtain ⟨_, x, hx, hxe, hkeep, hexact⟩ := shared_kept ho hO he h2 hs hdall hseg
    have hxall := mem_all_of_region hr hring hx
    have hxlt := ho.wellFormed.pointers.2.2 x hxall
    have hne := ho.noSelf ring (List.mem_flatMap.mpr ⟨r, List.mem_of_getElem? hr, hring⟩) de hde
    obtain ⟨B, hB, hBu, hBs⟩ := other_user hdle hne (by rw [← hsd]; exact h2)
      (mem_ringsUsing.mpr ⟨r, ring, de, hr, hring, hde, rfl⟩)
    obtain ⟨r2, ring2, d2, g1, g2, g3, g4⟩ := mem_ringsUsing.mp hBu
    obtain ⟨w2, hw2, hin⟩ := segment_walks g1 g2 g3
      (mem_either_way (either_way_symm (pathOf_same_edge g4 hdlt)) hseg)
    obtain ⟨r3, ring3, n0, hr3, hring3, ht3⟩ :=
      (kept_of_normalize ho.wellFormed ho.noSelf ho.outer ho.bounded h).walk B w2 hw2
    obtain ⟨ring4, n4, hO4⟩ := horg hr3 hring3
    obtain ⟨w4, _, ht4, _⟩ := hO4.walk
    obtain ⟨r5, hr5, hring5⟩ := hO4.region
    have key : ∀ u, (u = s ∨ u = s.swap) → (u, sides t d2.edge) ∈ w2 → ∃ d4 ∈ ring3.directedEdges,
        ∃ y ∈ ring4.directedEdges, y.edge = de.edge ∧
        (pathOf t' d4 = pathOf t y ∨ pathOf t' d4 = (pathOf t y).reverse) ∧
        (RightWay t B ring4 → pathOf t' d4 = pathOf t y) := by
      intro u hu huw
      obtain ⟨e0, he0, hu0⟩ := List.mem_flatMap.mp (ht3.segs.mem_iff.mpr huw)
      obtain ⟨u', hu', hue⟩ := List.mem_map.mp hu0
      obtain ⟨rfl, hreg⟩ := Prod.mk.inj hue
      have hp0 : e0.points ∈ npts n4 := by rw [← ht4.paths, ht3.paths]; exact List.mem_map_of_mem he0
      obtain ⟨e4, he4, hep4⟩ := List.mem_map.mp hp0
      replace hep4 : e4.points = e0.points := hep4
      have hu4 : u' ∈ segs e4.points := by rw [hep4]; exact hu'
      have hude : u' ∈ segs (pathOf t de) ∨ u'.swap ∈ segs (pathOf t de) := by
        rcases hu with rfl | rfl
        · exact hseg
        · simpa [or_comm] using hseg
      -- the label of the edge
      obtain ⟨d5, hd5, hs5, hseg5⟩ := origin_mem hO4 he4 hu4
      have h5 : d5.edge = de.edge := edge_of_segment ho hdall (mem_all_of_region hr5 hring5 hd5)
        (by rw [← hsd]; exact h2) hude hseg5
      obtain ⟨_, y, hy, hye, hk4, hx4⟩ := shared_kept ho hO4 he4 (by rw [hs5, h5, ← hsd]; exact h2) hu4 hdall hude
      have : e4.points ∈ pathsOf t' ring3 := by rw [ht4.paths]; exact List.mem_map_of_mem he4
      obtain ⟨d4, hd4, hdp⟩ := List.mem_map.mp this
      exact ⟨d4, hd4, y, hy, hye, by rw [hdp]; exact hk4, by rw [hdp]; exact hx4⟩
    obtain ⟨d4, hd4, y, hy, hye, hd4p, hd4x⟩ : ∃ d4 ∈ ring3.directedEdges,
        ∃ y ∈ ring4.directedEdges, y.edge = de.edge ∧
        (pathOf t' d4 = pathOf t y ∨ pathOf t' d4 = (pathOf t y).reverse) ∧
        (RightWay t B ring4 → pathOf t' d4 = pathOf t y) := by
      rcases hin with hin | hin
      · exact key s (Or.inl rfl) hin
      · exact key s.swap (Or.inr rfl) hin
    have hyx : pathOf t y = pathOf t x ∨ pathOf t y = (pathOf t x).reverse :=
      pathOf_same_edge (hye.trans hxe.symm) hxlt
    have hd4all := mem_all_of_region hr3 hring3 hd4
    have hsame : d4.edge = de'.edge := by
      by_cases htell : (pathOf t' de').head? = (pathOf t' de').getLast? → Telling (pathOf t' de')
      · exact same_edge_of_path hbuilt hd hd4all
          (by rw [hp]; exact either_way_trans hd4p (either_way_trans hyx (either_way_symm hkeep))) htell
      · rw [Classical.not_imp, hp] at htell
        obtain ⟨hcl, hno⟩ := htell
        have hclx := closed_either_way hkeep hcl
        have hnox : ¬ Telling (pathOf t x) := fun h => hno (telling_either_way hkeep h)
        have e1 := hexact ((ho.loops A r ring x hr hring hx hclx).resolve_left hnox)
        have hcly := closed_either_way (either_way_symm hyx) hclx
        have hnoy : ¬ Telling (pathOf t y) := fun h => hnox (telling_either_way (either_way_symm hyx) h)
        have e4 := hd4x ((ho.loops B r5 ring4 y hr5 hring5 hy hcly).resolve_left hnoy)
        have := loop_same hb hxall (mem_all_of_region hr5 hring5 hy) (hye.trans hxe.symm) hclx hnox
        exact same_edge_of_path_eq hbuilt hd hd4all (by rw [hp, e1, e4, this])
    have hBuse : ∃ p ∈ ringsUsing t' de'.edge, p.region = B :=
      mem_ringsUsing.mpr ⟨r3, ring3, d4, hr3, hring3, hd4, hsame⟩
    rw [hsd, hBs]
    rcases Nat.lt_or_gt_of_ne hB with hlt | hlt
    · rw [sides_of_two hle hlt hBuse hAuse, Nat.min_eq_right hlt.le, Nat.max_eq_left hlt.le]
    · rw [sides_of_two hle hlt hAuse hBuse, Nat.min_eq_left (Nat.le_of_lt hlt), Nat.max_eq_right (Nat.le_of_lt hlt)]

end TopoGeo
