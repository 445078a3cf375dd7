import Verif.Proofs.Wound
import Verif.Props.BuildSafe
import Verif.Props.Merge
import Verif.Props.NormalizeShared
/-!
# C124: maps whose rings wind around each point at most once
-/

namespace TopoGeo
open Spec

/-! ## The rings of the topology -/

/-- A ring is walked in the required orientation. -/
theorem wound_walked {δ : Type} (t : Topology δ) (order : WindingOrder) (ring : TopoRing) :
    ((sidedSegs (wound t order ring)).map (·.1)).Perm (windAs order (pathsOf t ring)) := by
  have hb : pathsIn (bounds t ring) = pathsOf t ring := by
    unfold pathsIn bounds pathsOf
    rw [List.map_map]; rfl
  unfold wound windAs
  rw [sidedSegs_fst]
  split
  · rw [hb]
  · have ht : pathsIn (turned (bounds t ring)) = ((pathsOf t ring).map List.reverse).reverse := by
      rw [← hb]
      unfold pathsIn turned
      rw [List.map_reverse, List.map_map, List.map_map]; rfl
    rw [ht]
    refine ((List.reverse_perm _).flatMap_right _).trans ?_
    generalize pathsOf t ring = paths
    induction paths with
    | nil => exact .refl _
    | cons e paths ih =>
      rw [List.map_cons, List.flatMap_cons, List.flatMap_cons, List.map_append]
      refine List.Perm.append ?_ ih
      rw [segs_reverse]
      exact List.reverse_perm _

theorem walked_rings {δ : Type} {t : Topology δ} (order : WindingOrder) (n : Nat) {ps : List (List (List Point))}
    {rings : List TopoRing} (hf : List.Forall₂ (ReadsAs t.edges) ps rings) :
    ((rings.map fun ring => (n, sidedSegs (wound t order ring))).flatMap fun w => w.2.map (·.1)).Perm
      (ps.flatMap (windAs order)) := by
  induction hf with
  | nil => exact .refl _
  | cons h1 _ ih =>
    rw [List.map_cons, List.flatMap_cons, List.flatMap_cons]
    refine List.Perm.append ?_ ih
    rw [← pathsOf_reads h1]
    exact wound_walked t order _

/-- The rings of region `n`, in the required orientation. -/
def walksOf {δ : Type} (t : Topology δ) (x : TopoRegion δ × Nat) : List (Nat × List ((Point × Point) × Sides)) :=
  (x.1.outerRings.map fun ring => (x.2, sidedSegs (wound t .clockwise ring))) ++
  (x.1.innerRings.map fun ring => (x.2, sidedSegs (wound t .counterClockwise ring)))

theorem walksOf_walked {δ : Type} {t : Topology δ} {k : KeptRegion δ} {r : TopoRegion δ} (n : Nat)
    (h1 : List.Forall₂ (ReadsAs t.edges) k.outer r.outerRings) (h2 : List.Forall₂ (ReadsAs t.edges) k.inner r.innerRings) :
    ((walksOf t (r, n)).flatMap fun w => w.2.map (·.1)).Perm k.walked := by
  unfold walksOf Spec.KeptRegion.walked
  rw [List.flatMap_append]
  exact (walked_rings .clockwise n h1).append (walked_rings .counterClockwise n h2)

/-- All of them. -/
theorem walks_walked {δ : Type} {m : Build} {rs : List (Region δ)} {t : Topology δ} (h : buildTopology m rs = .ok t) :
    ((walks t).flatMap fun w => w.2.map (·.1)).Perm ((keptRegions rs).flatMap (·.walked)) := by
  have hf := C07_round_trip m rs t h
  have key : ∀ (ks : List (KeptRegion δ)) (regs : List (TopoRegion δ)) (n : Nat),
      List.Forall₂ (fun (k : KeptRegion δ) (r : TopoRegion δ) =>
        r.data = k.data ∧ List.Forall₂ (ReadsAs t.edges) k.outer r.outerRings ∧
        List.Forall₂ (ReadsAs t.edges) k.inner r.innerRings) ks regs →
      (((regs.zipIdx n).flatMap (walksOf t)).flatMap fun w => w.2.map (·.1)).Perm (ks.flatMap (·.walked)) := by
    intro ks regs n hf
    induction hf generalizing n with
    | nil => exact .refl _
    | cons h1 _ ih =>
      rw [List.zipIdx_cons, List.flatMap_cons, List.flatMap_append, List.flatMap_cons]
      exact (walksOf_walked n h1.2.1 h1.2.2).append (ih (n + 1))
  exact key _ _ 0 hf

/-- Those of one region. -/
theorem walks_region {δ : Type} {m : Build} {rs : List (Region δ)} {t : Topology δ} (h : buildTopology m rs = .ok t) (n : Nat) :
    ((((walks t).filter (·.1 = n)).flatMap fun w => w.2.map (·.1)) = []) ∨ ∃ k ∈ keptRegions rs,
      (((walks t).filter (·.1 = n)).flatMap fun w => w.2.map (·.1)).Perm k.walked := by
  have hf := C07_round_trip m rs t h
  have none : ∀ (regs : List (TopoRegion δ)) (o : Nat), n < o →
      ((regs.zipIdx o).flatMap (walksOf t)).filter (·.1 = n) = [] := by
    intro regs o ho
    rw [List.filter_eq_nil_iff]
    intro w hw hn
    obtain ⟨⟨r, i⟩, hx, hw⟩ := List.mem_flatMap.mp hw
    have hi := (List.mem_zipIdx hx).1
    have : w.1 = i := by
      rcases List.mem_append.mp hw with hw | hw <;> obtain ⟨ring, _, rfl⟩ := List.mem_map.mp hw <;> rfl
    have : w.1 = n := by simpa using hn
    omega
  have key : ∀ (ks : List (KeptRegion δ)) (regs : List (TopoRegion δ)) (o : Nat),
      List.Forall₂ (fun (k : KeptRegion δ) (r : TopoRegion δ) =>
        r.data = k.data ∧ List.Forall₂ (ReadsAs t.edges) k.outer r.outerRings ∧
        List.Forall₂ (ReadsAs t.edges) k.inner r.innerRings) ks regs →
      (((((regs.zipIdx o).flatMap (walksOf t)).filter (·.1 = n)).flatMap fun w => w.2.map (·.1)) = []) ∨ ∃ k ∈ ks,
        ((((regs.zipIdx o).flatMap (walksOf t)).filter (·.1 = n)).flatMap fun w => w.2.map (·.1)).Perm k.walked := by
    intro ks regs o hf
    induction hf generalizing o with
    | nil => exact .inl rfl
    | @cons k r ks regs h1 _ ih =>
      rw [List.zipIdx_cons, List.flatMap_cons, List.filter_append]
      by_cases ho : o = n
      · refine .inr ⟨k, by simp, ?_⟩
        rw [none _ _ (by omega), List.append_nil, List.filter_eq_self.mpr]
        · exact walksOf_walked o h1.2.1 h1.2.2
        · intro w hw
          rcases List.mem_append.mp hw with hw | hw <;> obtain ⟨ring, _, rfl⟩ := List.mem_map.mp hw <;> simpa using ho
      · rw [show (walksOf t (r, o)).filter (·.1 = n) = [] from ?_, List.nil_append]
        · rcases ih (o + 1) with h | ⟨k, hk, h⟩
          · exact .inl h
          · exact .inr ⟨k, by simp [hk], h⟩
        · rw [List.filter_eq_nil_iff]
          intro w hw
          rcases List.mem_append.mp hw with hw | hw <;> obtain ⟨ring, _, rfl⟩ := List.mem_map.mp hw <;> simpa using ho
  exact key _ _ 0 hf

/-! ## Building -/

theorem windAs_either (order : WindingOrder) (paths : List (List Point)) (p q : Point) :
    (windAs order paths).countP (either p q) = (paths.flatMap segs).countP (either p q) := by
  unfold windAs
  split
  · rfl
  · rw [List.countP_map]
    congr 1
    funext s
    exact either_swap ..

theorem walked_either {δ : Type} (rs : List (Region δ)) (p q : Point) :
    ((keptRegions rs).flatMap (·.walked)).countP (either p q) = ((allPaths rs).flatMap segs).countP (either p q) := by
  have key : ∀ (order : WindingOrder) (ps : List (List (List Point))),
      (ps.flatMap (windAs order)).countP (either p q) = (partSegs ps).countP (either p q) := by
    intro order ps
    induction ps with
    | nil => rfl
    | cons e ps ih =>
      unfold partSegs at ih ⊢
      rw [List.flatMap_cons, List.flatMap_cons, List.countP_append, List.countP_append, ih, windAs_either]
  rw [allPaths_segs]
  generalize keptRegions rs = ks
  induction ks with
  | nil => rfl
  | cons k ks ih =>
    rw [List.flatMap_cons, List.flatMap_cons, List.countP_append, ih]
    unfold partSegs Spec.KeptRegion.rings Spec.KeptRegion.walked
    rw [List.flatMap_append, List.flatMap_append, List.countP_append, List.countP_append, List.countP_append, key, key]
    rfl

theorem Spec.WoundMap.woundIn {δ : Type} {rs : List (Region δ)} (h : WoundMap rs) :
    WoundIn ((keptRegions rs).map (·.walked)) rs := ⟨h, by rw [← List.flatMap_def]⟩

theorem countP_either_le {l : List (Point × Point)} (hn : l.Nodup) (p q : Point) : l.countP (either p q) ≤ 2 := by
  have h1 := List.nodup_iff_count_le_one.mp hn (p, q)
  have h2 := List.nodup_iff_count_le_one.mp hn (q, p)
  rw [List.count] at h1 h2
  have : l.countP (either p q) ≤ l.countP (· == (p, q)) + l.countP (· == (q, p)) := by
    clear hn h1 h2
    induction l with
    | nil => simp
    | cons s l ih =>
      rw [List.countP_cons, List.countP_cons, List.countP_cons]
      by_cases hs : either p q s = true
      · rcases (by simpa [either] using hs : s = (p, q) ∨ s = (q, p)) with rfl | rfl
        · simp only [hs, BEq.rfl, if_true]; omega
        · simp only [hs, BEq.rfl, if_true]; omega
      · simp only [hs, Bool.false_eq_true, if_false]; omega
  omega

/-- C124: if outer rings, walked clockwise, and inner rings, walked counter-clockwise, make up
parts that wind around each point at most once and whose borders do not run along
themselves, then a release build makes a topology of the regions; a debug build
makes the same or stops at an overflow. No two rings pass the same segment in
the same direction. -/
theorem C124_build {δ : Type} (parts : List (List (Point × Point))) (rs : List (Region δ)) (hd : WoundIn parts rs) :
    ∃ t, buildTopology .release rs = .ok t ∧
      (buildTopology .debug rs = .ok t ∨ buildTopology .debug rs = .error .overflow) ∧
      ((walks t).flatMap fun w => w.2.map (·.1)).Nodup := by
  obtain ⟨hw, hperm⟩ := hd
  have hn := WoundApart.nodup hw
  obtain ⟨t, ht, hdb⟩ := build_of_users (rs := rs) (users_of_counts (l := parts.flatten)
    (fun p q => by rw [← walked_either, hperm.countP_eq]) (by
      intro s hs
      obtain ⟨part, hpart, hs⟩ := List.mem_flatten.mp hs
      exact hw.moves part hpart s hs) fun p q _ => countP_either_le hn p q)
  exact ⟨t, ht, hdb, ((walks_walked ht).trans hperm).nodup_iff.mpr hn⟩

/-! ## Normalizing -/

theorem hmin_of_kept {δ : Type} {m : Build} {rs : List (Region δ)} {t : Topology δ} (h : buildTopology m rs = .ok t)
    (hmin : ∀ k ∈ keptRegions rs, ∀ paths ∈ k.rings, wrap64 (shoelaceEdges paths) ≠ -2 ^ 63) :
    ∀ ring ∈ allRings t, wrap64 (shoelaceEdges (pathsOf t ring)) ≠ -2 ^ 63 := by
  intro ring hring
  obtain ⟨r, hr, hring⟩ := List.mem_flatMap.mp hring
  obtain ⟨k, hk, _, h1, h2⟩ := forall₂_exists_left (C07_round_trip m rs t h) hr
  rcases List.mem_append.mp hring with hring | hring
  · obtain ⟨paths, hp, hread⟩ := forall₂_exists_left h1 hring
    rw [pathsOf_reads hread]
    exact hmin k hk paths (List.mem_append_left _ hp)
  · obtain ⟨paths, hp, hread⟩ := forall₂_exists_left h2 hring
    rw [pathsOf_reads hread]
    exact hmin k hk paths (List.mem_append_right _ hp)

/-- C124: if each region is such a part, rings are given as points and no two segments
of a region start in the same point, then the topology can be normalized. The
result follows the documented rules, has the same segments with the same regions
on their sides, each of them once, and does not change if normalized again. -/
theorem C124_normalize {δ : Type} (rs : List (Region δ)) (hd : WoundMap rs)
    (hp : ∀ r ∈ rs, ∀ ring ∈ r.outerRings ++ r.innerRings, ∃ ps, ring = .points ps)
    (hclosed : ∀ r ∈ rs, ∀ ring ∈ r.outerRings ++ r.innerRings, ringArea ring ≠ 0 → ClosedRing (ringPaths ring))
    (hmin : ∀ k ∈ keptRegions rs, ∀ paths ∈ k.rings, wrap64 (shoelaceEdges paths) ≠ -2 ^ 63)
    (hsimple : ∀ k ∈ keptRegions rs, (k.walked.map (·.1)).Nodup) :
    ∃ t t', buildTopology .release rs = .ok t ∧ normalize .release t = .ok t' ∧ Normal t' ∧
      (∀ de ∈ allDirectedEdges t, ∀ s ∈ segs (pathOf t de), ∃ de' ∈ allDirectedEdges t',
        s ∈ segs (pathOf t' de') ∨ s.swap ∈ segs (pathOf t' de')) ∧
      (∀ de ∈ allDirectedEdges t, ∀ de' ∈ allDirectedEdges t', ∀ s ∈ segs (pathOf t de),
        s ∈ segs (pathOf t' de') ∨ s.swap ∈ segs (pathOf t' de') → sides t' de'.edge = sides t de.edge) ∧
      (∀ d ∈ allDirectedEdges t', ∀ d' ∈ allDirectedEdges t', ∀ s ∈ segs (pathOf t' d),
        s ∈ segs (pathOf t' d') ∨ s.swap ∈ segs (pathOf t' d') → d.edge = d'.edge) ∧
      normalize .release t' = .ok t' := by
  obtain ⟨t, ht, _, hn⟩ := C124_build _ rs (WoundMap.woundIn hd)
  obtain ⟨t', h⟩ := C74_points .release rs t ht hp hclosed (hmin_of_kept ht hmin) ⟨hn, fun n => by
    have heq : (((walks t).filter (·.1 = n)).flatMap fun w => w.2.map (·.1.1)) =
        (((walks t).filter (·.1 = n)).flatMap fun w => w.2.map (·.1)).map (·.1) := by
      rw [List.map_flatMap]
      congr 1
      funext w
      rw [List.map_map]; rfl
    rw [heq]
    rcases walks_region ht n with h | ⟨k, hk, h⟩
    · rw [h]; simp
    · exact (h.map _).nodup_iff.mpr (hsimple k hk)⟩
  exact ⟨t, t', ht, h⟩

/-- C124: parts of a region may be neighbours. If regions have no inner rings, and the
boundary of no region has two segments that start in the same point, then the topology
can be normalized; segments between parts of the same region cancel. -/
theorem C124_merge {δ : Type} (parts : List (List (Point × Point))) (rs : List (Region δ)) (hd : WoundIn parts rs)
    (hp : ∀ r ∈ rs, ∀ ring ∈ r.outerRings ++ r.innerRings, ∃ ps, ring = .points ps)
    (hclosed : ∀ r ∈ rs, ∀ ring ∈ r.outerRings ++ r.innerRings, ringArea ring ≠ 0 → ClosedRing (ringPaths ring))
    (hout : ∀ k ∈ keptRegions rs, k.inner = []) :
    ∃ t, buildTopology .release rs = .ok t ∧
      (∀ r ∈ t.regions, ((selfSegs t .clockwise r.outerRings).map Prod.swap).Perm (selfSegs t .clockwise r.outerRings)) ∧
      (PassedOnce t → ∃ t', normalize .release t = .ok t') := by
  obtain ⟨t, ht, _, hn⟩ := C124_build _ rs hd
  obtain ⟨hw, _, ha⟩ := wellFormed_of_built ht hclosed
  have hm : MeetsAlike t := by
    have inner : ∀ i, ∀ a ∈ ringsUsing t i, a.inner = false := by
      intro i a ha
      unfold ringsUsing at ha
      obtain ⟨⟨r, n⟩, hr, ha⟩ := List.mem_flatMap.mp ha
      have hr : r ∈ t.regions := by
        obtain ⟨_, h2, h3⟩ := List.mem_zipIdx hr
        rw [h3]; exact List.getElem_mem _
      obtain ⟨k, hk, _, _, h2⟩ := forall₂_exists_left (C07_round_trip _ rs t ht) hr
      rw [hout k hk] at h2
      cases hi : r.innerRings with
      | nil =>
        simp only [hi, List.zipIdx_nil, List.flatMap_nil, List.append_nil] at ha
        obtain ⟨⟨ring, i⟩, _, ha⟩ := List.mem_flatMap.mp ha
        obtain ⟨_, _, rfl⟩ := List.mem_map.mp ha
        rfl
      | cons _ _ => rw [hi] at h2; cases h2
    intro i a ha b hb _
    rw [inner i a ha, inner i b hb]
  exact ⟨t, ht, fun r hr => ((C86_cancel t hw.pointers hn hm).2 r hr).1, fun h1 => C86_points _ rs t ht hp hclosed hn hm h1⟩

/-! ## Both builds -/

theorem shoelace_small {k : Nat} {l : List Point} (h : SegsOn k (segs l)) :
    (shoelace l).natAbs ≤ (segs l).length * 2 ^ (2 * k) := by
  induction l with
  | nil => simp [shoelace]
  | cons p l ih =>
    cases l with
    | nil => simp [shoelace]
    | cons q l =>
      have ih := ih fun s hs => h s (by rw [segs]; exact List.mem_cons_of_mem _ hs)
      obtain ⟨hp, hq⟩ := h (p, q) (by rw [segs]; exact List.mem_cons_self)
      have h1 : p.x.toNat * q.y.toNat < 2 ^ (2 * k) := product_small hp.1 hq.2
      have h2 : q.x.toNat * p.y.toNat < 2 ^ (2 * k) := product_small hq.1 hp.2
      have hc : cross p q = ((p.x.toNat * q.y.toNat : Nat) : Int) - ((q.x.toNat * p.y.toNat : Nat) : Int) := by
        simp [cross]
      rw [shoelace, segs, List.length_cons, Nat.add_mul, one_mul, hc]
      omega

theorem shoelaceEdges_small {k : Nat} {es : List (List Point)} (h : SegsOn k (es.flatMap segs)) :
    (shoelaceEdges es).natAbs ≤ (es.flatMap segs).length * 2 ^ (2 * k) := by
  induction es with
  | nil => simp [shoelaceEdges]
  | cons e es ih =>
    have ih := ih fun s hs => h s (by rw [List.flatMap_cons]; exact List.mem_append_right _ hs)
    have h1 := shoelace_small (k := k) (l := e) fun s hs => h s (by rw [List.flatMap_cons]; exact List.mem_append_left _ hs)
    unfold shoelaceEdges at ih ⊢
    rw [List.flatMap_cons, List.length_append, Nat.add_mul, List.map_cons, List.sum_cons]
    omega

/-- C124: if the coordinates have at most `k` bits and the number of segments times 2^2k
is below 2^63, then no area has to be looked at, and all of this holds for both builds. -/
theorem C124_small {δ : Type} (m : Build) (k : Nat) (hk : k ≤ 31) (rs : List (Region δ)) (hd : WoundMap rs)
    (hp : ∀ r ∈ rs, ∀ ring ∈ r.outerRings ++ r.innerRings, ∃ ps, ring = .points ps)
    (hclosed : ∀ r ∈ rs, ∀ ring ∈ r.outerRings ++ r.innerRings, ringArea ring ≠ 0 → ClosedRing (ringPaths ring))
    (hg : ∀ s ∈ givenSegs rs, OnGrid k s.1 ∧ OnGrid k s.2) (h : (givenSegs rs).length * 2 ^ (2 * k) < 2 ^ 63)
    (hsimple : ∀ k ∈ keptRegions rs, (k.walked.map (·.1)).Nodup) :
    ∃ t t', buildTopology m rs = .ok t ∧ normalize m t = .ok t' ∧ Normal t' ∧
      (∀ de ∈ allDirectedEdges t, ∀ s ∈ segs (pathOf t de), ∃ de' ∈ allDirectedEdges t',
        s ∈ segs (pathOf t' de') ∨ s.swap ∈ segs (pathOf t' de')) ∧
      (∀ de ∈ allDirectedEdges t, ∀ de' ∈ allDirectedEdges t', ∀ s ∈ segs (pathOf t de),
        s ∈ segs (pathOf t' de') ∨ s.swap ∈ segs (pathOf t' de') → sides t' de'.edge = sides t de.edge) ∧
      (∀ d ∈ allDirectedEdges t', ∀ d' ∈ allDirectedEdges t', ∀ s ∈ segs (pathOf t' d),
        s ∈ segs (pathOf t' d') ∨ s.swap ∈ segs (pathOf t' d') → d.edge = d'.edge) ∧
      normalize m t' = .ok t' := by
  obtain ⟨t0, ht0, _⟩ := C124_build _ rs (WoundMap.woundIn hd)
  have hmin : ∀ k ∈ keptRegions rs, ∀ paths ∈ k.rings, wrap64 (shoelaceEdges paths) ≠ -2 ^ 63 := by
    intro q hq paths hpaths
    obtain ⟨i, hi⟩ := List.mem_iff_getElem?.mp hq
    have hall := region_small (C122_build_grid k _ rs t0 ht0 hg)
      (lt_of_le_of_lt (Nat.mul_le_mul_right _ (C122_build_size _ rs t0 ht0)) h)
    obtain ⟨r, hr, hqr⟩ := forall₂_exists_right (topoRegionSegs_built ht0) hq
    have hs := hall r hr
    rw [hqr] at hs
    have hsub : List.Sublist (paths.flatMap segs) (partSegs q.rings) := by
      unfold partSegs
      obtain ⟨a, b, hab⟩ := List.append_of_mem hpaths
      rw [hab, List.flatMap_append, List.flatMap_cons]
      exact (List.sublist_append_left _ _).trans (List.sublist_append_right _ _)
    have := shoelaceEdges_small (k := k) (es := paths) fun s hs' => hs.1 s (hsub.subset hs')
    have h2 := lt_of_le_of_lt (Nat.mul_le_mul_right (2 ^ (2 * k)) hsub.length_le) hs.2
    rw [wrap64_of_inI64 (by unfold InI64; omega)]
    omega
  obtain ⟨t, t', h1, h2, hN, h3, h4, h5, h6⟩ := C124_normalize rs hd hp hclosed hmin hsimple
  cases m with
  | release => exact ⟨t, t', h1, h2, hN, h3, h4, h5, h6⟩
  | debug =>
    have hall := (C122_all k hk rs [.normalize, .normalize] hclosed hg (by simpa [clips] using h) (by simp)).1
    have h2' : applyAll .release t [.normalize, .normalize] = .ok t' := by
      show (normalize .release t >>= fun t' => normalize .release t' >>= fun t' => Except.ok t') = _
      rw [h2, ok_bind, h6, ok_bind]
    rw [h1, ok_bind, h2', bind_ok] at hall
    obtain ⟨u, hu, hall⟩ := hall
    have hall : (normalize .debug u >>= fun t' => normalize .debug t' >>= fun t' => Except.ok t') = .ok t' := hall
    rw [bind_ok] at hall
    obtain ⟨u', hu', hall⟩ := hall
    rw [bind_ok] at hall
    obtain ⟨u'', hu'', hall⟩ := hall
    have e1 : u = t := by
      rcases (StopsOrSame.bind (addRegions_checked _ _) fun _ => .refl _ :
          StopsOrSame (buildTopology .debug rs) (buildTopology .release rs)) with h | h
      · have : buildTopology .debug rs = .error .overflow := h
        rw [hu] at this; cases this
      · exact Except.ok.inj (hu.symm.trans (Eq.trans h h1))
    subst e1
    have e2 : u' = t' := by
      rcases normalize_checked u with h | h
      · rw [hu'] at h; cases h
      · exact Except.ok.inj (hu'.symm.trans (h.trans h2))
    subst e2
    have e3 : u'' = u' := by
      rcases normalize_checked u' with h | h
      · rw [hu''] at h; cases h
      · exact Except.ok.inj (hu''.symm.trans (h.trans h6))
    subst e3
    exact ⟨u, u'', hu, hu', hN, h3, h4, h5, hu''⟩

/-! ## Maps like that -/

theorem passing_level {x y : ℚ} {s : Point × Point} (h : s.1.y = s.2.y) : passing x y s = 0 := by
  unfold passing
  have : s.1.yi = s.2.yi := by simp [Point.yi, h]
  rw [this, if_neg fun h => by linarith [h.1.1, h.1.2]]
  rfl

theorem passing_forth {x y : ℚ} {s : Point × Point} (h : s.1.x = s.2.x) (hlt : s.1.y ≤ s.2.y) :
    passing x y s = if ((s.1.yi : ℚ) ≤ y ∧ y < s.2.yi) ∧ x < s.1.xi then 1 else 0 := by
  unfold passing
  have e : s.1.xi = s.2.xi := by simp [Point.xi, h]
  have hlt : s.1.yi ≤ s.2.yi := by simpa [Point.yi] using UInt32.le_iff_toNat_le.mp hlt
  have hlt : (s.1.yi : ℚ) ≤ s.2.yi := by exact_mod_cast hlt
  rw [← e, sub_self, mul_zero, zero_div, add_zero,
    if_neg (c := ((s.2.yi : ℚ) ≤ y ∧ y < s.1.yi) ∧ _) fun h => by linarith [h.1.1, h.1.2], sub_zero]

theorem passing_back {x y : ℚ} {s : Point × Point} (h : s.1.x = s.2.x) (hlt : s.2.y ≤ s.1.y) :
    passing x y s = if ((s.2.yi : ℚ) ≤ y ∧ y < s.1.yi) ∧ x < s.1.xi then -1 else 0 := by
  unfold passing
  have e : s.1.xi = s.2.xi := by simp [Point.xi, h]
  have hlt : s.2.yi ≤ s.1.yi := by simpa [Point.yi] using UInt32.le_iff_toNat_le.mp hlt
  have hlt : (s.2.yi : ℚ) ≤ s.1.yi := by exact_mod_cast hlt
  rw [← e, sub_self, mul_zero, zero_div, add_zero,
    if_neg (c := ((s.1.yi : ℚ) ≤ y ∧ y < s.2.yi) ∧ _) fun h => by linarith [h.1.1, h.1.2]]
  split <;> rfl

theorem balanced_of_perm {l : List (Point × Point)} (h : (l.map (·.1)).Perm (l.map (·.2))) : Balanced l := by
  intro p
  have := h.countP_eq (· = p)
  rw [List.countP_map, List.countP_map] at this
  exact this

/-- A rectangle, walked clockwise. -/
def rectangle (a b c d : UInt32) : List (Point × Point) :=
  [(⟨a, b⟩, ⟨c, b⟩), (⟨c, b⟩, ⟨c, d⟩), (⟨c, d⟩, ⟨a, d⟩), (⟨a, d⟩, ⟨a, b⟩)]

/-- It winds around its points once. -/
theorem winds_rectangle (a b c d : UInt32) (hac : a ≤ c) (hbd : b ≤ d) (x y : ℚ) :
    windsAround (rectangle a b c d) x y =
      if ((a.toNat : ℚ) ≤ x ∧ x < c.toNat) ∧ (b.toNat : ℚ) ≤ y ∧ y < d.toNat then 1 else 0 := by
  have h : (a.toNat : ℚ) ≤ c.toNat := by exact_mod_cast UInt32.le_iff_toNat_le.mp hac
  unfold rectangle windsAround
  simp only [List.map_cons, List.map_nil, List.sum_cons, List.sum_nil]
  rw [passing_level rfl, passing_forth rfl hbd, passing_level rfl, passing_back rfl hbd]
  simp only [Point.xi, Point.yi, Int.cast_natCast]
  split_ifs <;> first | rfl | (exfalso; grind)

theorem winds_append (l l' : List (Point × Point)) (x y : ℚ) :
    windsAround (l ++ l') x y = windsAround l x y + windsAround l' x y := by
  simp [windsAround]

/-- An example of each kind of segment. -/
theorem exPlain_winds (x y : ℚ) :
    windsAround (segs [⟨0, 0⟩, ⟨30, 0⟩, ⟨30, 30⟩, ⟨0, 30⟩, ⟨0, 0⟩] ++ segs [⟨10, 10⟩, ⟨10, 20⟩, ⟨20, 20⟩, ⟨20, 10⟩, ⟨10, 10⟩]) x y =
      (if ((0 : ℚ) ≤ x ∧ x < 30) ∧ (0 : ℚ) ≤ y ∧ y < 30 then 1 else 0) -
      (if ((10 : ℚ) ≤ x ∧ x < 20) ∧ (10 : ℚ) ≤ y ∧ y < 20 then 1 else 0) := by
  have h1 := winds_rectangle 0 0 30 30 (by decide) (by decide) x y
  simp only [show (0 : UInt32).toNat = 0 from rfl, show (30 : UInt32).toNat = 30 from rfl, Nat.cast_zero, Nat.cast_ofNat] at h1
  rw [winds_append, ← h1, sub_eq_add_neg]
  congr 1
  unfold windsAround
  simp only [segs, List.map_cons, List.map_nil, List.sum_cons, List.sum_nil]
  rw [passing_forth rfl (by decide), passing_level rfl, passing_back rfl (by decide), passing_level rfl]
  simp only [Point.xi, Point.yi, Int.cast_natCast]
  norm_num
  split_ifs <;> first | rfl | (exfalso; grind)

theorem exPlain_winds_second (x y : ℚ) :
    windsAround (segs [⟨10, 10⟩, ⟨20, 10⟩, ⟨20, 20⟩, ⟨10, 20⟩, ⟨10, 10⟩]) x y =
      if ((10 : ℚ) ≤ x ∧ x < 20) ∧ (10 : ℚ) ≤ y ∧ y < 20 then 1 else 0 :=
  winds_rectangle 10 10 20 20 (by decide) (by decide) x y

theorem exPlain_winds_third (x y : ℚ) :
    windsAround (segs [⟨30, 0⟩, ⟨40, 0⟩, ⟨40, 30⟩, ⟨30, 30⟩, ⟨30, 15⟩, ⟨30, 0⟩]) x y =
      if ((30 : ℚ) ≤ x ∧ x < 40) ∧ (0 : ℚ) ≤ y ∧ y < 30 then 1 else 0 := by
  unfold windsAround
  simp only [segs, List.map_cons, List.map_nil, List.sum_cons, List.sum_nil]
  rw [passing_level rfl, passing_forth rfl (by decide), passing_level rfl, passing_back rfl (by decide), passing_back rfl (by decide)]
  simp only [Point.xi, Point.yi, Int.cast_natCast]
  norm_num
  split_ifs <;> first | rfl | (exfalso; grind)

theorem exPlainMap_wound : WoundMap exPlainMap := by
  have h0 : (keptRegions exPlainMap).map (·.walked) =
      [segs [⟨0, 0⟩, ⟨30, 0⟩, ⟨30, 30⟩, ⟨0, 30⟩, ⟨0, 0⟩] ++ segs [⟨10, 10⟩, ⟨10, 20⟩, ⟨20, 20⟩, ⟨20, 10⟩, ⟨10, 10⟩],
       segs [⟨10, 10⟩, ⟨20, 10⟩, ⟨20, 20⟩, ⟨10, 20⟩, ⟨10, 10⟩],
       segs [⟨30, 0⟩, ⟨40, 0⟩, ⟨40, 30⟩, ⟨30, 30⟩, ⟨30, 15⟩, ⟨30, 0⟩]] := by decide +kernel
  unfold WoundMap
  rw [h0]
  refine ⟨fun part hpart => balanced_of_perm ?_, ?_, fun x y => ?_, by decide +kernel, by decide +kernel⟩
  · revert part; decide +kernel
  · intro part hpart x y
    simp only [List.mem_cons, List.not_mem_nil, or_false] at hpart
    rcases hpart with rfl | rfl | rfl
    · rw [exPlain_winds]; split_ifs <;> first | omega | (exfalso; grind)
    · rw [exPlain_winds_second]; split_ifs <;> omega
    · rw [exPlain_winds_third]; split_ifs <;> omega
  · have h := exPlain_winds x y
    rw [winds_append] at h
    simp only [List.flatten_cons, List.flatten_nil, List.append_nil, winds_append]
    rw [h, exPlain_winds_second, exPlain_winds_third]
    split_ifs <;> first | omega | (exfalso; grind)

-- non-vacuity: it meets all conditions
example : WoundMap exPlainMap ∧
    (∀ r ∈ exPlainMap, ∀ ring ∈ r.outerRings ++ r.innerRings, ∃ ps, ring = .points ps) ∧
    (∀ r ∈ exPlainMap, ∀ ring ∈ r.outerRings ++ r.innerRings, ringArea ring ≠ 0 → ClosedRing (ringPaths ring)) ∧
    (∀ k ∈ keptRegions exPlainMap, ∀ paths ∈ k.rings, wrap64 (shoelaceEdges paths) ≠ -2 ^ 63) ∧
    (∀ s ∈ givenSegs exPlainMap, OnGrid 6 s.1 ∧ OnGrid 6 s.2) ∧ (givenSegs exPlainMap).length * 2 ^ (2 * 6) < 2 ^ 63 ∧
    (∀ k ∈ keptRegions exPlainMap, (k.walked.map (·.1)).Nodup) := by
  refine ⟨exPlainMap_wound, ?_, by decide +kernel, by decide +kernel, by decide +kernel, by decide +kernel, by decide +kernel⟩
  intro r hr ring hring
  simp only [exPlainMap, List.mem_cons, List.not_mem_nil, or_false] at hr
  rcases hr with rfl | rfl | rfl <;> simp at hring
  · rcases hring with rfl | rfl <;> exact ⟨_, rfl⟩
  · subst hring; exact ⟨_, rfl⟩
  · subst hring; exact ⟨_, rfl⟩

/-- The topology of two squares side by side. -/
def exSeamTopo : Topology String := (buildTopology .release exSeam).toOption.getD ⟨[], []⟩

-- non-vacuity: the two squares of a region are two parts; their common side vanishes
example : WoundIn [rectangle 10 10 20 20, rectangle 20 10 30 20] exSeam ∧
    (∀ r ∈ exSeam, ∀ ring ∈ r.outerRings ++ r.innerRings, ∃ ps, ring = .points ps) ∧
    (∀ r ∈ exSeam, ∀ ring ∈ r.outerRings ++ r.innerRings, ringArea ring ≠ 0 → ClosedRing (ringPaths ring)) ∧
    (∀ k ∈ keptRegions exSeam, k.inner = []) ∧ buildTopology .release exSeam = .ok exSeamTopo ∧ PassedOnce exSeamTopo ∧
    (exSeamTopo.regions.map fun r => (selfSegs exSeamTopo .clockwise r.outerRings).length) = [2] := by
  refine ⟨⟨⟨fun part hpart => balanced_of_perm ?_, ?_, fun x y => ?_, by decide +kernel, by decide +kernel⟩, by decide +kernel⟩, ?_,
    by decide +kernel, by decide +kernel, by decide +kernel, by decide +kernel, by decide +kernel⟩
  · revert part; decide +kernel
  · intro part hpart x y
    simp only [List.mem_cons, List.not_mem_nil, or_false] at hpart
    rcases hpart with rfl | rfl
    · rw [winds_rectangle _ _ _ _ (by decide) (by decide)]; split_ifs <;> omega
    · rw [winds_rectangle _ _ _ _ (by decide) (by decide)]; split_ifs <;> omega
  · simp only [List.flatten_cons, List.flatten_nil, List.append_nil]
    rw [winds_append, winds_rectangle _ _ _ _ (by decide) (by decide), winds_rectangle _ _ _ _ (by decide) (by decide)]
    split_ifs <;> first | omega | (exfalso; grind)
  · intro r hr ring hring
    simp only [exSeam, List.mem_cons, List.not_mem_nil, or_false] at hr
    subst hr
    simp at hring
    rcases hring with rfl | rfl <;> exact ⟨_, rfl⟩

/-! ## None of the conditions can be dropped -/

/-- A large and a small square that are drawn in one go, and a square beside the
small one. -/
def exCrossed : List (Region String) :=
  [⟨"A", [.points [⟨0, 0⟩, ⟨20, 0⟩, ⟨20, 20⟩, ⟨20, 30⟩, ⟨30, 30⟩, ⟨30, 20⟩, ⟨20, 20⟩, ⟨0, 20⟩, ⟨0, 0⟩]], []⟩,
   ⟨"B", [.points [⟨30, 20⟩, ⟨40, 20⟩, ⟨40, 30⟩, ⟨30, 30⟩, ⟨30, 20⟩]], []⟩]

theorem exCrossed_winds (x y : ℚ) :
    windsAround (segs [⟨0, 0⟩, ⟨20, 0⟩, ⟨20, 20⟩, ⟨20, 30⟩, ⟨30, 30⟩, ⟨30, 20⟩, ⟨20, 20⟩, ⟨0, 20⟩, ⟨0, 0⟩]) x y =
      (if ((0 : ℚ) ≤ x ∧ x < 20) ∧ (0 : ℚ) ≤ y ∧ y < 20 then 1 else 0) -
      (if ((20 : ℚ) ≤ x ∧ x < 30) ∧ (20 : ℚ) ≤ y ∧ y < 30 then 1 else 0) := by
  unfold windsAround
  simp only [segs, List.map_cons, List.map_nil, List.sum_cons, List.sum_nil]
  rw [passing_level rfl, passing_forth rfl (by decide), passing_forth rfl (by decide), passing_level rfl,
    passing_back rfl (by decide), passing_level rfl, passing_level rfl, passing_back rfl (by decide)]
  simp only [Point.xi, Point.yi, Int.cast_natCast]
  norm_num
  split_ifs <;> first | rfl | (exfalso; grind)

/-- C124: no part may wind around a point the other way. -/
theorem C124_around_matters : ∃ rs : List (Region String), ∃ parts, parts = (keptRegions rs).map (·.walked) ∧
    (∀ part ∈ parts, Balanced part) ∧ (∀ x y, windsAround parts.flatten x y ≤ 1) ∧
    (∀ part ∈ parts, part.Pairwise fun s s' => ¬ RunsAlong s s') ∧ (∀ part ∈ parts, ∀ s ∈ part, s.1 ≠ s.2) ∧
    ∃ t, (∀ m, buildTopology m rs = .ok t) ∧ ¬ ((walks t).flatMap fun w => w.2.map (·.1)).Nodup := by
  have h0 : (keptRegions exCrossed).map (·.walked) =
      [segs [⟨0, 0⟩, ⟨20, 0⟩, ⟨20, 20⟩, ⟨20, 30⟩, ⟨30, 30⟩, ⟨30, 20⟩, ⟨20, 20⟩, ⟨0, 20⟩, ⟨0, 0⟩], rectangle 30 20 40 30] := by
    decide +kernel
  refine ⟨exCrossed, _, h0.symm, fun part hpart => balanced_of_perm ?_, fun x y => ?_, by decide +kernel, by decide +kernel,
    (buildTopology .release exCrossed).toOption.getD ⟨[], []⟩, fun m => by cases m <;> decide +kernel, by decide +kernel⟩
  · revert part; decide +kernel
  · simp only [List.flatten_cons, List.flatten_nil, List.append_nil]
    rw [winds_append, exCrossed_winds, winds_rectangle _ _ _ _ (by decide) (by decide)]
    split_ifs <;> first | omega | (exfalso; grind)

/-- The same square twice. -/
def exTwoStacked : List (Region String) :=
  [⟨"A", [.points [⟨10, 10⟩, ⟨20, 10⟩, ⟨20, 20⟩, ⟨10, 20⟩, ⟨10, 10⟩]], []⟩,
   ⟨"B", [.points [⟨10, 10⟩, ⟨20, 10⟩, ⟨20, 20⟩, ⟨10, 20⟩, ⟨10, 10⟩]], []⟩]

/-- C124: nor may two parts wind around the same point. -/
theorem C124_apart_matters : ∃ rs : List (Region String), ∃ parts, parts = (keptRegions rs).map (·.walked) ∧
    (∀ part ∈ parts, Balanced part) ∧ (∀ part ∈ parts, ∀ x y, 0 ≤ windsAround part x y) ∧
    (∀ part ∈ parts, part.Pairwise fun s s' => ¬ RunsAlong s s') ∧ (∀ part ∈ parts, ∀ s ∈ part, s.1 ≠ s.2) ∧
    ∃ t, (∀ m, buildTopology m rs = .ok t) ∧ ¬ ((walks t).flatMap fun w => w.2.map (·.1)).Nodup := by
  have h0 : (keptRegions exTwoStacked).map (·.walked) = [rectangle 10 10 20 20, rectangle 10 10 20 20] := by decide +kernel
  refine ⟨exTwoStacked, _, h0.symm, fun part hpart => balanced_of_perm ?_, fun part hpart x y => ?_, by decide +kernel,
    by decide +kernel, (buildTopology .release exTwoStacked).toOption.getD ⟨[], []⟩, fun m => by cases m <;> decide +kernel,
    by decide +kernel⟩
  · revert part; decide +kernel
  · simp only [List.mem_cons, List.not_mem_nil, or_false, or_self] at hpart
    rw [hpart, winds_rectangle _ _ _ _ (by decide) (by decide)]
    split_ifs <;> omega

/-- A square with a line sticking out of it, drawn back and forth, and a square
beside it. -/
def exWhisker : List (Region String) :=
  [⟨"A", [.points [⟨0, 0⟩, ⟨10, 0⟩, ⟨20, 0⟩, ⟨10, 0⟩, ⟨10, 10⟩, ⟨0, 10⟩, ⟨0, 0⟩]], []⟩,
   ⟨"B", [.points [⟨10, 0⟩, ⟨20, 0⟩, ⟨20, 10⟩, ⟨10, 10⟩, ⟨10, 0⟩]], []⟩]

/-- C124: nor may a border run along itself. -/
theorem C124_once_matters : ∃ rs : List (Region String), ∃ parts, parts = (keptRegions rs).map (·.walked) ∧
    (∀ part ∈ parts, Balanced part) ∧ (∀ part ∈ parts, ∀ x y, 0 ≤ windsAround part x y) ∧
    (∀ x y, windsAround parts.flatten x y ≤ 1) ∧ (∀ part ∈ parts, ∀ s ∈ part, s.1 ≠ s.2) ∧
    ∀ m, buildTopology m rs = .error .assert := by
  have h0 : (keptRegions exWhisker).map (·.walked) =
      [segs [⟨0, 0⟩, ⟨10, 0⟩, ⟨20, 0⟩, ⟨10, 0⟩, ⟨10, 10⟩, ⟨0, 10⟩, ⟨0, 0⟩], rectangle 10 0 20 10] := by decide +kernel
  have h1 : ∀ x y, windsAround (segs [⟨0, 0⟩, ⟨10, 0⟩, ⟨20, 0⟩, ⟨10, 0⟩, ⟨10, 10⟩, ⟨0, 10⟩, ⟨0, 0⟩]) x y =
      if ((0 : ℚ) ≤ x ∧ x < 10) ∧ (0 : ℚ) ≤ y ∧ y < 10 then 1 else 0 := by
    intro x y
    unfold windsAround
    simp only [segs, List.map_cons, List.map_nil, List.sum_cons, List.sum_nil]
    rw [passing_level rfl, passing_level rfl, passing_level rfl, passing_forth rfl (by decide), passing_level rfl,
      passing_back rfl (by decide)]
    simp only [Point.xi, Point.yi, Int.cast_natCast]
    norm_num
    split_ifs <;> first | rfl | (exfalso; grind)
  refine ⟨exWhisker, _, h0.symm, fun part hpart => balanced_of_perm ?_, fun part hpart x y => ?_, fun x y => ?_, by decide +kernel,
    fun m => by cases m <;> decide +kernel⟩
  · revert part; decide +kernel
  · simp only [List.mem_cons, List.not_mem_nil, or_false] at hpart
    rcases hpart with rfl | rfl
    · rw [h1]; split_ifs <;> omega
    · rw [winds_rectangle _ _ _ _ (by decide) (by decide)]; split_ifs <;> omega
  · simp only [List.flatten_cons, List.flatten_nil, List.append_nil]
    rw [winds_append, h1, winds_rectangle _ _ _ _ (by decide) (by decide)]
    split_ifs <;> first | omega | (exfalso; grind)

/-- C124: rings must be closed. -/
theorem C124_closed_matters : ∃ rs : List (Region String), ∃ parts, parts = (keptRegions rs).map (·.walked) ∧
    (∀ part ∈ parts, ∀ x y, 0 ≤ windsAround part x y) ∧ (∀ x y, windsAround parts.flatten x y ≤ 1) ∧
    (∀ part ∈ parts, part.Pairwise fun s s' => ¬ RunsAlong s s') ∧ (∀ part ∈ parts, ∀ s ∈ part, s.1 ≠ s.2) ∧
    ∀ m, buildTopology m rs = .error .assert := by
  have h0 : (keptRegions exOpen).map (·.walked) = [[(⟨20, 10⟩, ⟨10, 10⟩)], [(⟨20, 10⟩, ⟨10, 10⟩)], [(⟨20, 10⟩, ⟨10, 10⟩)]] := by
    decide +kernel
  have h1 : ∀ x y, windsAround [(⟨20, 10⟩, ⟨10, 10⟩)] x y = 0 := by
    intro x y
    unfold windsAround
    simp only [List.map_cons, List.map_nil, List.sum_cons, List.sum_nil]
    rw [passing_level rfl]
    rfl
  refine ⟨exOpen, _, h0.symm, fun part hpart x y => ?_, fun x y => ?_, by decide +kernel, by decide +kernel,
    fun m => by cases m <;> decide +kernel⟩
  · simp only [List.mem_cons, List.not_mem_nil, or_false, or_self] at hpart
    rw [hpart, h1]
  · simp only [List.flatten_cons, List.flatten_nil, List.append_nil]
    rw [winds_append, winds_append, h1]
    decide

/-- Three squares that meet in a point, and stay there. -/
def exLingering : List (Region String) :=
  [⟨"A", [.edges [[⟨10, 10⟩, ⟨10, 10⟩, ⟨10, 10⟩], [⟨10, 10⟩, ⟨20, 10⟩, ⟨20, 20⟩, ⟨10, 20⟩, ⟨10, 10⟩]]], []⟩,
   ⟨"B", [.edges [[⟨10, 10⟩, ⟨10, 10⟩, ⟨10, 10⟩], [⟨10, 10⟩, ⟨10, 0⟩, ⟨20, 0⟩, ⟨20, 10⟩, ⟨10, 10⟩]]], []⟩,
   ⟨"C", [.edges [[⟨10, 10⟩, ⟨10, 10⟩, ⟨10, 10⟩], [⟨10, 10⟩, ⟨0, 10⟩, ⟨0, 0⟩, ⟨10, 0⟩, ⟨10, 10⟩]]], []⟩]

/-- C124: segments must lead somewhere. -/
theorem C124_moves_matters : ∃ rs : List (Region String), ∃ parts, parts = (keptRegions rs).map (·.walked) ∧
    (∀ part ∈ parts, Balanced part) ∧ (∀ part ∈ parts, ∀ x y, 0 ≤ windsAround part x y) ∧
    (∀ x y, windsAround parts.flatten x y ≤ 1) ∧ (∀ part ∈ parts, part.Pairwise fun s s' => ¬ RunsAlong s s') ∧
    ∀ m, buildTopology m rs = .error .assert := by
  have h0 : (keptRegions exLingering).map (·.walked) =
      [segs [⟨10, 10⟩, ⟨10, 10⟩, ⟨10, 10⟩] ++ segs [⟨10, 10⟩, ⟨20, 10⟩, ⟨20, 20⟩, ⟨10, 20⟩, ⟨10, 10⟩],
       segs [⟨10, 10⟩, ⟨10, 10⟩, ⟨10, 10⟩] ++ segs [⟨10, 10⟩, ⟨10, 0⟩, ⟨20, 0⟩, ⟨20, 10⟩, ⟨10, 10⟩],
       segs [⟨10, 10⟩, ⟨10, 10⟩, ⟨10, 10⟩] ++ segs [⟨10, 10⟩, ⟨0, 10⟩, ⟨0, 0⟩, ⟨10, 0⟩, ⟨10, 10⟩]] := by decide +kernel
  have hz : ∀ x y, windsAround (segs [⟨10, 10⟩, ⟨10, 10⟩, ⟨10, 10⟩]) x y = 0 := by
    intro x y
    unfold windsAround
    simp only [segs, List.map_cons, List.map_nil, List.sum_cons, List.sum_nil]
    rw [passing_level rfl]
    rfl
  have h1 : ∀ x y, windsAround (segs [⟨10, 10⟩, ⟨10, 0⟩, ⟨20, 0⟩, ⟨20, 10⟩, ⟨10, 10⟩]) x y =
      if ((10 : ℚ) ≤ x ∧ x < 20) ∧ (0 : ℚ) ≤ y ∧ y < 10 then 1 else 0 := by
    intro x y
    unfold windsAround
    simp only [segs, List.map_cons, List.map_nil, List.sum_cons, List.sum_nil]
    rw [passing_back rfl (by decide), passing_level rfl, passing_forth rfl (by decide), passing_level rfl]
    simp only [Point.xi, Point.yi, Int.cast_natCast]
    norm_num
    split_ifs <;> first | rfl | (exfalso; grind)
  have h2 : ∀ x y, windsAround (segs [⟨10, 10⟩, ⟨0, 10⟩, ⟨0, 0⟩, ⟨10, 0⟩, ⟨10, 10⟩]) x y =
      if ((0 : ℚ) ≤ x ∧ x < 10) ∧ (0 : ℚ) ≤ y ∧ y < 10 then 1 else 0 := by
    intro x y
    unfold windsAround
    simp only [segs, List.map_cons, List.map_nil, List.sum_cons, List.sum_nil]
    rw [passing_level rfl, passing_back rfl (by decide), passing_level rfl, passing_forth rfl (by decide)]
    simp only [Point.xi, Point.yi, Int.cast_natCast]
    norm_num
    split_ifs <;> first | rfl | (exfalso; grind)
  refine ⟨exLingering, _, h0.symm, fun part hpart => balanced_of_perm ?_, fun part hpart x y => ?_, fun x y => ?_, by decide +kernel,
    fun m => by cases m <;> decide +kernel⟩
  · revert part; decide +kernel
  · simp only [List.mem_cons, List.not_mem_nil, or_false] at hpart
    rcases hpart with rfl | rfl | rfl <;> rw [winds_append, hz]
    · rw [exPlain_winds_second]; split_ifs <;> omega
    · rw [h1]; split_ifs <;> omega
    · rw [h2]; split_ifs <;> omega
  · simp only [List.flatten_cons, List.flatten_nil, List.append_nil, winds_append]
    rw [hz, exPlain_winds_second, h1, h2]
    split_ifs <;> first | omega | (exfalso; grind)

end TopoGeo
