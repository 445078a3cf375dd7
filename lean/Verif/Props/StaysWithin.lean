import Verif.Spec.StaysWithin
import Verif.Props.SimpleArea
import Verif.Props.NoOverflow
/-!
# No operation enlarges a region

C134: a rectangle that holds the corners of a region holds those of what building,
normalizing, clipping and simplifying make of it, so that nothing is covered outside of
it; and what has been clipped stays inside of the mask whatever is done next. This holds
even where products wrap.
-/

namespace TopoGeo

open Spec

/-- A set of points that holds the whole rectangle between any two of them. -/
def Boxy (P : Point → Prop) : Prop :=
  ∀ p q r : Point, P p → P q → min p.xi q.xi ≤ r.xi → r.xi ≤ max p.xi q.xi → min p.yi q.yi ≤ r.yi → r.yi ≤ max p.yi q.yi → P r

/-- All ends of the segments are in a set. -/
def EndsIn (P : Point → Prop) (l : List (Point × Point)) : Prop := ∀ s ∈ l, P s.1 ∧ P s.2

theorem boxy_within (a b : Point) : Boxy fun p => a.xi ≤ p.xi ∧ p.xi ≤ b.xi ∧ a.yi ≤ p.yi ∧ p.yi ≤ b.yi := by
  intro p q r hp hq h1 h2 h3 h4
  omega

theorem boxy_inside (mask : ClipMask) : Boxy fun p => 0 ≤ depth mask p := by
  intro p q r hp hq h1 h2 h3 h4
  cases mask <;> simp only [depth, Point.xi, Point.yi] at * <;> omega

theorem intersect_boxy {P : Point → Prop} (hP : Boxy P) {m : Build} {mask : ClipMask} {p q r : Point} (hc : Crosses mask p q)
    (hp : P p) (hq : P q) (h : mask.intersect m p q = .ok r) : P r := by
  have key : tested mask r = bound mask ∧ min (other mask p) (other mask q) ≤ other mask r ∧
      other mask r ≤ max (other mask p) (other mask q) := by
    cases m with
    | release =>
      obtain ⟨r', h1, h2⟩ := C25_release_between hc
      rw [h] at h1
      obtain rfl := Except.ok.inj h1
      exact h2
    | debug =>
      by_cases hin : InI64 (crossProduct mask p q)
      · obtain ⟨r', h1, h2, h3, h4, -⟩ := C25_intersect .debug hc hin
        rw [h] at h1
        obtain rfl := Except.ok.inj h1
        exact ⟨h2, h3, h4⟩
      · rw [(C25_debug hc).mpr hin] at h
        cases h
  obtain ⟨h2, h3, h4⟩ := key
  have hb := crosses_between hc
  refine hP p q r hp hq ?_ ?_ ?_ ?_ <;>
    cases mask <;> simp only [tested, other, bound, Point.xi, Point.yi] at * <;> omega

theorem clipRest_boxy {P : Point → Prop} (hP : Boxy P) {m : Build} {mask : ClipMask} {prev : Point} {last : Option Point}
    {rest out : List Point} (hp : P prev) (hr : ∀ q ∈ rest, P q) (h : clipRest m mask prev last rest = .ok out) : ∀ p ∈ out, P p := by
  induction rest generalizing prev last out with
  | nil =>
    obtain rfl := Except.ok.inj h
    simp
  | cons q rest ih =>
    have hq := hr q (by simp)
    have ih : ∀ {last out}, clipRest m mask q last rest = .ok out → ∀ p ∈ out, P p := fun h => ih hq (fun x hx => hr x (by simp [hx])) h
    simp only [clipRest] at h
    split at h
    · split at h
      · obtain ⟨l, h1, h⟩ := bind_ok.mp h
        obtain rfl := Except.ok.inj h
        simpa using ⟨hq, ih h1⟩
      · exact ih h
    · split at h
      · split at h
        · obtain ⟨x, hx, h⟩ := bind_ok.mp h
          obtain ⟨l, h1, h⟩ := bind_ok.mp h
          obtain rfl := Except.ok.inj h
          simpa using ⟨intersect_boxy hP (Or.inl ⟨by assumption, by assumption⟩) hp hq hx, hq, ih h1⟩
        · split at h
          · obtain ⟨l, h1, h⟩ := bind_ok.mp h
            obtain rfl := Except.ok.inj h
            simpa using ⟨hp, hq, ih h1⟩
          · obtain ⟨l, h1, h⟩ := bind_ok.mp h
            obtain rfl := Except.ok.inj h
            simpa using ⟨hq, ih h1⟩
      · split at h
        · obtain ⟨x, hx, h⟩ := bind_ok.mp h
          obtain ⟨l, h1, h⟩ := bind_ok.mp h
          obtain rfl := Except.ok.inj h
          simpa using ⟨intersect_boxy hP (mask := mask) (Or.inr ⟨by assumption, by omega⟩) hp hq hx, ih h1⟩
        · exact ih h

theorem points_of_segs {P : Point → Prop} {l : List Point} (h2 : 2 ≤ l.length) (h : EndsIn P (segs l)) : ∀ p ∈ l, P p := by
  induction l with
  | nil => simp
  | cons a l ih =>
    cases l with
    | nil => simp at h2
    | cons b l =>
      have hab := h (a, b) (by simp [segs])
      intro p hp
      rcases List.mem_cons.mp hp with rfl | hp
      · exact hab.1
      · cases l with
        | nil => simp at hp; subst hp; exact hab.2
        | cons c l => exact ih (by simp) (fun s hs => h s (by simp [segs] at hs ⊢; tauto)) p hp

theorem EndsIn.path {P : Point → Prop} {l : List Point} (h : ∀ p ∈ l, P p) : EndsIn P (segs l) :=
  fun _ hs => ⟨h _ (ends_mem_segs hs).1, h _ (ends_mem_segs hs).2⟩

/-- What clipping leaves of an edge is where the edge is. -/
theorem clipEdge_boxy {P : Point → Prop} (hP : Boxy P) {m : Build} {mask : ClipMask} {pts out : List Point}
    (hr : EndsIn P (segs pts)) (h : clipEdge m mask pts = .ok out) : ∀ p ∈ out, P p := by
  match pts, hr with
  | [], _ => obtain rfl := Except.ok.inj h; simp
  | [_], _ => obtain rfl := Except.ok.inj h; simp
  | p :: q :: rest, hr =>
    have hall := points_of_segs (by simp) hr
    have hp := hall p (by simp)
    rw [clipEdge_eq] at h
    split at h
    · obtain ⟨l, h1, h⟩ := bind_ok.mp h
      obtain rfl := Except.ok.inj h
      have := clipRest_boxy hP hp (fun x hx => hall x (List.mem_cons_of_mem _ hx)) h1
      simpa using ⟨hp, this⟩
    · exact clipRest_boxy hP hp (fun x hx => hall x (List.mem_cons_of_mem _ hx)) h

/-- The pieces of a clipped ring are where what is left of its edges is. -/
theorem clippedPieces_points {P : Point → Prop} {cs : List (List Point)} {ring : TopoRing}
    (h : ∀ de ∈ ring.directedEdges, ∀ c, cs[de.edge]? = some c → ∀ p ∈ c, P p) :
    ∀ pc ∈ clippedPieces cs ring, ∀ x ∈ pc.path cs, P x := by
  have hend : ∀ e ∈ ring.directedEdges.filterMap (visiblePiece cs), ∀ x ∈ e.path cs, P x := by
    intro e he x hx
    obtain ⟨de, hde, hv⟩ := List.mem_filterMap.mp he
    obtain ⟨rfl, c, hc, _⟩ := visiblePiece_some hv
    refine h de hde c hc x ?_
    unfold Piece.path PieceEdge.points at hx
    simp only [hc, Option.getD_some] at hx
    cases hd : de.direction <;> rw [hd] at hx <;> simpa [facing] using hx
  have hplug : ∀ {o1 o2 : Option Point}, (∀ x, o1 = some x → P x) → (∀ x, o2 = some x → P x) →
      ∀ pc ∈ gap o1 o2, ∀ x ∈ pc.path cs, P x := by
    intro o1 o2 h1 h2 pc hpc x hx
    obtain ⟨a, b, ha, hb, _, rfl⟩ := mem_gap hpc
    have := h1 a ha
    have := h2 b hb
    unfold plugPiece at hx
    split at hx <;> simp [Piece.path, PieceEdge.points, facing] at hx <;> rcases hx with rfl | rfl <;> assumption
  have hbridge : ∀ (ps : List Spec.Piece) (prev : Option Point), (∀ e ∈ ps, ∀ x ∈ e.path cs, P x) →
      (∀ x, prev = some x → P x) → ∀ pc ∈ bridge cs prev ps, ∀ x ∈ pc.path cs, P x := by
    intro ps
    induction ps with
    | nil => intro _ _ _ pc hpc; simp [bridge] at hpc
    | cons e ps ih =>
      intro prev h1 h3 pc hpc
      simp only [bridge, List.mem_append, List.mem_cons] at hpc
      rcases hpc with hpc | rfl | hpc
      · exact hplug h3 (fun x hx => h1 e (by simp) x (List.mem_of_mem_head? (by rw [hx]; rfl))) pc hpc
      · exact h1 pc (by simp)
      · exact ih _ (fun e he => h1 e (by simp [he])) (fun x hx => h1 e (by simp) x (List.mem_of_getLast? hx)) pc hpc
  intro pc hpc
  unfold clippedPieces closeUp at hpc
  rw [List.mem_append] at hpc
  rcases hpc with hpc | hpc
  · exact hbridge _ _ hend (fun x hx => by cases hx) pc hpc
  · refine hplug ?_ ?_ pc hpc
    · intro x hx
      unfold endOf at hx
      obtain ⟨e, he, hx⟩ := Option.bind_eq_some_iff.mp hx
      exact hend e (List.mem_of_getLast? he) x (List.mem_of_getLast? hx)
    · intro x hx
      unfold startOf at hx
      obtain ⟨e, he, hx⟩ := Option.bind_eq_some_iff.mp hx
      exact hend e (List.mem_of_mem_head? (by rw [he]; rfl)) x (List.mem_of_mem_head? (by rw [hx]; rfl))

theorem edge_ends {δ : Type} {P : Point → Prop} {t : Topology δ} {ring : TopoRing} (h : EndsIn P (topoRingSegs t ring))
    {de : DirectedEdge} (hde : de ∈ ring.directedEdges) {e : TopoEdge} (he : t.edges[de.edge]? = some e) : EndsIn P (segs e.points) := by
  intro s hs
  have hin : ∀ s ∈ segs (pathOf t de), P s.1 ∧ P s.2 := fun s hs =>
    h s (List.mem_flatMap.mpr ⟨_, List.mem_map_of_mem hde, hs⟩)
  rw [pathOf_facing, he] at hin
  simp only [Option.map_some, Option.getD_some] at hin
  cases hd : de.direction with
  | forward => rw [hd] at hin; exact hin s hs
  | backward =>
    rw [hd] at hin
    have := hin s.swap (by
      simp only [facing, segs_reverse, List.mem_reverse, List.mem_map]
      exact ⟨s, hs, rfl⟩)
    exact ⟨this.2, this.1⟩

theorem remains_ends {P : Point → Prop} {cs : List (List Point)} {ring : TopoRing}
    (h : ∀ de ∈ ring.directedEdges, ∀ c, cs[de.edge]? = some c → ∀ p ∈ c, P p) : EndsIn P (remains cs ring) := by
  intro s hs
  obtain ⟨path, hp, hs⟩ := List.mem_flatMap.mp hs
  obtain ⟨pc, hpc, rfl⟩ := List.mem_map.mp hp
  exact EndsIn.path (clippedPieces_points h pc hpc) s hs

theorem clip_step_boxy {δ : Type} {P : Point → Prop} (hP : Boxy P) {m : Build} {mask : ClipMask} {t : Topology δ}
    {cs : List (List Point)} (hcs : ClippedBy m mask t.edges cs) {ring : TopoRing} (h : EndsIn P (topoRingSegs t ring)) :
    EndsIn P (remains cs ring) := by
  refine remains_ends fun de hde c hc => ?_
  obtain ⟨hlt, rfl⟩ := List.getElem?_eq_some_iff.mp hc
  have hlt' : de.edge < t.edges.length := by rw [hcs.length_eq]; exact hlt
  have he := hcs.get hlt' hlt
  exact clipEdge_boxy hP (edge_ends h hde (List.getElem?_eq_getElem hlt')) he

theorem EndsIn.flatMap {α : Type} {P : Point → Prop} {l : List α} {f : α → List (Point × Point)} :
    EndsIn P (l.flatMap f) ↔ ∀ a ∈ l, EndsIn P (f a) := by
  unfold EndsIn
  simp only [List.mem_flatMap, forall_exists_index, and_imp]
  exact ⟨fun h a ha s hs => h s a ha hs, fun h s a ha hs => h a ha s hs⟩

theorem region_ends {δ : Type} {P : Point → Prop} {t : Topology δ} {r : TopoRegion δ} :
    EndsIn P (topoRegionSegs t r) ↔ ∀ ring ∈ r.outerRings ++ r.innerRings, EndsIn P (topoRingSegs t ring) := EndsIn.flatMap

/-- The segments of the paths of a ring are among those of the ring. -/
theorem ringPaths_segs_mem {r : Ring} {e : List Point} (he : e ∈ ringPaths r) {s : Point × Point} (hs : s ∈ segs e) : s ∈ ringSegs r := by
  obtain ⟨hm, -⟩ := List.mem_filter.mp he
  rw [← getEdges_segs]
  refine List.mem_flatMap.mpr ⟨e, ?_, hs⟩
  cases r with
  | edges es => exact hm
  | points ps =>
    simp only at hm
    simp only [Ring.getEdges, tupleWindows_segs]
    obtain ⟨a, b, rfl⟩ : ∃ a b, e = [a, b] := by
      clear he hs
      induction ps with
      | nil => cases hm
      | cons x l ih =>
        cases l with
        | nil => cases hm
        | cons y l =>
          rcases List.mem_cons.mp hm with rfl | hm
          · exact ⟨x, y, rfl⟩
          · exact ih hm
    exact List.mem_map.mpr ⟨(a, b), (mem_segs_iff_pairs ps).mpr hm, rfl⟩

theorem built_ends {δ : Type} {t : Topology δ} {P : Point → Prop} {rings : List Ring} {rings' : List TopoRing}
    (h : List.Forall₂ (ReadsAs t.edges) ((keptRings rings).map ringPaths) rings') (hr : ∀ ring ∈ rings, EndsIn P (ringSegs ring)) :
    ∀ ring' ∈ rings', EndsIn P (topoRingSegs t ring') := by
  intro ring' hring'
  obtain ⟨paths, hp, hreads⟩ := forall₂_exists_left h hring'
  obtain ⟨ring, hring, rfl⟩ := List.mem_map.mp hp
  intro s hs
  unfold topoRingSegs at hs
  rw [pathsOf_reads hreads] at hs
  obtain ⟨e, he, hs⟩ := List.mem_flatMap.mp hs
  exact hr ring (List.mem_filter.mp hring).1 s (ringPaths_segs_mem he hs)

theorem build_step_ends {δ : Type} {t : Topology δ} {r : Region δ} {r' : TopoRegion δ} (h : BuildStep t r (some r')) :
    r'.data = r.data ∧ ∀ P : Point → Prop, EndsIn P (Spec.regionSegs r) → EndsIn P (topoRegionSegs t r') := by
  rcases h with ⟨-, c, hc, hd, ho, hi⟩ | ⟨-, hn⟩
  · obtain rfl := Option.some.inj hc
    refine ⟨hd, fun P hP => region_ends.mpr ?_⟩
    have hP := EndsIn.flatMap.mp hP
    intro ring hring
    rcases List.mem_append.mp hring with hring | hring
    · exact built_ends ho (fun x hx => hP x (List.mem_append_left _ hx)) ring hring
    · exact built_ends hi (fun x hx => hP x (List.mem_append_right _ hx)) ring hring
  · cases hn

/-- What normalizing makes of regions is where they are. -/
theorem normalize_ends {δ : Type} {m : Build} {t t' : Topology δ} (hb : BackPointersExact t) (hc : RingsClosed t)
    (h : normalize m t = .ok t') :
    ∃ L, Survivors t t' L ∧ List.Forall₂ (fun r o => ∀ r' ∈ o, ∀ P : Point → Prop,
      EndsIn P (topoRegionSegs t r) → EndsIn P (topoRegionSegs t' r')) t.regions L := by
  obtain ⟨rs, h1, h2⟩ := C15_conserved m t t' hb hc h
  obtain ⟨L, hL, hB⟩ := build_steps h1
  have key : List.Forall₂ (fun (r : TopoRegion δ) o => ∀ r' ∈ o, r'.data = r.data ∧ ∀ P : Point → Prop,
      EndsIn P (topoRegionSegs t r) → EndsIn P (topoRegionSegs t' r')) t.regions L := by
    have hQ : List.Forall₂ (fun (r : TopoRegion δ) (r0 : Region δ) => r0.data = r.data ∧ ∀ P : Point → Prop,
        EndsIn P (topoRegionSegs t r) → EndsIn P (Spec.regionSegs r0)) t.regions rs := by
      refine h2.imp ?_
      rintro r r0 ⟨hd, outer, inner, ho, hi, po, pi⟩
      refine ⟨hd, fun P hP => ?_⟩
      unfold Spec.regionSegs
      rw [List.flatMap_append, ho, hi, flatMap_ringSegs, flatMap_ringSegs]
      have hP := EndsIn.flatMap.mp hP
      have one : ∀ order rings, (∀ ring ∈ rings, EndsIn P (topoRingSegs t ring)) → EndsIn P ((boundary t order rings).map (·.1)) := by
        intro order rings hr s hs
        have hr := EndsIn.flatMap.mpr hr
        rcases (boundary_segs t order rings).1 s hs with h | h
        · exact hr s h
        · exact ⟨(hr _ h).2, (hr _ h).1⟩
      intro s hs
      rcases List.mem_append.mp hs with hs | hs
      · exact one .clockwise r.outerRings (fun x hx => hP x (List.mem_append_left _ hx)) s ((po.map _).subset hs)
      · exact one .counterClockwise r.innerRings (fun x hx => hP x (List.mem_append_right _ hx)) s ((pi.map _).subset hs)
    clear h1 h2 hL h hb hc
    generalize t.regions = ts at *
    induction hQ generalizing L with
    | nil => cases hB; exact .nil
    | cons q _ ih =>
      cases hB with
      | cons b hB =>
        refine .cons ?_ (ih _ hB)
        intro r' hr'
        rw [Option.mem_def.mp hr'] at b
        obtain ⟨b1, b2⟩ := build_step_ends b
        exact ⟨b1.trans q.1, fun P hP => b2 P (q.2 P hP)⟩
  exact ⟨L, ⟨hL, key.imp fun r o h r' hr' => (h r' hr').1⟩, key.imp fun r o h r' hr' => (h r' hr').2⟩

theorem simplify_ends {δ : Type} {m : Build} {t t' : Topology δ} {s : Nat} (hs : s ≤ u64Max) (h : simplify m t s = .ok t')
    (r : TopoRegion δ) (P : Point → Prop) (hP : EndsIn P (topoRegionSegs t r)) : EndsIn P (topoRegionSegs t' r) := by
  obtain ⟨-, h2⟩ := C45_frame m t t' s h
  refine region_ends.mpr fun ring hring => ?_
  have hP := region_ends.mp hP ring hring
  intro x hx
  obtain ⟨path, hp, hx⟩ := List.mem_flatMap.mp hx
  obtain ⟨de, hde, rfl⟩ := List.mem_map.mp hp
  rw [pathOf_facing] at hx
  cases he' : t'.edges[de.edge]? with
  | none =>
    rw [he'] at hx
    cases hd : de.direction <;> rw [hd] at hx <;> simp [facing, segs] at hx
  | some e' =>
    obtain ⟨hlt', rfl⟩ := List.getElem?_eq_some_iff.mp he'
    have hlt : de.edge < t.edges.length := by rw [h2.length_eq]; exact hlt'
    have hst := h2.get hlt hlt'
    simp only [List.get_eq_getElem] at hst
    have hends := edge_ends hP hde (List.getElem?_eq_getElem hlt)
    obtain ⟨hsub, -⟩ := C38_subsequence m _ _ s hs hst.1
    have hpts : ∀ p ∈ t'.edges[de.edge].points, P p := by
      intro p hp
      refine points_of_segs ?_ hends p (hsub.subset hp)
      by_contra hlen
      have hn : ¬ Simplifiable t.edges[de.edge].points := fun hs => hlen hs.1
      have := hst.1
      rw [simplifyEdge_not hn] at this
      simp at this
    rw [he'] at hx
    simp only [Option.map_some, Option.getD_some] at hx
    refine EndsIn.path (fun p hp => hpts p ?_) x hx
    cases hd : de.direction <;> rw [hd] at hp <;> simpa [facing] using hp

theorem remains_inside {m : Build} {mask : ClipMask} {edges : List TopoEdge} {cs : List (List Point)}
    (hcs : ClippedBy m mask edges cs) (ring : TopoRing) : EndsInside mask (remains cs ring) := by
  refine remains_ends (P := fun p => 0 ≤ depth mask p) fun de _ c hc => ?_
  obtain ⟨e, _, he⟩ := forall₂_exists_left hcs (List.mem_of_getElem? hc)
  exact C26_stays_inside he

theorem noLarger_of {l l' : List (Point × Point)} (h : ∀ P : Point → Prop, Boxy P → EndsIn P l → EndsIn P l') : NoLarger l l' :=
  fun a b => h _ (boxy_within a b)

/-! ## C134 -/

/-- C134: a rectangle that holds the corners of a region holds those of what building a
topology makes of it. -/
theorem C134_build {δ : Type} (m : Build) (rs : List (Region δ)) (t : Topology δ) (h : buildTopology m rs = .ok t) :
    ∃ L : List (Option (TopoRegion δ)), L.reduceOption = t.regions ∧ List.Forall₂ (fun r o => ∀ r' ∈ o, r'.data = r.data ∧
      NoLarger (Spec.regionSegs r) (topoRegionSegs t r')) rs L := by
  obtain ⟨L, h1, h2⟩ := build_steps h
  refine ⟨L, h1, h2.imp fun r o hb r' hr' => ?_⟩
  rw [Option.mem_def.mp hr'] at hb
  obtain ⟨hd, hP⟩ := build_step_ends hb
  exact ⟨hd, noLarger_of fun P _ => hP P⟩

/-- C134: the same for normalizing. -/
theorem C134_normalize {δ : Type} (m : Build) (t t' : Topology δ) (hb : BackPointersExact t) (hc : RingsClosed t)
    (h : normalize m t = .ok t') :
    ∃ L, Survivors t t' L ∧ List.Forall₂ (fun r o => ∀ r' ∈ o, NoLarger (topoRegionSegs t r) (topoRegionSegs t' r')) t.regions L := by
  obtain ⟨L, h1, h2⟩ := normalize_ends hb hc h
  exact ⟨L, h1, h2.imp fun r o h r' hr' => noLarger_of fun P _ => h r' hr' P⟩

/-- C134: the same for clipping, ring by ring, for all topologies and masks, even where a
product wraps. -/
theorem C134_clip_rings {δ : Type} (m : Build) (mask : ClipMask) (t t' : Topology δ) (h : clipTopology m t mask = .ok t') :
    ∃ L, Survivors t t' L ∧ List.Forall₂ (fun r o => ∀ r' ∈ o,
      (∃ sub, sub.Sublist r.outerRings ∧ List.Forall₂ (fun ring ring' =>
        NoLarger (topoRingSegs t ring) (topoRingSegs t' ring') ∧ EndsInside mask (topoRingSegs t' ring')) sub r'.outerRings) ∧
      ∃ sub, sub.Sublist r.innerRings ∧ List.Forall₂ (fun ring ring' =>
        NoLarger (topoRingSegs t ring) (topoRingSegs t' ring') ∧ EndsInside mask (topoRingSegs t' ring')) sub r'.innerRings)
      t.regions L := by
  obtain ⟨cs, L, hcs, hL, hs⟩ := clip_steps h
  refine ⟨L, hL, hs.imp ?_⟩
  intro r o ho r' hr'
  have key : ∀ ring l', l' = remains cs ring → NoLarger (topoRingSegs t ring) l' ∧ EndsInside mask l' := by
    rintro ring _ rfl
    exact ⟨fun a b hab => clip_step_boxy (boxy_within a b) hcs hab, remains_inside hcs ring⟩
  rcases ho with ⟨_, c, rfl, _, h3, h4⟩ | ⟨_, rfl⟩
  · obtain rfl := Option.some.inj hr'
    exact ⟨⟨_, List.filter_sublist, (kept_segs h3).imp fun ring ring' e => key ring _ e⟩,
      ⟨_, List.filter_sublist, (kept_segs h4).imp fun ring ring' e => key ring _ e⟩⟩
  · cases hr'

theorem clip_ends {δ : Type} {m : Build} {mask : ClipMask} {t t' : Topology δ} (h : clipTopology m t mask = .ok t') :
    ∃ L, Survivors t t' L ∧ List.Forall₂ (fun r o => ∀ r' ∈ o, (∀ P : Point → Prop, Boxy P →
      EndsIn P (topoRegionSegs t r) → EndsIn P (topoRegionSegs t' r')) ∧ EndsInside mask (topoRegionSegs t' r')) t.regions L := by
  obtain ⟨cs, L, hcs, hL, hs⟩ := clip_steps h
  refine ⟨L, hL, hs.imp ?_⟩
  intro r o ho r' hr'
  rcases ho with ⟨_, c, rfl, _, h3, h4⟩ | ⟨_, rfl⟩
  · obtain rfl := Option.some.inj hr'
    have key : ∀ ring' ∈ c.outerRings ++ c.innerRings, ∃ ring ∈ r.outerRings ++ r.innerRings,
        topoRingSegs t' ring' = remains cs ring := by
      intro ring' hring'
      rcases List.mem_append.mp hring' with hr | hr
      · obtain ⟨ring, hring, e⟩ := forall₂_exists_left (kept_segs h3) hr
        exact ⟨ring, List.mem_append_left _ (List.mem_of_mem_filter hring), e⟩
      · obtain ⟨ring, hring, e⟩ := forall₂_exists_left (kept_segs h4) hr
        exact ⟨ring, List.mem_append_right _ (List.mem_of_mem_filter hring), e⟩
    refine ⟨fun P hB hP => region_ends.mpr fun ring' hring' => ?_,
      region_ends (P := fun p => 0 ≤ depth mask p) |>.mpr fun ring' hring' => ?_⟩
    · obtain ⟨ring, hring, e⟩ := key ring' hring'
      rw [e]
      exact clip_step_boxy hB hcs (region_ends.mp hP ring hring)
    · obtain ⟨ring, hring, e⟩ := key ring' hring'
      rw [e]
      exact remains_inside hcs ring
  · cases hr'

/-- C134: the same for clipping, region by region. -/
theorem C134_clip {δ : Type} (m : Build) (mask : ClipMask) (t t' : Topology δ) (h : clipTopology m t mask = .ok t') :
    ∃ L, Survivors t t' L ∧ List.Forall₂ (fun r o => ∀ r' ∈ o,
      NoLarger (topoRegionSegs t r) (topoRegionSegs t' r') ∧ EndsInside mask (topoRegionSegs t' r')) t.regions L := by
  obtain ⟨L, h1, h2⟩ := clip_ends h
  exact ⟨L, h1, h2.imp fun r o h r' hr' => ⟨fun a b => (h r' hr').1 _ (boxy_within a b), (h r' hr').2⟩⟩

/-- C134: the same for simplifying. -/
theorem C134_simplify {δ : Type} (m : Build) (t t' : Topology δ) (s : Nat) (hs : s ≤ u64Max) (h : simplify m t s = .ok t') :
    t'.regions = t.regions ∧ ∀ r : TopoRegion δ, NoLarger (topoRegionSegs t r) (topoRegionSegs t' r) :=
  ⟨(C45_frame m t t' s h).1, fun r => noLarger_of fun P _ => simplify_ends hs h r P⟩

theorem operation_ends {δ : Type} {m : Build} {t t' : Topology δ} {op : Operation} (hw : WellFormed t)
    (hs : ∀ s, op = .simplify s → s ≤ u64Max) (h : op.apply m t = .ok t') :
    ∃ L, Survivors t t' L ∧ List.Forall₂ (fun r o => ∀ r' ∈ o, (∀ P : Point → Prop, Boxy P →
      EndsIn P (topoRegionSegs t r) → EndsIn P (topoRegionSegs t' r')) ∧
        ∀ mask, op = .clip mask → EndsInside mask (topoRegionSegs t' r')) t.regions L := by
  cases op with
  | normalize =>
    obtain ⟨L, h1, h2⟩ := normalize_ends hw.pointers hw.closed h
    exact ⟨L, h1, h2.imp fun r o h r' hr' => ⟨fun P _ => h r' hr' P, fun _ h => nomatch h⟩⟩
  | clip mask =>
    obtain ⟨L, h1, h2⟩ := clip_ends h
    exact ⟨L, h1, h2.imp fun r o h r' hr' => ⟨(h r' hr').1, fun _ e => by cases e; exact (h r' hr').2⟩⟩
  | simplify s =>
    have hf := (C45_frame m t t' s h).1
    refine ⟨t.regions.map some, ⟨by rw [reduceOption_map_some, hf], ?_⟩, ?_⟩ <;>
      rw [List.forall₂_map_right_iff, List.forall₂_same] <;> intro r _ r' hr' <;> obtain rfl := Option.some.inj hr'
    · rfl
    · exact ⟨fun P _ => simplify_ends (hs s rfl) h r P, fun _ h => nomatch h⟩

theorem made_apply {δ : Type} {m : Build} {t t' : Topology δ} {op : Operation} (ht : Spec.Made m t)
    (hs : ∀ s, op = .simplify s → s ≤ u64Max) (h : op.apply m t = .ok t') : Spec.Made m t' := by
  cases op with
  | normalize => exact .normalized t t' ht h
  | clip mask => exact .clipped t t' mask ht h
  | simplify s => exact .simplified t t' s ht (hs s rfl) h

theorem all_ends {δ : Type} {m : Build} {t t' : Topology δ} {ops : List Operation} (ht : Spec.Made m t)
    (hs : ∀ s, .simplify s ∈ ops → s ≤ u64Max) (h : applyAll m t ops = .ok t') :
    ∃ L, Survivors t t' L ∧ List.Forall₂ (fun r o => ∀ r' ∈ o, (∀ P : Point → Prop, Boxy P →
      EndsIn P (topoRegionSegs t r) → EndsIn P (topoRegionSegs t' r')) ∧
        ∀ mask, .clip mask ∈ ops → EndsInside mask (topoRegionSegs t' r')) t.regions L := by
  induction ops generalizing t with
  | nil =>
    obtain rfl := Except.ok.inj h
    refine ⟨t.regions.map some, ⟨reduceOption_map_some _, ?_⟩, ?_⟩ <;>
      rw [List.forall₂_map_right_iff, List.forall₂_same] <;> intro r _ r' hr' <;> obtain rfl := Option.some.inj hr'
    · rfl
    · exact ⟨fun _ _ h => h, fun _ h => by cases h⟩
  | cons op ops ih =>
    obtain ⟨t1, h1, h2⟩ := bind_ok.mp h
    have hop : ∀ s, op = .simplify s → s ≤ u64Max := fun s e => hs s (e ▸ List.mem_cons_self)
    obtain ⟨L1, s1, f1⟩ := operation_ends (C82_well_formed m t ht) hop h1
    obtain ⟨L2, s2, f2⟩ := ih (made_apply ht hop h1) (fun s hm => hs s (List.mem_cons_of_mem _ hm)) h2
    obtain ⟨L, hL, hf⟩ := survivors_comp s1 s2 f1 f2
    refine ⟨L, hL, hf.imp ?_⟩
    rintro r o (⟨_, rfl⟩ | ⟨r1, g1, g2⟩) r' hr'
    · cases hr'
    · have k1 := g1 r1 rfl
      have k2 := g2 r' hr'
      refine ⟨fun P hB hP => k2.1 P hB (k1.1 P hB hP), fun mask hm => ?_⟩
      rcases List.mem_cons.mp hm with e | hm
      · exact k2.1 _ (boxy_inside mask) (k1.2 mask e.symm)
      · exact k2.2 mask hm

/-- C134: what a region covers is within each rectangle that holds its corners, except for
the right and the lower side. -/
theorem C134_covers {δ : Type} (t : Topology δ) (hc : RingsClosed t) (r : TopoRegion δ) (hr : r ∈ t.regions) (a b : Point)
    (h : EndsWithin (topoRegionSegs t r) a b) : enclosed (topoRegionSegs t r) ⊆ cornerBox a b := by
  have hcirc : Circular (topoRegionSegs t r) :=
    Circular.flatMap fun ring h => circular_closed (closed_pathsOf hc (List.mem_flatMap.mpr ⟨r, hr, h⟩))
  intro p hp
  by_contra hn
  have h0 := winding_off_box hcirc h hn
  have hp : Odd (winding (topoRegionSegs t r) p.1 p.2) := hp
  rw [h0] at hp
  exact absurd hp (by decide)

/-- C134: whatever is done to a map in whatever order, a rectangle that holds the corners of
a region holds those of what becomes of it, and whatever that covers; and all of them are
inside of, or on, each mask that the map has been clipped with. -/
theorem C134_all {δ : Type} (m : Build) (t t' : Topology δ) (ops : List Operation) (ht : Spec.Made m t)
    (hs : ∀ s, .simplify s ∈ ops → s ≤ u64Max) (h : applyAll m t ops = .ok t') :
    ∃ L, Survivors t t' L ∧ List.Forall₂ (fun r o => ∀ r' ∈ o, NoLarger (topoRegionSegs t r) (topoRegionSegs t' r') ∧
      (∀ a b, EndsWithin (topoRegionSegs t r) a b → enclosed (topoRegionSegs t' r') ⊆ cornerBox a b) ∧
      ∀ mask, .clip mask ∈ ops → EndsInside mask (topoRegionSegs t' r')) t.regions L := by
  obtain ⟨L, hL, hf⟩ := all_ends ht hs h
  have ht' : Spec.Made m t' := by
    clear hL hf
    induction ops generalizing t with
    | nil => obtain rfl := Except.ok.inj h; exact ht
    | cons op ops ih =>
      obtain ⟨t1, h1, h2⟩ := bind_ok.mp h
      exact ih t1 (made_apply ht (fun s e => hs s (e ▸ List.mem_cons_self)) h1) (fun s hm => hs s (List.mem_cons_of_mem _ hm)) h2
  refine ⟨L, hL, forall₂_imp_mems hf fun r hr o ho h r' hr' => ?_⟩
  have hmem : r' ∈ t'.regions := by
    rw [← hL.1, List.reduceOption_mem_iff, ← Option.mem_def.mp hr']
    exact ho
  have hno : NoLarger (topoRegionSegs t r) (topoRegionSegs t' r') := fun a b => (h r' hr').1 _ (boxy_within a b)
  exact ⟨hno, fun a b hab => C134_covers t' (C82_well_formed m t' ht').closed r' hmem a b (hno a b hab), (h r' hr').2⟩

/-- C134: from the given regions to the end. -/
theorem C134_route {δ : Type} (m : Build) (rs : List (Region δ)) (t' : Topology δ) (ops : List Operation)
    (hc : ∀ r ∈ rs, ∀ ring ∈ r.outerRings ++ r.innerRings, ringArea ring ≠ 0 → ClosedRing (ringPaths ring))
    (hs : ∀ s, .simplify s ∈ ops → s ≤ u64Max) (h : (buildTopology m rs >>= fun t => applyAll m t ops) = .ok t') :
    ∃ L : List (Option (TopoRegion δ)), L.reduceOption = t'.regions ∧ List.Forall₂ (fun r o => ∀ r' ∈ o, r'.data = r.data ∧
      NoLarger (Spec.regionSegs r) (topoRegionSegs t' r') ∧
      (∀ a b, EndsWithin (Spec.regionSegs r) a b → enclosed (topoRegionSegs t' r') ⊆ cornerBox a b) ∧
      ∀ mask, .clip mask ∈ ops → EndsInside mask (topoRegionSegs t' r')) rs L := by
  obtain ⟨t, h1, h2⟩ := bind_ok.mp h
  obtain ⟨L1, e1, f1⟩ := C134_build m rs t h1
  obtain ⟨L2, ⟨e2, d2⟩, f2⟩ := C134_all m t t' ops (.built rs t h1 hc) hs h2
  have f3 := forall₂_conj d2 f2
  rw [← e1] at f3
  obtain ⟨L, e, hf⟩ := steps_comp f1 f3
  refine ⟨L, e.trans e2, hf.imp ?_⟩
  rintro r o (⟨_, rfl⟩ | ⟨r1, g1, g2, g3⟩) r' hr'
  · cases hr'
  · obtain ⟨k1, k2⟩ := g1 r1 rfl
    obtain ⟨k3, k4, k5⟩ := g3 r' hr'
    exact ⟨(g2 r' hr').trans k1, fun a b hab => k3 a b (k2 a b hab), fun a b hab => k4 a b (k2 a b hab), k5⟩

/-! ## The hypotheses can be met -/

-- the corners of a map that is clipped twice and simplified are where they were, and inside of both masks
example : (∀ r ∈ exSmall, ∀ ring ∈ r.outerRings ++ r.innerRings, ringArea ring ≠ 0 → ClosedRing (ringPaths ring)) ∧
    (exSmall.map fun r => decide (EndsWithin (Spec.regionSegs r) ⟨10, 10⟩ ⟨110, 50⟩)) = [true, true] ∧
    ((buildTopology .debug exSmall >>= fun t =>
      applyAll .debug t [.normalize, .clip (.maxX 105), .normalize, .clip (.minX 20), .simplify 150000]).toOption.map fun t =>
        t.regions.map fun r => (decide (EndsWithin (topoRegionSegs t r) ⟨60, 10⟩ ⟨105, 50⟩),
          decide (EndsInside (.maxX 105) (topoRegionSegs t r) ∧ EndsInside (.minX 20) (topoRegionSegs t r)))) =
      some [(true, true), (true, true)] := by decide +kernel

/-- A triangle over a third of the grid. -/
def exWideTriangle : Region Unit := ⟨(), [.points [⟨0, 0⟩, ⟨3100000000, 4294967295⟩, ⟨0, 4294967295⟩, ⟨0, 0⟩]], []⟩

-- even where a product wraps, so that the crossing is in the wrong place (at 2362277323 instead of 4017872630), it is
-- within the rectangle
example : EndsWithin (Spec.regionSegs exWideTriangle) ⟨0, 0⟩ ⟨3100000000, 4294967295⟩ ∧
    ((buildTopology .release [exWideTriangle] >>= fun t => clipTopology .release t (.minX 2900000000)).toOption.map fun t =>
      (t.edges.map (·.points), t.regions.map fun r => decide (EndsWithin (topoRegionSegs t r) ⟨0, 0⟩ ⟨3100000000, 4294967295⟩))) =
      some ([[⟨2900000000, 2362277323⟩, ⟨3100000000, 4294967295⟩], [⟨2900000000, 4294967295⟩, ⟨3100000000, 4294967295⟩],
        [⟨2900000000, 2362277323⟩, ⟨2900000000, 4294967295⟩]], [true]) := by decide +kernel

end TopoGeo
