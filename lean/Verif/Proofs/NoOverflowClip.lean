import Verif.Proofs.NoOverflow
import Verif.Props.Clip
import Verif.Props.ClipTopology
import Verif.Props.Sizes
/-!
# Clipping maps that are too small for an overflow
-/

namespace TopoGeo
open Spec

theorem crossProduct_small {k : Nat} (hk : 2 ^ (2 * k) < 2 ^ 63) {mask : ClipMask} {p q : Point} (hc : Crosses mask p q)
    (hp : OnGrid k p) (hq : OnGrid k q) : InI64 (crossProduct mask p q) := by
  have hb := crosses_between hc
  have ht : ∀ x, OnGrid k x → 0 ≤ tested mask x ∧ tested mask x < 2 ^ k ∧ 0 ≤ other mask x ∧ other mask x < 2 ^ k := by
    intro x hx
    obtain ⟨h1, h2⟩ := hx
    have h1' : (x.x.toNat : Int) < 2 ^ k := by exact_mod_cast h1
    have h2' : (x.y.toNat : Int) < 2 ^ k := by exact_mod_cast h2
    cases mask <;> simp only [tested, other, Point.xi, Point.yi] <;> omega
  have h1 := ht p hp
  have h2 := ht q hq
  have e1 : (bound mask - tested mask p).natAbs < 2 ^ k := by
    have : ((bound mask - tested mask p).natAbs : Int) < 2 ^ k := by omega
    exact_mod_cast this
  have e2 : (other mask q - other mask p).natAbs < 2 ^ k := by
    have : ((other mask q - other mask p).natAbs : Int) < 2 ^ k := by omega
    exact_mod_cast this
  have e3 := product_small e1 e2
  rw [← Int.natAbs_mul] at e3
  unfold InI64 crossProduct
  omega

theorem intersect_small (m : Build) {k : Nat} (hk : 2 ^ (2 * k) < 2 ^ 63) {mask : ClipMask} {p q : Point} (hc : Crosses mask p q)
    (hp : OnGrid k p) (hq : OnGrid k q) : ∃ r, mask.intersect m p q = .ok r ∧ OnGrid k r := by
  obtain ⟨r, h1, h2, h3, h4, -⟩ := C25_intersect m hc (crossProduct_small hk hc hp hq)
  refine ⟨r, h1, ?_⟩
  have hb := crosses_between hc
  unfold OnGrid at *
  cases mask <;> simp only [tested, other, bound, Point.xi, Point.yi] at h2 h3 h4 hb <;> constructor <;> omega

theorem clipRest_small (m : Build) {k : Nat} (hk : 2 ^ (2 * k) < 2 ^ 63) {mask : ClipMask} {prev : Point} {last : Option Point}
    {rest : List Point} (hp : OnGrid k prev) (hr : ∀ q ∈ rest, OnGrid k q) :
    ∃ l, clipRest m mask prev last rest = .ok l ∧ ∀ p ∈ l, OnGrid k p := by
  induction rest generalizing prev last with
  | nil => exact ⟨[], rfl, by simp⟩
  | cons q rest ih =>
    have hq := hr q (by simp)
    have ih : ∀ last, ∃ l, clipRest m mask q last rest = .ok l ∧ ∀ p ∈ l, OnGrid k p := fun last => ih hq fun x hx => hr x (by simp [hx])
    simp only [clipRest]
    split
    · split
      · obtain ⟨l, h1, h2⟩ := ih (some q)
        exact ⟨q :: l, by rw [h1]; rfl, by simpa using ⟨hq, h2⟩⟩
      · exact ih _
    · split
      · split
        · obtain ⟨x, hx, hx'⟩ := intersect_small m hk (Or.inl ⟨by assumption, by assumption⟩) hp hq
          obtain ⟨l, h1, h2⟩ := ih (some q)
          exact ⟨x :: q :: l, by rw [hx, ok_bind, h1]; rfl, by simpa using ⟨hx', hq, h2⟩⟩
        · obtain ⟨l, h1, h2⟩ := ih (some q)
          split
          · exact ⟨prev :: q :: l, by rw [h1]; rfl, by simpa using ⟨hp, hq, h2⟩⟩
          · exact ⟨q :: l, by rw [h1]; rfl, by simpa using ⟨hq, h2⟩⟩
      · split
        · obtain ⟨x, hx, hx'⟩ := intersect_small m hk (mask := mask) (Or.inr ⟨by assumption, by omega⟩) hp hq
          obtain ⟨l, h1, h2⟩ := ih (some x)
          exact ⟨x :: l, by rw [hx, ok_bind, h1]; rfl, by simpa using ⟨hx', h2⟩⟩
        · exact ih _

theorem clipEdge_small (m : Build) {k : Nat} (hk : 2 ^ (2 * k) < 2 ^ 63) {mask : ClipMask} {pts : List Point}
    (hr : ∀ q ∈ pts, OnGrid k q) : ∃ l, clipEdge m mask pts = .ok l ∧ ∀ p ∈ l, OnGrid k p := by
  match pts, hr with
  | [], _ => exact ⟨[], rfl, by simp⟩
  | [_], _ => exact ⟨[], rfl, by simp⟩
  | p :: q :: rest, hr =>
    have hp := hr p (by simp)
    rw [clipEdge_eq]
    split
    · obtain ⟨l, h1, h2⟩ := clipRest_small m hk (mask := mask) (last := some p) hp fun x hx => hr x (List.mem_cons_of_mem _ hx)
      exact ⟨p :: l, by rw [h1]; rfl, by simpa using ⟨hp, h2⟩⟩
    · exact clipRest_small m hk hp fun x hx => hr x (List.mem_cons_of_mem _ hx)

theorem clipOldEdges_small (m : Build) {k : Nat} (hk : 2 ^ (2 * k) < 2 ^ 63) {mask : ClipMask} {edges : List TopoEdge}
    (h : ∀ e ∈ edges, ∀ p ∈ e.points, OnGrid k p) (clipped : List (List Point)) (finder : List (Option Nat)) :
    Stays (clipOldEdges m mask clipped finder edges) := by
  induction edges generalizing clipped finder with
  | nil => exact .ok _
  | cons e edges ih =>
    obtain ⟨l, h1, -⟩ := clipEdge_small m hk (mask := mask) (h e (by simp))
    have ih := ih fun e he => h e (by simp [he])
    simp only [clipOldEdges, h1, ok_bind]
    split <;> exact ih _ _

/-- The points left of the edges that a ring follows. -/
def leftOver (cs : List (List Point)) (des : List DirectedEdge) : Nat := (des.map fun de => (cs[de.edge]?.getD []).length).sum

theorem leftOver_cons (cs : List (List Point)) (de : DirectedEdge) (des : List DirectedEdge) :
    leftOver cs (de :: des) = (cs[de.edge]?.getD []).length + leftOver cs des := by
  simp [leftOver]

/-- What is left of the room that the area of a ring has: a segment must fit in for
every point to come, and one for the last gap once the ring has begun. -/
structure HasRoom (k : Nat) (s : ClipRingState) (n : Nat) : Prop where
  start : ∀ p ∈ s.start, OnGrid k p
  previous : ∀ p ∈ s.previous, OnGrid k p
  room : s.area2.natAbs + ((if s.previous = none then 0 else 1) + n) * 2 ^ (2 * k) < 2 ^ 63

theorem plugGap_small (m : Build) {k : Nat} (s : ClipRingState) {p q : Option Point} (hp : ∀ x ∈ p, OnGrid k x)
    (hq : ∀ x ∈ q, OnGrid k x) (hr : s.area2.natAbs + (if p = none then 0 else 1) * 2 ^ (2 * k) < 2 ^ 63) :
    ∃ s', plugGap m s p q = .ok s' ∧ s'.start = s.start ∧ s'.previous = s.previous ∧
      s'.area2.natAbs ≤ s.area2.natAbs + (if p = none then 0 else 1) * 2 ^ (2 * k) := by
  match p, q, hp, hq with
  | none, _, _, _ => exact ⟨s, rfl, rfl, rfl, by simp⟩
  | some _, none, _, _ => exact ⟨s, rfl, rfl, rfl, by simp⟩
  | some a, some b, hp, hq =>
    simp only [reduceCtorEq, if_false, Nat.one_mul] at hr ⊢
    simp only [plugGap]
    split
    · have ha := hp a rfl
      have hb := hq b rfl
      obtain ⟨v, hv, hv'⟩ := signedArea2_small m (k := k) (ps := [a, b]) (by
        intro x hx
        simp only [segs, List.mem_singleton] at hx
        subst hx
        exact ⟨ha, hb⟩) (by simp only [segs, List.length_singleton]; omega)
      simp only [segs, List.length_singleton, Nat.one_mul] at hv'
      unfold ClipRingState.plug
      rw [hv, ok_bind, i64_of_inI64 (by unfold InI64; omega), ok_bind]
      exact ⟨_, rfl, rfl, rfl, by dsimp only; omega⟩
    · exact ⟨s, rfl, rfl, rfl, Nat.le_add_right _ _⟩

theorem ends_mem_segs {l : List Point} {x : Point × Point} (h : x ∈ segs l) : x.1 ∈ l ∧ x.2 ∈ l := by
  induction l with
  | nil => cases h
  | cons a l ih =>
    cases l with
    | nil => cases h
    | cons b l =>
      rcases List.mem_cons.mp h with rfl | h
      · simp
      · exact ⟨List.mem_cons_of_mem _ (ih h).1, List.mem_cons_of_mem _ (ih h).2⟩

theorem clipRingVisible_small (m : Build) {k : Nat} (s : ClipRingState) (id : Nat) (d : Direction) {c : List Point} (hc : c ≠ [])
    (hg : ∀ p ∈ c, OnGrid k p) {n : Nat} (h : HasRoom k s (c.length + n)) :
    ∃ s', clipRingVisible m s id d c = .ok s' ∧ HasRoom k s' n := by
  obtain ⟨h1, h2, h3⟩ := h
  have hf : facing d c ≠ [] := by cases d <;> simpa [facing] using hc
  have hfm : ∀ p ∈ facing d c, OnGrid k p := by cases d <;> simpa [facing] using hg
  have hfl : (facing d c).length = c.length := by cases d <;> simp [facing]
  have hor : orient d c = facing d c := by cases d <;> rfl
  have hpos := List.length_pos_iff.mpr hc
  have hfirst : firstPoint c d = .ok ((facing d c).head hf) := by
    rw [firstPoint_ok, List.head?_eq_some_head hf]
  have hlast : lastPoint c d = .ok ((facing d c).getLast hf) := by
    rw [lastPoint_ok, List.getLast?_eq_some_getLast hf]
  simp only [clipRingVisible]
  rw [hfirst, ok_bind]
  generalize hs1 : (if s.start = none then { s with start := some ((facing d c).head hf) } else s) = s1
  have a1 : s1.area2 = s.area2 := by rw [← hs1]; split <;> rfl
  have a2 : s1.previous = s.previous := by rw [← hs1]; split <;> rfl
  have a3 : ∀ p ∈ s1.start, OnGrid k p := by
    rw [← hs1]
    split
    · intro p hp
      obtain rfl := Option.some.inj hp
      exact hfm _ (List.head_mem hf)
    · exact h1
  have hsl := length_segs (facing d c)
  rw [hfl] at hsl
  have hn : ((if s.previous = none then 0 else 1) + (c.length + n)) * 2 ^ (2 * k) =
      (if s.previous = none then 0 else 1) * 2 ^ (2 * k) + (c.length - 1) * 2 ^ (2 * k) + (1 + n) * 2 ^ (2 * k) := by
    rw [← Nat.add_mul, ← Nat.add_mul]
    congr 1
    omega
  rw [hn] at h3
  obtain ⟨s2, e1, e2, e3, e4⟩ := plugGap_small m s1 (p := s1.previous) (q := some ((facing d c).head hf)) (by rw [a2]; exact h2)
    (by
      intro p hp
      obtain rfl := Option.some.inj hp
      exact hfm _ (List.head_mem hf)) (by rw [a1, a2]; omega)
  rw [a1, a2] at e4
  obtain ⟨v, hv, hv'⟩ := signedArea2_small m (k := k) (ps := facing d c) (fun x hx => by
    have := ends_mem_segs hx
    exact ⟨hfm _ this.1, hfm _ this.2⟩) (by rw [hsl]; omega)
  rw [hsl] at hv'
  rw [e1, ok_bind, hlast, ok_bind, hor, hv, ok_bind, i64_of_inI64 (by unfold InI64; omega), ok_bind]
  refine ⟨_, rfl, by dsimp only; rw [e2]; exact a3, ?_, ?_⟩
  · intro p hp
    obtain rfl := Option.some.inj hp
    exact hfm _ (List.getLast_mem hf)
  · simp only [reduceCtorEq, if_false]
    omega

theorem clipRingLoop_small (m : Build) {k : Nat} {cs : List (List Point)} (hg : ∀ c ∈ cs, ∀ p ∈ c, OnGrid k p) {b : ClipBuilder}
    (hb : ForEdges cs b) (des : List DirectedEdge) (s : ClipRingState) (hde : ∀ de ∈ des, de.edge < cs.length)
    (h : HasRoom k s (leftOver cs des)) : ∃ s', clipRingLoop m b s des = .ok s' ∧ HasRoom k s' 0 := by
  induction des generalizing s with
  | nil => exact ⟨s, rfl, h⟩
  | cons de des ih =>
    have hlt := hde de (by simp)
    have hstep : ∃ s', clipRingStep m b s de = .ok s' ∧ HasRoom k s' (leftOver cs des) := by
      rw [leftOver_cons, List.getElem?_eq_getElem hlt, Option.getD_some] at h
      rw [clipRingStep_eq]
      simp only [ClipBuilder.findOldEdgeId, hb.finder, finderOf_getElem?, List.getElem?_eq_getElem hlt, Option.map_some,
        ok_bind]
      by_cases hc : cs[de.edge] = []
      · simp only [hc, if_true]
        rw [hc] at h
        exact ⟨s, rfl, by simpa using h⟩
      · simp only [hc, if_false, Nat.zero_add, hb.oldEdges]
        rw [filter_getElem?_newId (List.getElem?_eq_getElem hlt) hc]
        exact clipRingVisible_small m s _ _ hc (hg _ (List.getElem_mem hlt)) h
    obtain ⟨s1, h1, h2⟩ := hstep
    simp only [clipRingLoop, h1, ok_bind]
    exact ih s1 (fun d hd => hde d (by simp [hd])) h2

theorem clipRing_small (m : Build) {k : Nat} {cs : List (List Point)} (hg : ∀ c ∈ cs, ∀ p ∈ c, OnGrid k p) {b : ClipBuilder}
    (hb : ForEdges cs b) {ring : TopoRing} (hde : ∀ de ∈ ring.directedEdges, de.edge < cs.length)
    (h : leftOver cs ring.directedEdges * 2 ^ (2 * k) < 2 ^ 63) : Stays (clipRing m b ring) := by
  rw [clipRing_eq]
  obtain ⟨s, h1, h2⟩ := clipRingLoop_small m hg hb ring.directedEdges ⟨[], 0, none, none, b.newEdges⟩ hde
    ⟨by simp, by simp, by simpa using h⟩
  obtain ⟨s', h3, -⟩ := plugGap_small m s h2.previous h2.start (by simpa using h2.room)
  rw [h1, ok_bind, h3, ok_bind]
  split <;> exact .ok _

theorem clipRings_small (m : Build) {k : Nat} {cs : List (List Point)} (hg : ∀ c ∈ cs, ∀ p ∈ c, OnGrid k p)
    {rings : List TopoRing} {b : ClipBuilder} (hb : ForEdges cs b)
    (hde : ∀ r ∈ rings, ∀ de ∈ r.directedEdges, de.edge < cs.length)
    (h : ∀ r ∈ rings, leftOver cs r.directedEdges * 2 ^ (2 * k) < 2 ^ 63) : Stays (clipRings m b rings) := by
  induction rings generalizing b with
  | nil => exact .ok _
  | cons r rings ih =>
    refine .bind (clipRing_small m hg hb (hde r (by simp)) (h r (by simp))) fun x hx => ?_
    exact .bind (ih (clipRing_forEdges hb hx) (fun r hr => hde r (by simp [hr])) fun r hr => h r (by simp [hr])) fun y _ => .ok _

theorem clipRegions_small {δ : Type} (m : Build) {k : Nat} {cs : List (List Point)} (hg : ∀ c ∈ cs, ∀ p ∈ c, OnGrid k p)
    {rs : List (TopoRegion δ)} {b : ClipBuilder} (hb : ForEdges cs b)
    (hde : ∀ r ∈ rs, ∀ ring ∈ r.outerRings ++ r.innerRings, ∀ de ∈ ring.directedEdges, de.edge < cs.length)
    (h : ∀ r ∈ rs, ∀ ring ∈ r.outerRings ++ r.innerRings, leftOver cs ring.directedEdges * 2 ^ (2 * k) < 2 ^ 63) :
    Stays (clipRegions m b rs) := by
  induction rs generalizing b with
  | nil => exact .ok _
  | cons r rs ih =>
    have hr := hde r (by simp)
    have hh := h r (by simp)
    refine .bind ?_ fun x hx => ?_
    · refine .bind (clipRings_small m hg hb (fun ring hring => hr ring (by simp [hring])) fun ring hring => hh ring (by simp [hring])) fun x hx => ?_
      have hb1 := clipRings_forEdges hb hx
      obtain ⟨outer, b1⟩ := x
      simp only
      split
      · exact .bind (clipRings_small m hg hb1 (fun ring hring => hr ring (by simp [hring])) fun ring hring => hh ring (by simp [hring]))
          fun y _ => .ok _
      · exact .ok _
    · have hb1 : ForEdges cs x.2 := by
        simp only [clipRegion, bind_ok] at hx
        obtain ⟨⟨outer, b1⟩, h1, hx⟩ := hx
        have hb1 := clipRings_forEdges hb h1
        simp only at hx
        split at hx
        · rw [bind_ok] at hx
          obtain ⟨⟨inner, b2⟩, h2, hx⟩ := hx
          obtain rfl := Except.ok.inj hx
          exact clipRings_forEdges hb1 h2
        · obtain rfl := Except.ok.inj hx
          exact hb1
      exact .bind (ih hb1 (fun r hr => hde r (by simp [hr])) fun r hr => h r (by simp [hr])) fun y _ => .ok _

theorem clippedBy_grid {m : Build} {k : Nat} (hk : 2 ^ (2 * k) < 2 ^ 63) {mask : ClipMask} {edges : List TopoEdge}
    (h : ∀ e ∈ edges, ∀ p ∈ e.points, OnGrid k p) {cs : List (List Point)} (hcs : ClippedBy m mask edges cs) :
    ∀ c ∈ cs, ∀ p ∈ c, OnGrid k p := by
  intro c hc
  obtain ⟨e, he, hec⟩ := forall₂_exists_left hcs hc
  obtain ⟨l, h1, h2⟩ := clipEdge_small m hk (mask := mask) (h e he)
  rw [hec] at h1
  obtain rfl := Except.ok.inj h1
  exact h2

/-- What is left of a ring has at most three points for each of its segments. -/
theorem leftOver_le {δ : Type} {m : Build} {mask : ClipMask} {t : Topology δ} {cs : List (List Point)}
    (hcs : ClippedBy m mask t.edges cs) (ring : TopoRing) :
    leftOver cs ring.directedEdges ≤ 3 * ((pathsOf t ring).flatMap segs).length := by
  rw [← ringSize_segs]
  unfold leftOver ringSize pathsOf
  rw [List.map_map]
  generalize ring.directedEdges = des
  induction des with
  | nil => simp
  | cons de des ih =>
    simp only [List.map_cons, List.sum_cons, Function.comp_def] at ih ⊢
    have : (cs[de.edge]?.getD []).length ≤ 3 * ((pathOf t de).length - 1) := by
      cases hc : cs[de.edge]? with
      | none => simp
      | some c =>
        obtain ⟨hlt, hget⟩ := List.getElem?_eq_some_iff.mp hc
        have hlt' : de.edge < t.edges.length := by rw [hcs.length_eq]; exact hlt
        have he := hcs.get hlt' hlt
        have hl := clipEdge_length he
        simp only [List.get_eq_getElem] at hl
        rw [hget] at hl
        have hw : (pathOf t de).length = t.edges[de.edge].points.length := by
          unfold pathOf walk
          rw [List.getElem?_eq_getElem hlt']
          cases de.direction <;> simp
        rw [hw, Option.getD_some]
        by_cases h1 : 2 ≤ t.edges[de.edge].points.length
        · omega
        · simp only [List.get_eq_getElem] at he
          have : cs[de.edge] = [] := by
            match hp : t.edges[de.edge].points with
            | [] => rw [hp] at he; exact (Except.ok.inj he).symm
            | [_] => rw [hp] at he; exact (Except.ok.inj he).symm
            | _ :: _ :: _ => rw [hp] at h1; simp at h1
          rw [← hget, this]
          simp
    omega

theorem clip_small {δ : Type} (m : Build) {k : Nat} (hk : 2 ^ (2 * k) < 2 ^ 63) {mask : ClipMask} {t : Topology δ}
    (hde : ∀ de ∈ allDirectedEdges t, de.edge < t.edges.length) (hg : GridMap k t)
    (h : ∀ ring ∈ allRings t, 3 * ((pathsOf t ring).flatMap segs).length * 2 ^ (2 * k) < 2 ^ 63) :
    Stays (clipTopology m t mask) := by
  refine .bind (.bind (clipOldEdges_small m hk hg _ _) fun _ _ => .ok _) fun b hb => ?_
  obtain ⟨cs0, hcs0, hb0, _⟩ := clipBuilder_new_ok hb
  have hreg : Stays (clipRegions m b t.regions) := by
    apply clipRegions_small m (clippedBy_grid hk hg hcs0) hb0
    · intro r hr ring hring de hd
      rw [← hcs0.length_eq]
      apply hde
      exact List.mem_flatMap.mpr ⟨ring, List.mem_flatMap.mpr ⟨r, hr, hring⟩, hd⟩
    · intro r hr ring hring
      exact lt_of_le_of_lt (Nat.mul_le_mul_right _ (leftOver_le hcs0 ring)) (h ring (List.mem_flatMap.mpr ⟨r, hr, hring⟩))
  refine .bind hreg fun x hx => ?_
  obtain ⟨regions, b'⟩ := x
  obtain ⟨cs, _, h4, h5, h6⟩ := clipBuilder_ok hb hx
  simp only
  rw [clip_intoTopology_eq h4 h5 (List.Perm.refl _), h6, finishTopology_eq (clippedBuild_inBounds cs t)]
  split
  · exact .ok _
  · exact fun h => nomatch h

end TopoGeo
