import Verif.Spec.Outline
import Verif.Proofs.SameMap
import Verif.Proofs.SymmetryBuild
import Verif.Props.Rebuild
import Verif.Props.Geo
/-!
# Cutting edges into segments keeps the boundaries
-/

namespace TopoGeo

open Spec
open scoped List

/-- Paths, cut at every point. -/
def cutPaths (ps : List (List Point)) : List (List Point) := ps.flatMap pairs

/-- What is kept of a region, cut at every point. -/
def cutKept {δ : Type} (k : KeptRegion δ) : KeptRegion δ := ⟨k.data, k.outer.map cutPaths, k.inner.map cutPaths⟩

/-- The segments of a path, either way. -/
def bothWays (e : List Point) : List (Point × Point) := segs e ++ (segs e).map Prod.swap

theorem pairs_of_segs (l : List Point) : pairs l = (segs l).map fun s => [s.1, s.2] :=
  match l with
  | [] => rfl
  | [_] => rfl
  | p :: q :: rest => by rw [pairs, segs, List.map_cons, pairs_of_segs (q :: rest)]

theorem bothWays_reverse (e : List Point) : (bothWays e.reverse).Perm (bothWays e) := by
  unfold bothWays
  rw [segs_reverse, List.map_reverse, List.map_map]
  simp only [Prod.swap_swap_eq, List.map_id]
  exact ((List.reverse_perm _).append (List.reverse_perm _)).trans List.perm_append_comm

theorem bothWays_stored (e : List Point) : (bothWays (stored e)).Perm (bothWays e) := by
  unfold stored
  split
  · exact List.Perm.refl _
  · exact bothWays_reverse e

theorem stored_segment {a b : Point} (h : a ≠ b) (x : Point × Point) :
    stored [x.1, x.2] = stored [a, b] ↔ x = (a, b) ∨ x.swap = (a, b) := by
  rw [stored_eq]
  obtain ⟨c, d⟩ := x
  constructor
  · rintro (h1 | ⟨h1, _⟩)
    · left; simp at h1; simp [h1]
    · right; simp at h1; simp [h1]
  · rintro (h1 | h1)
    · left; simp at h1; simp [h1]
    · right; simp at h1; refine ⟨by simp [h1], Or.inl ?_⟩; simpa using h

theorem count_segments {a b : Point} (h : a ≠ b) (l : List (Point × Point)) :
    (l.map fun s => stored [s.1, s.2]).count (stored [a, b]) = (l ++ l.map Prod.swap).count (a, b) := by
  rw [List.count_append]
  induction l with
  | nil => rfl
  | cons x l ih =>
    rw [List.map_cons, List.map_cons, List.count_cons, List.count_cons, List.count_cons, ih]
    have h1 := stored_segment h x
    have h2 : ¬ (x = (a, b) ∧ x.swap = (a, b)) := by
      rintro ⟨rfl, h2⟩; simp at h2; exact h h2.2
    simp only [beq_iff_eq, h1]
    by_cases c1 : x = (a, b) <;> by_cases c2 : x.swap = (a, b)
    · exact absurd ⟨c1, c2⟩ h2
    · rw [if_pos (Or.inl c1), if_pos c1, if_neg c2]; omega
    · rw [if_pos (Or.inr c2), if_neg c1, if_pos c2]; omega
    · rw [if_neg (by rintro (c | c) <;> contradiction), if_neg c1, if_neg c2]; omega

section
variable {δ : Type} {m : Build} {rs : List (Region δ)} {t : Topology δ}

theorem keys_once (h : buildTopology m rs = .ok t) (hs : SegmentsOnce t) : ((keysOf rs).flatMap bothWays).Nodup := by
  unfold SegmentsOnce at hs
  rw [← (buildTopology_facts h).2.1, List.flatMap_map]
  exact hs

theorem segment_extended (h : buildTopology m rs = .ok t) (hs : SegmentsOnce t) {p : List Point} (hp : p ∈ allPaths rs)
    {s : Point × Point} (hseg : s ∈ segs p) : s.1 ≠ s.2 := by
  intro he
  have h1 := (List.nodup_flatMap.mp (keys_once h hs)).1 _ (stored_mem_keysOf hp)
  have h1 := (bothWays_stored p).nodup_iff.mp h1
  have := (List.nodup_append'.mp h1).2.2
  refine this hseg (List.mem_map.mpr ⟨s, hseg, ?_⟩)
  obtain ⟨a, b⟩ := s
  simp only at he
  subst he
  rfl

theorem count_cut_path (h : buildTopology m rs = .ok t) (hs : SegmentsOnce t) {p e : List Point} (hp : p ∈ allPaths rs)
    (he : e ∈ allPaths rs) {s : Point × Point} (hseg : s ∈ segs p) :
    ((pairs e).map stored).count (stored [s.1, s.2]) = if stored e = stored p then 1 else 0 := by
  have hk := List.nodup_flatMap.mp (keys_once h hs)
  rw [pairs_of_segs, List.map_map]
  have h1 := count_segments (segment_extended h hs hp hseg) (segs e)
  rw [show (stored ∘ fun s : Point × Point => [s.1, s.2]) = fun s => stored [s.1, s.2] from rfl, h1]
  have hin : (s.1, s.2) ∈ bothWays (stored p) := (bothWays_stored p).mem_iff.mpr (List.mem_append_left _ hseg)
  rw [show segs e ++ (segs e).map Prod.swap = bothWays e from rfl, ← (bothWays_stored e).count_eq]
  split
  · rename_i heq
    rw [heq]
    exact List.count_eq_one_of_mem (hk.1 _ (stored_mem_keysOf hp)) hin
  · rename_i hne
    apply List.count_eq_zero_of_not_mem
    intro hin'
    have : Std.Symm (Function.onFun List.Disjoint bothWays) := ⟨fun _ _ d => List.Disjoint.symm d⟩
    have := hk.2.forall (stored_mem_keysOf he) (stored_mem_keysOf hp) hne
    exact this hin' hin

theorem count_cut (h : buildTopology m rs = .ok t) (hs : SegmentsOnce t) {p : List Point} (hp : p ∈ allPaths rs)
    {s : Point × Point} (hseg : s ∈ segs p) (l : List (List Point)) (hl : ∀ e ∈ l, e ∈ allPaths rs) :
    ((cutPaths l).map stored).count (stored [s.1, s.2]) = (l.map stored).count (stored p) := by
  unfold cutPaths
  induction l with
  | nil => rfl
  | cons e l ih =>
    rw [List.flatMap_cons, List.map_append, List.count_append, ih fun x hx => hl x (by simp [hx]),
      count_cut_path h hs hp (hl e (by simp)) hseg, List.map_cons, List.count_cons]
    by_cases c : stored e = stored p
    · simp [c]; omega
    · simp [c]

theorem cutPaths_flatten (ll : List (List (List Point))) : (ll.map cutPaths).flatten = cutPaths ll.flatten := by
  unfold cutPaths
  induction ll with
  | nil => rfl
  | cons a l ih => rw [List.map_cons, List.flatten_cons, List.flatten_cons, List.flatMap_append, ih]

/-- The pieces of a path have the regions on their sides that the path has. -/
theorem pathSides_cut (h : buildTopology m rs = .ok t) (hs : SegmentsOnce t) {p : List Point} (hp : p ∈ allPaths rs)
    {s : Point × Point} (hseg : s ∈ segs p) :
    pathSides ((keptRegions rs).map cutKept) [s.1, s.2] = pathSides (keptRegions rs) p := by
  unfold pathSides
  have := replicates_congr
    (u := fun k : KeptRegion δ => ((k.outer.flatten ++ k.inner.flatten).map stored).count (stored [s.1, s.2]))
    (v := fun k : KeptRegion δ => ((k.outer.flatten ++ k.inner.flatten).map stored).count (stored p))
    (as := (keptRegions rs).map cutKept) (bs := keptRegions rs) (by
      rw [List.forall₂_map_left_iff]
      refine List.forall₂_same.mpr fun k hk => ?_
      show (((k.outer.map cutPaths).flatten ++ (k.inner.map cutPaths).flatten).map stored).count _ = _
      rw [cutPaths_flatten, cutPaths_flatten]
      rw [show cutPaths k.outer.flatten ++ cutPaths k.inner.flatten = cutPaths (k.outer.flatten ++ k.inner.flatten) from
        List.flatMap_append.symm]
      exact count_cut h hs hp hseg _ fun e he => List.mem_flatMap.mpr ⟨k, hk, he⟩) 0
  rw [this]

theorem sidedSegs_cut (h : buildTopology m rs = .ok t) (hs : SegmentsOnce t) (ps : List (List Point))
    (hps : ∀ p ∈ ps, p ∈ allPaths rs) :
    sidedSegs (withSides ((keptRegions rs).map cutKept) (cutPaths ps)) = sidedSegs (withSides (keptRegions rs) ps) := by
  unfold sidedSegs withSides cutPaths
  rw [List.flatMap_map, List.flatMap_map, List.flatMap_assoc]
  rw [List.flatMap_def, List.flatMap_def]
  congr 1
  apply List.map_congr_left
  intro p hp
  rw [pairs_of_segs, List.flatMap_map, ← List.flatMap_singleton' (l := List.map _ (segs p)), List.flatMap_map,
    List.flatMap_def, List.flatMap_def]
  congr 1
  apply List.map_congr_left
  intro s hseg
  show [((s.1, s.2), _)] = [(s, _)]
  rw [pathSides_cut h hs (hps p hp) hseg]

end

theorem sidedSegs_turned (bs : List Bound) :
    sidedSegs (turned bs) = ((sidedSegs bs).map fun x => (x.1.swap, x.2)).reverse := by
  unfold sidedSegs turned
  induction bs with
  | nil => rfl
  | cons b bs ih =>
    rw [List.map_cons, List.reverse_cons, List.flatMap_append, ih, List.flatMap_cons (xs := bs), List.map_append,
      List.reverse_append]
    congr 1
    simp [segs_reverse, Function.comp_def]

theorem shoelaceEdges_cut (ps : List (List Point)) : shoelaceEdges (cutPaths ps) = shoelaceEdges ps := by
  unfold cutPaths
  induction ps with
  | nil => rfl
  | cons p ps ih =>
    have h1 := shoelaceEdges_pairs p
    unfold shoelaceEdges at ih h1 ⊢
    rw [List.flatMap_cons, List.map_append, List.sum_append, ih, h1, List.map_cons, List.sum_cons]

/-- The boundary of rings in terms of the input. -/
theorem boundary_built {δ : Type} {m : Build} {rs : List (Region δ)} {t : Topology δ} (h : buildTopology m rs = .ok t)
    (order : WindingOrder) (rings : List TopoRing) (pss : List (List (List Point)))
    (hr : rings.map (·.directedEdges) = pss.map (·.map (directedFor (keysOf rs))))
    (hin : ∀ ps ∈ pss, ∀ p ∈ ps, p ∈ allPaths rs) :
    boundary t order rings = pss.flatMap fun ps => sidedSegs ((if Oriented order ps then
      withSides (keptRegions rs) ps else turned (withSides (keptRegions rs) ps)).filter Bound.separates) := by
  induction rings generalizing pss with
  | nil =>
    cases pss with
    | nil => rfl
    | cons a l => simp at hr
  | cons ring rings ih =>
    cases pss with
    | nil => simp at hr
    | cons ps pss =>
      rw [List.map_cons, List.map_cons] at hr
      obtain ⟨r1, r2⟩ := List.cons.inj hr
      obtain ⟨b1, b2⟩ := bounds_built h (hin ps (by simp)) r1
      have := ih pss r2 fun x hx => hin x (by simp [hx])
      unfold boundary at this ⊢
      rw [List.flatMap_cons, List.flatMap_cons, this]
      unfold wound
      rw [b1, b2]

section
variable {δ : Type} {m m' : Build} {rs rs' : List (Region δ)} {t t' : Topology δ}

theorem boundary_cut (h : buildTopology m rs = .ok t) (h' : buildTopology m' rs' = .ok t') (hs : SegmentsOnce t)
    (hk : keptRegions rs' = (keptRegions rs).map cutKept) (order : WindingOrder) {rings rings' : List TopoRing}
    {pss : List (List (List Point))} (hr : rings.map (·.directedEdges) = pss.map (·.map (directedFor (keysOf rs))))
    (hr' : rings'.map (·.directedEdges) = (pss.map cutPaths).map (·.map (directedFor (keysOf rs'))))
    (hin : ∀ ps ∈ pss, ∀ p ∈ ps, p ∈ allPaths rs) (hin' : ∀ ps ∈ pss.map cutPaths, ∀ p ∈ ps, p ∈ allPaths rs') :
    boundary t' order rings' = boundary t order rings := by
  rw [boundary_built h order rings pss hr hin, boundary_built h' order rings' _ hr' hin', List.flatMap_map,
    List.flatMap_def, List.flatMap_def]
  congr 1
  apply List.map_congr_left
  intro ps hps
  have hc := sidedSegs_cut h hs ps (hin ps hps)
  rw [← hk] at hc
  have ho := oriented_congr (order := order) (shoelaceEdges_cut ps)
  rw [sidedSegs_filter, sidedSegs_filter]
  by_cases c : Oriented order ps
  · rw [if_pos c, if_pos (ho.mpr c), hc]
  · rw [if_neg c, if_neg fun x => c (ho.mp x), sidedSegs_turned, sidedSegs_turned, hc]

/-- Cutting the edges into segments keeps the boundaries. -/
theorem sameBoundaries_cut (h : buildTopology m rs = .ok t) (h' : buildTopology m' rs' = .ok t') (hs : SegmentsOnce t)
    (hk : keptRegions rs' = (keptRegions rs).map cutKept) : SameBoundaries t t' := by
  have hb := built_regions h
  have hb' := built_regions h'
  have hb'' := hb'
  rw [hk, List.forall₂_map_left_iff] at hb''
  have hin : ∀ {rs : List (Region δ)} {k : KeptRegion δ}, k ∈ keptRegions rs →
      (∀ ps ∈ k.outer, ∀ p ∈ ps, p ∈ allPaths rs) ∧ ∀ ps ∈ k.inner, ∀ p ∈ ps, p ∈ allPaths rs :=
    fun {rs k} hk => ⟨fun ps hps p hp => List.mem_flatMap.mpr ⟨k, hk, List.mem_append_left _ (List.mem_flatten.mpr ⟨ps, hps, hp⟩)⟩,
      fun ps hps p hp => List.mem_flatMap.mpr ⟨k, hk, List.mem_append_right _ (List.mem_flatten.mpr ⟨ps, hps, hp⟩)⟩⟩
  refine forall₂_comp (List.Forall₂.flip hb) (forall₂_imp_left hb'' fun k hk0 r' x => (⟨hk0, x⟩ : k ∈ keptRegions rs ∧ _)) ?_
  rintro r k r' ⟨d, o, i⟩ ⟨hk0, d', o', i'⟩
  have hk' : cutKept k ∈ keptRegions rs' := by rw [hk]; exact List.mem_map.mpr ⟨k, hk0, rfl⟩
  refine ⟨by rw [d, d']; rfl, ?_, ?_⟩
  · rw [boundary_cut h h' hs hk _ o o' (hin hk0).1 (hin hk').1]
  · rw [boundary_cut h h' hs hk _ i i' (hin hk0).2 (hin hk').2]

theorem segs_joinPath {ps : List (List Point)} {a b : Point} (h : Leads a ps b) :
    segs (joinPath ps) = ps.flatMap segs ∧ (ps ≠ [] → (joinPath ps).getLast? = some b) := by
  have key : ∀ (ps : List (List Point)) (e : List Point) (c b : Point), e.getLast? = some c → Leads c ps b →
      segs (e ++ (ps.map List.tail).flatten) = segs e ++ ps.flatMap segs ∧
        (e ++ (ps.map List.tail).flatten).getLast? = some b := by
    intro ps
    induction ps with
    | nil =>
      intro e c b he hl
      obtain rfl : c = b := hl
      simp [he]
    | cons f ps ih =>
      intro e c b he hl
      obtain ⟨h1, d, h2, h3⟩ := hl
      have hj : (e ++ f.tail).getLast? = some d := by
        cases f with
        | nil => simp at h1
        | cons x f =>
          obtain rfl : x = c := by simpa using h1
          cases f with
          | nil =>
            obtain rfl : x = d := by simpa using h2
            simpa using he
          | cons y f =>
            rw [List.getLast?_cons_cons] at h2
            rw [List.tail_cons, List.getLast?_append, h2]
            rfl
      obtain ⟨k1, k2⟩ := ih (e ++ f.tail) d b hj h3
      rw [List.map_cons, List.flatten_cons, ← List.append_assoc, k1, segs_join he h1, List.flatMap_cons, List.append_assoc]
      exact ⟨rfl, k2⟩
  cases ps with
  | nil => exact ⟨rfl, fun x => absurd rfl x⟩
  | cons e ps =>
    obtain ⟨_, c, h2, h3⟩ := h
    obtain ⟨k1, k2⟩ := key ps e c b h2 h3
    exact ⟨k1, fun _ => k2⟩

end

end TopoGeo
