import Verif.Props.ClipTopology
import Verif.Proofs.NormalizeOnce
import Verif.Spec.ClipTwins
import Verif.Spec.Cover
/-!
# Edges of a clipped topology with the same points
-/

namespace TopoGeo
open Spec

theorem mem_segs_iff_pairs {p q : Point} (l : List Point) : (p, q) ∈ segs l ↔ [p, q] ∈ pairs l := by
  induction l with
  | nil => simp [segs, pairs]
  | cons a l ih =>
    cases l with
    | nil => simp [segs, pairs]
    | cons b l =>
      rw [segs, pairs, List.mem_cons, List.mem_cons, ih]
      simp

theorem pairs_of_reverse {a b : Point} {l : List Point} (h : [a, b] ∈ pairs l) : [b, a] ∈ pairs l.reverse := by
  rw [← mem_segs_iff_pairs] at h ⊢
  rw [segs_reverse, List.mem_reverse]
  exact List.mem_map.mpr ⟨_, h, rfl⟩

/-- Different edges have no segment in common, either way. -/
theorem segment_apart {δ : Type} {t : Topology δ} (hn : SegmentsOnce t) {i j : Nat} {e f : TopoEdge}
    (hi : t.edges[i]? = some e) (hj : t.edges[j]? = some f) (hij : i ≠ j) {p q : Point} (he : [p, q] ∈ pairs e.points) :
    [p, q] ∉ pairs f.points ∧ [q, p] ∉ pairs f.points := by
  have key := (List.nodup_flatMap.mp hn).2
  rw [List.pairwise_iff_getElem] at key
  obtain ⟨hi', rfl⟩ := List.getElem?_eq_some_iff.mp hi
  obtain ⟨hj', rfl⟩ := List.getElem?_eq_some_iff.mp hj
  have he' : (p, q) ∈ segs t.edges[i].points ++ (segs t.edges[i].points).map Prod.swap :=
    List.mem_append_left _ ((mem_segs_iff_pairs _).mpr he)
  have main : (p, q) ∉ segs t.edges[j].points ++ (segs t.edges[j].points).map Prod.swap := by
    rcases Nat.lt_or_gt_of_ne hij with h | h
    · exact fun hf => key i j hi' hj' h he' hf
    · exact fun hf => key j i hj' hi' h hf he'
  constructor
  · exact fun h => main (List.mem_append_left _ ((mem_segs_iff_pairs _).mpr h))
  · exact fun h => main (List.mem_append_right _ (List.mem_map.mpr ⟨_, (mem_segs_iff_pairs _).mpr h, rfl⟩))

/-- What becomes of a segment: it is as before, or the mask line cuts it and one
end is on the line. -/
theorem step_of_clipEdge {m : Build} {mask : ClipMask} {edge out : List Point} (h : clipEdge m mask edge = .ok out)
    {a b : Point} (hab : [a, b] ∈ pairs out) (hin : 0 < depth mask a ∨ 0 < depth mask b) :
    [a, b] ∈ pairs edge ∨ LeftOfCut m mask edge a b := by
  obtain ⟨X, hX, hstep⟩ := C28_steps h
  rcases hstep a b hab with ⟨h1, h2⟩ | ⟨p, q, hpq, hv⟩
  · omega
  unfold visiblePart at hv
  split at hv
  · rename_i hor
    split at hv
    · rename_i hp
      have hc : Crosses mask p q := .inl ⟨hp, by omega⟩
      obtain ⟨r, hr⟩ := C28_crossings h p q hpq hc
      have := hX p q r hr
      simp only [List.cons.injEq, and_true] at hv
      obtain ⟨ha, hb⟩ := hv
      rw [this] at ha
      subst ha
      exact .inr ⟨p, q, hpq, hc, .inl ⟨hb.symm, hr⟩⟩
    · split at hv
      · rename_i hp hq
        have hc : Crosses mask p q := .inr ⟨by omega, hq⟩
        obtain ⟨r, hr⟩ := C28_crossings h p q hpq hc
        have := hX p q r hr
        simp only [List.cons.injEq, and_true] at hv
        obtain ⟨ha, hb⟩ := hv
        rw [this] at hb
        subst hb
        exact .inr ⟨p, q, hpq, hc, .inr ⟨ha.symm, hr⟩⟩
      · simp only [List.cons.injEq, and_true] at hv
        obtain ⟨rfl, rfl⟩ := hv
        exact .inl hpq
  · cases hv

/-- A cut leaves an end on the mask line. -/
theorem onLine_of_cut {m : Build} {mask : ClipMask} {edge : List Point} {a b : Point} (h : LeftOfCut m mask edge a b) :
    depth mask a = 0 ∨ depth mask b = 0 := by
  obtain ⟨p, q, _, _, ⟨_, h⟩ | ⟨_, h⟩⟩ := h
  · exact .inl (intersect_onLine h)
  · exact .inr (intersect_onLine h)

theorem two_le_of_extended {l : List Point} (h : ¬ ZeroLength l) : 2 ≤ l.length := by
  by_contra hlt
  exact h (.inl (by omega))

/-- A point of a path of two points or more is an end of one of its segments. -/
theorem pair_of_mem {l : List Point} (hlen : 2 ≤ l.length) {p : Point} (hp : p ∈ l) :
    ∃ q, [p, q] ∈ pairs l ∨ [q, p] ∈ pairs l := by
  induction l with
  | nil => simp at hp
  | cons a l ih =>
    cases l with
    | nil => simp at hlen
    | cons b l =>
      rcases List.mem_cons.mp hp with rfl | hp
      · exact ⟨b, .inl (by simp [pairs])⟩
      · cases l with
        | nil =>
          obtain rfl := List.mem_singleton.mp hp
          exact ⟨a, .inr (by simp [pairs])⟩
        | cons c l =>
          obtain ⟨q, hq⟩ := ih (by simp) hp
          exact ⟨q, hq.imp (fun h => by rw [pairs]; exact List.mem_cons_of_mem _ h)
            (fun h => by rw [pairs]; exact List.mem_cons_of_mem _ h)⟩

theorem encloses_cons {x y : ℚ} {s : Point × Point} {l : List (Point × Point)} :
    Encloses (s :: l) x y ↔ ¬ (RayCrosses x y s ↔ Encloses l x y) := by
  unfold Encloses
  rw [List.countP_cons]
  by_cases h : RayCrosses x y s <;> simp [h, Nat.odd_add_one]

theorem not_encloses_none {x y : ℚ} : ¬ Encloses [] x y := by simp [Encloses]

end TopoGeo
