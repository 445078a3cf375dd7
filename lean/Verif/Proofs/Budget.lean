import Verif.Props.ClipRect
import Verif.Props.QuantizedArea
import Verif.Props.Simplify
/-!
# What the steps from a file to a map do to the depth of cuts
-/

namespace TopoGeo
open Spec MeasureTheory

/-! ## Closed rings of points -/

theorem zeroLength_pair (p q : Point) : ZeroLength [p, q] ↔ p = q := by
  unfold ZeroLength
  simp only [List.length_cons, List.length_nil]
  constructor
  · rintro (h | ⟨r, h⟩)
    · omega
    · simp at h; rw [h.1, h.2]
  · rintro rfl; exact .inr ⟨p, rfl⟩

theorem leads_pairs (l : List Point) : ∀ a b : Point, (a :: l).getLast? = some b →
    Leads a ((pairs (a :: l)).filter fun e => ¬ ZeroLength e) b := by
  induction l with
  | nil => intro a b h; simpa [pairs, Leads] using h
  | cons q l ih =>
    intro a b h
    rw [List.getLast?_cons_cons] at h
    have := ih q b h
    rw [pairs]
    by_cases hz : a = q
    · rw [List.filter_cons_of_neg (by simpa using (zeroLength_pair a q).mpr hz), hz]
      exact this
    · rw [List.filter_cons_of_pos (by simpa using mt (zeroLength_pair a q).mp hz)]
      exact ⟨rfl, q, rfl, this⟩

theorem shoelace_no_pairs (l : List Point) (h : ((pairs l).filter fun e => ¬ ZeroLength e) = []) : shoelace l = 0 := by
  induction l with
  | nil => rfl
  | cons p l ih =>
    cases l with
    | nil => rfl
    | cons q l =>
      rw [pairs] at h
      by_cases hz : p = q
      · rw [List.filter_cons_of_neg (by simpa using (zeroLength_pair p q).mpr hz)] at h
        rw [shoelace, ih h, hz]
        simp only [cross]; ring
      · rw [List.filter_cons_of_pos (by simpa using mt (zeroLength_pair p q).mp hz)] at h
        cases h

/-- A closed ring of points that encloses an area is a closed ring of paths. -/
theorem closedRing_points {ps : List Point} (hc : ps.head? = ps.getLast?) (ha : ringArea (.points ps) ≠ 0) :
    ClosedRing (ringPaths (.points ps)) := by
  refine ⟨fun h0 => ha ?_, ?_⟩
  · have := shoelace_no_pairs ps h0
    unfold ringArea ringShoelace
    simp only [this]
    decide
  · cases ps with
    | nil => exact absurd (by decide) ha
    | cons a l => exact ⟨a, leads_pairs l a a (by rw [← hc]; rfl)⟩

/-! ## Depths of cuts -/

theorem cutDepth_append (mask : ClipMask) (l l' : List (Point × Point)) :
    cutDepth mask (l ++ l') = cutDepth mask l + cutDepth mask l' := by
  simp only [cutDepth_eq, List.map_append, List.sum_append]

theorem cutDepth_perm {mask : ClipMask} {l l' : List (Point × Point)} (h : l.Perm l') : cutDepth mask l = cutDepth mask l' := by
  simp only [cutDepth_eq]
  exact (h.map _).sum_eq

theorem cutDepth_swap (mask : ClipMask) (l : List (Point × Point)) : cutDepth mask (l.map Prod.swap) = cutDepth mask l := by
  simp only [cutDepth_eq, List.map_map]
  congr 1
  exact List.map_congr_left fun s _ => askewDepth_comm mask s.2 s.1

theorem cutDepth_reverse (mask : ClipMask) (l : List Point) : cutDepth mask (segs l.reverse) = cutDepth mask (segs l) := by
  rw [segs_reverse, cutDepth_perm (List.reverse_perm _), cutDepth_swap]

theorem cutDepth_pairs (mask : ClipMask) (l : List Point) : ((pairs l).map fun e => cutDepth mask (segs e)).sum = cutDepth mask (segs l) := by
  induction l with
  | nil => rfl
  | cons p l ih =>
    cases l with
    | nil => rfl
    | cons q l =>
      rw [pairs, List.map_cons, List.sum_cons, ih]
      simp only [segs, cutDepth_eq, List.map_cons, List.map_nil, List.sum_cons, List.sum_nil]
      omega

theorem cutDepth_filter_le {α : Type} (mask : ClipMask) (l : List α) (f : α → List (Point × Point)) (p : α → Bool) :
    cutDepth mask ((l.filter p).flatMap f) ≤ cutDepth mask (l.flatMap f) := by
  rw [cutDepth_flatMap, cutDepth_flatMap]
  exact (List.filter_sublist.map _).sum_le_sum (fun _ _ => Nat.zero_le _)

theorem cutDepth_ringPaths (mask : ClipMask) (ring : Ring) :
    cutDepth mask ((ringPaths ring).flatMap segs) ≤ cutDepth mask (ringSegs ring) := by
  refine (cutDepth_filter_le mask _ segs _).trans ?_
  cases ring with
  | points ps => rw [cutDepth_flatMap, cutDepth_pairs]; exact le_refl _
  | edges es => exact le_refl _

theorem cutDepth_readsAs {δ : Type} {t : Topology δ} (mask : ClipMask) {rings : List Ring} {rings' : List TopoRing}
    (h : List.Forall₂ (ReadsAs t.edges) (rings.map ringPaths) rings') :
    cutDepth mask (rings'.flatMap fun ring => (pathsOf t ring).flatMap segs) ≤ cutDepth mask (rings.flatMap ringSegs) := by
  induction rings generalizing rings' with
  | nil => cases h; exact le_refl _
  | cons r rings ih =>
    cases h with
    | cons h1 h2 =>
      rw [List.flatMap_cons, List.flatMap_cons, cutDepth_append, cutDepth_append, pathsOf_reads h1]
      exact Nat.add_le_add (cutDepth_ringPaths mask r) (ih h2)

theorem build_step_depth {δ : Type} {t : Topology δ} {r : Region δ} {c : TopoRegion δ} (h : BuildStep t r (some c)) (mask : ClipMask) :
    cutDepth mask (topoRegionSegs t c) ≤ cutDepth mask (regionSegs r) := by
  rcases h with ⟨_, c', hc, _, ho, hi⟩ | ⟨_, h⟩
  · obtain rfl := Option.some.inj hc
    unfold topoRegionSegs regionSegs
    rw [List.flatMap_append, List.flatMap_append, cutDepth_append, cutDepth_append]
    exact Nat.add_le_add ((cutDepth_readsAs mask ho).trans (cutDepth_filter_le mask _ _ _))
      ((cutDepth_readsAs mask hi).trans (cutDepth_filter_le mask _ _ _))
  · cases h

theorem cutDepth_sided (mask : ClipMask) (bs : List Bound) :
    cutDepth mask ((sidedSegs bs).map (·.1)) = (bs.map fun b => cutDepth mask (segs b.path)).sum := by
  unfold sidedSegs
  rw [List.map_flatMap, cutDepth_flatMap]
  congr 1
  apply List.map_congr_left
  intro b _
  rw [List.map_map]
  congr 1
  exact List.map_id _

theorem cutDepth_wound {δ : Type} (t : Topology δ) (mask : ClipMask) (order : WindingOrder) (ring : TopoRing) :
    cutDepth mask ((sidedSegs (wound t order ring)).map (·.1)) = cutDepth mask ((pathsOf t ring).flatMap segs) := by
  have h0 : ((bounds t ring).map fun b => cutDepth mask (segs b.path)).sum = cutDepth mask ((pathsOf t ring).flatMap segs) := by
    unfold bounds pathsOf
    rw [cutDepth_flatMap, List.map_map, List.map_map]
    rfl
  rw [cutDepth_sided]
  unfold wound
  split
  · exact h0
  · rw [← h0]
    unfold turned
    rw [List.map_reverse, List.sum_reverse, List.map_map]
    congr 1
    exact List.map_congr_left fun b _ => cutDepth_reverse mask b.path

/-- Normalizing does not change how deep cuts are, if no edge has the same region on
both sides. -/
theorem normalize_depth {δ : Type} {m : Build} {t t' : Topology δ} (hw : WellFormed t) (hs : NoSelfEdges t (allRings t))
    (ho : ∀ r ∈ t.regions, r.outerRings ≠ []) (h : normalize m t = .ok t') :
    List.Forall₂ (fun r r' => ∀ mask, cutDepth mask (topoRegionSegs t' r') = cutDepth mask (topoRegionSegs t r))
      t.regions t'.regions := by
  refine (C15_topology m t t' hw hs ho h).imp ?_
  rintro r r' ⟨_, _, _, h1, h2⟩ mask
  unfold topoRegionSegs
  rw [List.flatMap_append, List.flatMap_append, cutDepth_append, cutDepth_append, cutDepth_perm h1, cutDepth_perm h2]
  congr 1 <;>
  · rw [cutDepth_flatMap, cutDepth_flatMap]
    congr 1
    exact List.map_congr_left fun ring _ => cutDepth_wound t mask _ ring

/-- What becomes of things in one step, and what becomes of the results in the next. -/
theorem steps_comp {α β γ : Type} {P : α → Option β → Prop} {Q : β → Option γ → Prop} {l : List α} {L : List (Option β)}
    {L' : List (Option γ)} (hP : List.Forall₂ P l L) (hQ : List.Forall₂ Q L.reduceOption L') :
    ∃ L'' : List (Option γ), L''.reduceOption = L'.reduceOption ∧
      List.Forall₂ (fun a o => (P a none ∧ o = none) ∨ ∃ b, P a (some b) ∧ Q b o) l L'' := by
  induction hP generalizing L' with
  | nil =>
    cases hQ
    exact ⟨[], rfl, .nil⟩
  | @cons a o l L h1 _ ih =>
    cases o with
    | none =>
      rw [List.reduceOption_cons_of_none] at hQ
      obtain ⟨L'', e, hf⟩ := ih hQ
      exact ⟨none :: L'', by rw [List.reduceOption_cons_of_none, e], .cons (.inl ⟨h1, rfl⟩) hf⟩
    | some b =>
      rw [List.reduceOption_cons_of_some] at hQ
      cases hQ with
      | @cons _ o' _ L1 h2 h3 =>
        obtain ⟨L'', e, hf⟩ := ih h3
        refine ⟨o' :: L'', ?_, .cons (.inr ⟨b, h1, h2⟩) hf⟩
        cases o' with
        | none => rw [List.reduceOption_cons_of_none, List.reduceOption_cons_of_none, e]
        | some c => rw [List.reduceOption_cons_of_some, List.reduceOption_cons_of_some, e]

theorem reduceOption_map_some {α : Type} (l : List α) : (l.map some).reduceOption = l := by
  induction l with
  | nil => rfl
  | cons a l ih => rw [List.map_cons, List.reduceOption_cons_of_some, ih]

end TopoGeo
