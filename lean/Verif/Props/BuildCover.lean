import Verif.Spec.BuildCover
import Verif.Props.ClipCover
import Verif.Props.Cover
import Verif.Props.EvenOdd
/-!
# Building and normalizing keep what regions cover

C93: a point belongs to a region before its rings became edges of a topology iff
it does after. What is dropped on the way, edges without length and rings without
area, does not matter, unless a ring without area encloses something.
-/

namespace TopoGeo

open Spec

theorem crossings_zeroLength (x y : ℚ) {e : List Point} (h : ZeroLength e) : crossings x y e = 0 := by
  rcases h with h | ⟨p, rfl⟩
  · match e, h with
    | [], _ => rfl
    | [_], _ => rfl
  · unfold crossings
    simp only [segs, List.countP_cons, List.countP_nil, zero_add]
    rw [if_neg]
    simp only [decide_eq_true_eq]
    rintro ⟨⟨h1, h2⟩ | ⟨h1, h2⟩, _⟩ <;> linarith

theorem pairs_crossings (x y : ℚ) (ps : List Point) : ((pairs ps).map (crossings x y)).sum = crossings x y ps := by
  induction ps with
  | nil => rfl
  | cons p ps ih =>
    cases ps with
    | nil => rfl
    | cons q ps =>
      rw [pairs, List.map_cons, List.sum_cons, ih]
      unfold crossings
      simp only [segs, List.countP_cons, List.countP_nil]
      omega

/-- The paths of a ring are crossed as often as the ring. -/
theorem ringPaths_encloses (ring : Ring) (x y : ℚ) :
    Encloses ((ringPaths ring).flatMap segs) x y ↔ Encloses (ringSegs ring) x y := by
  have h1 : ∀ l : List (List Point), ((l.filter fun e => ¬ ZeroLength e).map (crossings x y)).sum =
      (l.map (crossings x y)).sum := by
    intro l
    induction l with
    | nil => rfl
    | cons e l ih =>
      by_cases h : ZeroLength e
      · rw [List.filter_cons_of_neg (by simpa using h), ih, List.map_cons, List.sum_cons, crossings_zeroLength x y h, zero_add]
      · rw [List.filter_cons_of_pos (by simpa using h), List.map_cons, List.sum_cons, ih, List.map_cons, List.sum_cons]
  have h2 : ∀ l : List (List Point), (l.flatMap segs).countP (fun s => RayCrosses x y s) = (l.map (crossings x y)).sum := by
    intro l
    have := countP_flatMap_segs x y id l
    simpa only [id_eq] using this
  unfold Encloses
  rw [h2]
  cases ring with
  | points ps => rw [ringPaths, h1, pairs_crossings]; rfl
  | edges es => rw [ringPaths, h1, ringSegs, h2]

/-- Rings that are dropped do not count, the others count as before. -/
theorem keptRings_encloses {δ : Type} {t : Topology δ} {rings : List Ring} {rings' : List TopoRing} {x y : ℚ}
    (hd : ∀ ring ∈ rings, ringArea ring = 0 → ¬ Encloses (ringSegs ring) x y)
    (h : List.Forall₂ (ReadsAs t.edges) ((keptRings rings).map ringPaths) rings') :
    Encloses (rings'.flatMap (topoRingSegs t)) x y ↔ Encloses (rings.flatMap ringSegs) x y := by
  induction rings generalizing rings' with
  | nil =>
    cases h
    exact Iff.rfl
  | cons r rings ih =>
    have ih := fun {rings' : List TopoRing} => ih (rings' := rings') (fun a ha => hd a (List.mem_cons_of_mem _ ha))
    have h2 := hd r (by simp)
    unfold keptRings at ih h
    rw [List.flatMap_cons, encloses_append]
    by_cases hz : ringArea r = 0
    · rw [List.filter_cons_of_neg (by simpa using hz)] at h
      have := h2 hz
      have := ih h
      tauto
    · rw [List.filter_cons_of_pos (by simpa using hz), List.map_cons] at h
      cases h with
      | cons h3 h4 =>
        have := ih h4
        rw [List.flatMap_cons, encloses_append, ← ringPaths_encloses r, this]
        unfold topoRingSegs at *
        rw [pathsOf_reads h3]

/-- What building makes of one region. -/
def BuildStep {δ : Type} (t : Topology δ) (r : Region δ) (o : Option (TopoRegion δ)) : Prop :=
  (keptRings r.outerRings ≠ [] ∧ ∃ c, o = some c ∧ c.data = r.data ∧
    List.Forall₂ (ReadsAs t.edges) ((keptRings r.outerRings).map ringPaths) c.outerRings ∧
    List.Forall₂ (ReadsAs t.edges) ((keptRings r.innerRings).map ringPaths) c.innerRings) ∨
  (¬ keptRings r.outerRings ≠ [] ∧ o = none)

theorem build_steps {δ : Type} {m : Build} {rs : List (Region δ)} {t : Topology δ} (h : buildTopology m rs = .ok t) :
    ∃ L : List (Option (TopoRegion δ)), L.reduceOption = t.regions ∧ List.Forall₂ (BuildStep t) rs L := by
  have h7 := C07_round_trip m rs t h
  unfold keptRegions at h7
  exact forall₂_filter_map h7

theorem build_step_cover {δ : Type} {t : Topology δ} {r : Region δ} {o : Option (TopoRegion δ)} (h : BuildStep t r o) :
    (∀ r' ∈ o, r'.data = r.data) ∧ ∀ x y, NothingDropped r x y →
      ((∃ r' ∈ o, Encloses (topoRegionSegs t r') x y) ↔ Encloses (regionSegs r) x y) := by
  rcases h with ⟨hk, c, rfl, hd, ho, hi⟩ | ⟨hk, rfl⟩
  · refine ⟨fun r' hr' => by obtain rfl := Option.some.inj hr'; exact hd, fun x y hn => ?_⟩
    unfold NothingDropped droppedRings at hn
    rw [if_neg hk] at hn
    have hz : ∀ ring ∈ r.outerRings ++ r.innerRings, ringArea ring = 0 → ¬ Encloses (ringSegs ring) x y :=
      fun ring hring h0 => hn ring (List.mem_filter.mpr ⟨hring, by simpa using h0⟩)
    have e1 := keptRings_encloses (fun ring hring => hz ring (List.mem_append_left _ hring)) ho
    have e2 := keptRings_encloses (fun ring hring => hz ring (List.mem_append_right _ hring)) hi
    have : Encloses (topoRegionSegs t c) x y ↔ Encloses (regionSegs r) x y := by
      unfold topoRegionSegs regionSegs
      rw [List.flatMap_append, List.flatMap_append, encloses_append, encloses_append]
      unfold topoRingSegs at e1 e2
      rw [e1, e2]
    simpa using this
  · refine ⟨fun r' (hr' : none = some r') => by simp at hr', fun x y hn => ?_⟩
    have hk : keptRings r.outerRings = [] := by
      by_contra h0
      exact hk h0
    unfold NothingDropped droppedRings at hn
    rw [if_pos hk] at hn
    have := not_encloses_flatMap ringSegs _ x y hn
    unfold regionSegs
    simpa using this

/-- C93: building does not change whether a region covers a point, unless a ring
that is dropped because its area is zero encloses the point. -/
theorem C93_build {δ : Type} (m : Build) (rs : List (Region δ)) (t : Topology δ) (h : buildTopology m rs = .ok t) :
    ∃ L : List (Option (TopoRegion δ)), L.reduceOption = t.regions ∧
      List.Forall₂ (fun r o => (∀ r' ∈ o, r'.data = r.data) ∧ ∀ x y, NothingDropped r x y →
        ((∃ r' ∈ o, Encloses (topoRegionSegs t r') x y) ↔ Encloses (regionSegs r) x y)) rs L := by
  obtain ⟨L, h1, h2⟩ := build_steps h
  exact ⟨L, h1, h2.imp fun _ _ => build_step_cover⟩

theorem countP_reduceOption {α β : Type} {p : α → Prop} {q : β → Prop} [DecidablePred p] [DecidablePred q]
    {l : List α} {L : List (Option β)} (h : List.Forall₂ (fun a o => (∃ b ∈ o, q b) ↔ p a) l L) :
    L.reduceOption.countP (fun b => q b) = l.countP fun a => p a := by
  induction h with
  | nil => rfl
  | @cons a o l L h1 _ ih =>
    cases o with
    | none =>
      rw [List.reduceOption_cons_of_none, ih, List.countP_cons, if_neg]
      · rfl
      · simpa using h1
    | some b =>
      rw [List.reduceOption_cons_of_some, List.countP_cons, List.countP_cons, ih]
      have : q b ↔ p a := by simpa using h1
      simp only [this]

/-- C93, for all regions together: as many of them cover a point before as after. -/
theorem C93_count {δ : Type} (m : Build) (rs : List (Region δ)) (t : Topology δ) (h : buildTopology m rs = .ok t)
    (x y : ℚ) (hn : ∀ r ∈ rs, NothingDropped r x y) : cover t x y = inputCover rs x y := by
  obtain ⟨L, h1, h2⟩ := C93_build m rs t h
  unfold cover inputCover
  rw [← h1]
  exact countP_reduceOption (forall₂_imp_mem h2 fun r hr o ho => ho.2 x y (hn r hr))

/-- C93, for normalizing: it yields the topology of regions that cover what the
given ones cover, so that as many regions cover a point before as after. -/
theorem C93_normalize {δ : Type} (m : Build) (t t' : Topology δ) (hb : BackPointersExact t) (hc : RingsClosed t)
    (h : normalize m t = .ok t') :
    ∃ rs : List (Region δ), buildTopology m rs = .ok t' ∧ rs.map (·.data) = t.regions.map (·.data) ∧
      ∀ x y, inputCover rs x y = cover t x y ∧ ((∀ r ∈ rs, NothingDropped r x y) → cover t' x y = cover t x y) := by
  obtain ⟨rs, h1, h2⟩ := C78_even_odd m t t' hb hc h
  have h3 : ∀ x y, inputCover rs x y = cover t x y := by
    intro x y
    unfold inputCover cover
    clear h1
    generalize t.regions = ts at h2
    induction h2 with
    | nil => rfl
    | cons h3 _ ih => rw [List.countP_cons, List.countP_cons, ih]; simp only [h3.2 x y]
  refine ⟨rs, h1, ?_, fun x y => ⟨h3 x y, fun hn => (C93_count m rs t' h1 x y hn).trans (h3 x y)⟩⟩
  clear h3 h1 h
  generalize t.regions = ts at h2
  induction h2 with
  | nil => rfl
  | cons h3 _ ih => rw [List.map_cons, List.map_cons, ih, h3.1]

/-! ## The hypotheses can be met -/

example : inputCover exStackRegions (20 : ℚ) (30 : ℚ) = 1 ∧ cover exStack (20 : ℚ) (30 : ℚ) = 1 ∧
    ∀ r ∈ exStackRegions, NothingDropped r (20 : ℚ) (30 : ℚ) := by decide +kernel

/-- A bow tie: two triangles of the same size, around which the ring goes in
opposite directions. -/
def exTwistedTie : List (Region String) :=
  [⟨"A", [.points [⟨0, 0⟩, ⟨0, 8⟩, ⟨8, 0⟩, ⟨8, 8⟩, ⟨0, 0⟩], .points [⟨20, 0⟩, ⟨20, 8⟩, ⟨28, 8⟩, ⟨20, 0⟩]], []⟩]

/-- Without the condition it is false: the bow tie has area zero and is dropped,
though it encloses points. -/
theorem C93_dropped_refuted : ¬ ∀ (m : Build) (rs : List (Region String)) (t : Topology String) (x y : ℚ),
    buildTopology m rs = .ok t → cover t x y = inputCover rs x y := by
  intro h
  have h1 : buildTopology .debug exTwistedTie =
      .ok ⟨[⟨"A", [⟨[⟨0, .forward⟩, ⟨1, .forward⟩, ⟨2, .backward⟩], some 0⟩], []⟩],
        [⟨[⟨20, 0⟩, ⟨20, 8⟩], some ⟨0, false, 0⟩, none⟩, ⟨[⟨20, 8⟩, ⟨28, 8⟩], some ⟨0, false, 0⟩, none⟩,
         ⟨[⟨20, 0⟩, ⟨28, 8⟩], some ⟨0, false, 0⟩, none⟩]⟩ := by decide +kernel
  have h2 := h .debug exTwistedTie _ 1 4 h1
  revert h2
  decide +kernel

example : ¬ NothingDropped (exTwistedTie.headD ⟨"", [], []⟩) 1 4 ∧ NothingDropped (exTwistedTie.headD ⟨"", [], []⟩) 21 4 := by
  decide +kernel

end TopoGeo
