import Verif.Spec.Budget
import Verif.Proofs.Budget
/-!
# From the file to the map: how errors add up

C103: read a shapefile, build a topology, normalize it, clip it with any masks
and simplify it. What is left of each polygon differs from the part of the polygon
in the file that is inside of the masks by an area that is bounded step by step.
-/

namespace TopoGeo

open Spec MeasureTheory

theorem forall₂_join {α β γ : Type} {P : α → β → Prop} {Q : β → γ → Prop} {as : List α} {bs : List β} {cs : List γ}
    (h1 : List.Forall₂ P as bs) (h2 : List.Forall₂ Q bs cs) : List.Forall₂ (fun a c => ∃ b, P a b ∧ Q b c) as cs := by
  induction h1 generalizing cs with
  | nil => cases h2; exact .nil
  | cons h _ ih =>
    cases h2 with
    | cons h3 h4 => exact .cons ⟨_, h, h3⟩ (ih h4)

theorem forall₂_both {α β : Type} {P Q : α → β → Prop} {as : List α} {bs : List β}
    (h1 : List.Forall₂ P as bs) (h2 : List.Forall₂ Q as bs) : List.Forall₂ (fun a b => P a b ∧ Q a b) as bs := by
  induction h1 with
  | nil => exact .nil
  | cons h _ ih =>
    cases h2 with
    | cons h3 h4 => exact .cons ⟨h, h3⟩ (ih h4)

theorem changed_inter (a b c : Set (ℝ × ℝ)) : changed (a ∩ c) (b ∩ c) ⊆ changed a b := by
  intro p hp
  simp only [changed, Set.mem_symmDiff, Set.mem_inter_iff] at hp ⊢
  tauto

theorem changed_comm (a b : Set (ℝ × ℝ)) : changed a b = changed b a := symmDiff_comm a b

theorem areaOf_changed_trans (a b c : Set (ℝ × ℝ)) : areaOf (changed a c) ≤ areaOf (changed a b) + areaOf (changed b c) :=
  (measure_mono (changed_trans a b c)).trans (measure_union_le _ _)

theorem covered_some {δ : Type} (t : Topology δ) (r : TopoRegion δ) : covered t (some r) = enclosed (topoRegionSegs t r) := by
  ext p; simp [covered]

theorem covered_none {δ : Type} (t : Topology δ) : covered t (none : Option (TopoRegion δ)) = ∅ := by
  ext p; simp [covered]

theorem isRegionOf_depth {m : Build} {b : ShpBoundingBox} {record : ShapefileRecord} {region : Region DbfRecord}
    (h : IsRegionOf m (ShapefileQuantizer.new b) record region) (mask : ClipMask) :
    cutDepth mask (regionSegs region) =
      (record.rings.map fun ring => cutDepth mask (segs (ring.map (ShapefileQuantizer.new b).quantize))).sum := by
  have hp := (C59_permutation h.rings).1
  unfold regionSegs
  rw [cutDepth_flatMap, (hp.map _).sum_eq, List.map_map]
  rfl

/-- C103: rings that are closed in the file are closed on the grid, so that the
topology that is built is well-formed. -/
theorem C103_well_formed {m : Build} {q : ShapefileQuantizer} {records : List ShapefileRecord} {regions : List (Region DbfRecord)}
    (hreg : List.Forall₂ (IsRegionOf m q) records regions)
    (hin : ∀ record ∈ records, ∀ ring ∈ record.rings, ring.head? = ring.getLast?)
    {t : Topology DbfRecord} (h : buildTopology m regions = .ok t) :
    WellFormed t ∧ ∀ r ∈ t.regions, r.outerRings ≠ [] := by
  have hclosed : ∀ r ∈ regions, ∀ ring ∈ r.outerRings ++ r.innerRings, ringArea ring ≠ 0 → ClosedRing (ringPaths ring) := by
    clear h
    induction hreg with
    | nil => simp
    | @cons record region records regions h1 _ ih =>
      intro r hr ring hring ha
      rcases List.mem_cons.mp hr with rfl | hr
      · rw [(C59_permutation h1.rings).1.mem_iff] at hring
        obtain ⟨s, hs, rfl⟩ := List.mem_map.mp hring
        refine closedRing_points ?_ ha
        rw [List.head?_map, List.getLast?_map, hin record (by simp) s hs]
      · exact ih (fun x hx => hin x (by simp [hx])) r hr ring hring ha
  obtain ⟨hw, ho, _⟩ := wellFormed_of_built h hclosed
  exact ⟨hw, ho⟩

/-- C103: from the records of a file to a simplified map. -/
theorem C103_budget {m : Build} {b : ShpBoundingBox} {west south east north : Rat} (hb : IsBox b west south east north)
    {records : List ShapefileRecord} {regions : List (Region DbfRecord)}
    (hreg : List.Forall₂ (IsRegionOf m (ShapefileQuantizer.new b)) records regions)
    (hin : ∀ record ∈ records, ∀ ring ∈ record.rings, ring.head? = ring.getLast? ∧ ∀ p ∈ ring, InsideBox west south east north p)
    {t0 t1 t2 t3 : Topology DbfRecord} (h0 : buildTopology m regions = .ok t0) (h1 : normalize m t0 = .ok t1)
    (masks : List ClipMask) (h2 : masks.foldlM (fun t mask => clipTopology m t mask) t1 = .ok t2)
    (s : Nat) (hs : s ≤ u64Max) (h3 : simplify m t2 s = .ok t3)
    (hself : NoSelfEdges t0 (allRings t0)) (hprod : ∀ mask ∈ masks, ProductsFit mask t1)
    (ε : ENNReal) (hlost : ∀ done mask todo t, masks = done ++ mask :: todo →
      done.foldlM (fun t mask => clipTopology m t mask) t1 = .ok t → ∀ r ∈ t.regions, areaOf (lostInside m mask t r) ≤ ε)
    (ε' : ENNReal) (hlost' : ∀ region ∈ regions, areaOf (lostPart region) ≤ ε') :
    ∃ (L : List (Option (TopoRegion DbfRecord))) (keeps : List (List Nat)), L.reduceOption = t3.regions ∧
      keeps.length = t2.edges.length ∧
      (∀ (i : Nat) (e e' : TopoEdge) (k : List Nat), t2.edges[i]? = some e → t3.edges[i]? = some e' → keeps[i]? = some k →
        ReducedTo e e' k) ∧
      List.Forall₂ (fun record o => (∀ r ∈ o, r.data = record.data) ∧
        areaOf (changed (covered t3 o) (enclosedR (exactSegs west south east north record.rings) ∩ window masks)) ≤
          polygonError b west south east north record.rings + ε' +
            (masks.length * ε + 2 * ringsDepth b masks record.rings) + fans t2 keeps o / 2) records L := by
  obtain ⟨hw0, ho0⟩ := C103_well_formed hreg (fun record hr ring hring => (hin record hr ring hring).1) h0
  have hw1 := wellFormed_normalize hw0 h1
  obtain ⟨L0, e0, f0⟩ := build_steps h0
  have f1 := forall₂_both (C99_normalize m t0 t1 hw0 hself ho0 h1) (normalize_depth hw0 hself ho0 h1)
  obtain ⟨L2, ⟨e2, d2⟩, f2⟩ := C101_rectangle m masks t1 t2 h2 hw1 hprod ε hlost
  obtain ⟨keeps, k1, k2, k3⟩ := C99_simplify m t2 t3 s hs h3
  have e3 := (C45_frame m t2 t3 s h3).1
  have f12 := forall₂_join f1 (forall₂_both d2 f2)
  rw [← e0] at f12
  have f0' := forall₂_join (forall₂_both hreg (forall₂_imp_mem hreg fun record hr _ hx => And.intro
    (C102_record hb hx (hin record hr)) (isRegionOf_depth hx))) (forall₂_imp_mem f0 fun r hr _ hx => And.intro hx (hlost' r hr))
  obtain ⟨L, eL, fL⟩ := steps_comp f0' f12
  refine ⟨L, keeps, by rw [eL, e2, e3], k1, k2, fL.imp ?_⟩
  have hstart : ∀ {record : ShapefileRecord} {region : Region DbfRecord} {o : Option (TopoRegion DbfRecord)},
      BuildStep t0 region o → areaOf (lostPart region) ≤ ε' →
      areaOf (changed (enclosedR (exactSegs west south east north record.rings)) (enclosed (regionSegs region))) ≤
        polygonError b west south east north record.rings →
      areaOf (changed (covered t0 o ∩ window masks) (enclosedR (exactSegs west south east north record.rings) ∩ window masks)) ≤
        polygonError b west south east north record.rings + ε' := by
    intro record region o hstep hl he
    refine (measure_mono (changed_inter _ _ _)).trans ?_
    rw [changed_comm]
    refine (build_step_error hstep he).trans ?_
    rw [add_comm]
    exact add_le_add le_rfl hl
  rintro record o (⟨⟨region, ⟨hr, he, hd⟩, hstep, hl⟩, rfl⟩ | ⟨r0, ⟨region, ⟨hr, he, hd⟩, hstep, hl⟩, r1, ⟨⟨n1, n2, _⟩, n3⟩, c1, c2⟩)
  · refine ⟨by simp, ?_⟩
    have := hstart hstep hl he
    rw [covered_none, Set.empty_inter] at this
    rw [covered_none]
    exact this.trans (by rw [add_assoc]; exact le_self_add)
  · refine ⟨fun r hr' => ?_, ?_⟩
    · have hd0 := (build_step_real hstep).1 r0 rfl
      rw [c1 r hr', n1, hd0, hr.data]
    · have a1 := hstart hstep hl he
      rw [covered_some] at a1
      have a2 : areaOf (changed (covered t2 o) (enclosed (topoRegionSegs t0 r0) ∩ window masks)) ≤
          masks.length * ε + 2 * ringsDepth b masks record.rings := by
        rw [← n2]
        refine c2.trans (add_le_add le_rfl (mul_le_mul' le_rfl ?_))
        unfold ringsDepth
        refine Nat.cast_le.mpr (List.sum_le_sum fun mask _ => ?_)
        rw [n3 mask, ← hd mask]
        exact build_step_depth hstep mask
      have a3 : areaOf (changed (covered t3 o) (covered t2 o)) ≤ (fans t2 keeps o : ENNReal) / 2 := by
        cases o with
        | none => rw [covered_none, covered_none]; simp [changed, areaOf]
        | some r => rw [covered_some, covered_some]; exact (k3 r).2
      refine (areaOf_changed_trans _ (covered t2 o) _).trans ?_
      rw [add_comm _ ((fans t2 keeps o : ENNReal) / 2)]
      refine add_le_add a3 ((areaOf_changed_trans _ (enclosed (topoRegionSegs t0 r0) ∩ window masks) _).trans ?_)
      rw [add_comm]
      exact add_le_add a1 a2

/-! A triangle in a corner of the box with a vertex on one of its sides: cut at
x = 50000 and simplified. -/

noncomputable local instance : DecidableEq DbfField := Classical.decEq _
noncomputable local instance : DecidableEq DbfMeta
  | ⟨a, b, c⟩, ⟨a', b', c'⟩ => decidable_of_iff (a = a' ∧ b = b' ∧ c = c') (by simp)
noncomputable local instance : DecidableEq DbfRecord
  | ⟨a, b⟩, ⟨a', b'⟩ => decidable_of_iff (a = a' ∧ b = b') (by simp)



def exCornerBit : ShpPolygonRing := [⟨0, 0x3ff0000000000000⟩, ⟨0x3ef0000000000000, 0x3ff0000000000000⟩,
  ⟨0x3ee0000000000000, 0x3fefffff00000000⟩, ⟨0, 0x3feffffe00000000⟩, ⟨0, 0x3ff0000000000000⟩]

def exCornerBitRecord : ShapefileRecord := ⟨[exCornerBit], ⟨⟨0, 0, []⟩, []⟩⟩

def exCornerBitRegion : Region DbfRecord := ⟨exCornerBitRecord.data,
  [.points [⟨0, 0⟩, ⟨65535, 0⟩, ⟨32767, 2047⟩, ⟨0, 4095⟩, ⟨0, 0⟩]], []⟩

def exCornerBitTopology (points : List Point) : Topology DbfRecord :=
  ⟨[⟨exCornerBitRecord.data, [⟨[⟨0, .forward⟩], some 0⟩], []⟩], [⟨points, some ⟨0, false, 0⟩, none⟩]⟩

def exCornerBitBuilt : Topology DbfRecord :=
  ⟨[⟨exCornerBitRecord.data, [⟨[⟨0, .forward⟩, ⟨1, .backward⟩, ⟨2, .backward⟩, ⟨3, .backward⟩], some 0⟩], []⟩],
    [⟨[⟨0, 0⟩, ⟨65535, 0⟩], some ⟨0, false, 0⟩, none⟩, ⟨[⟨32767, 2047⟩, ⟨65535, 0⟩], some ⟨0, false, 0⟩, none⟩,
     ⟨[⟨0, 4095⟩, ⟨32767, 2047⟩], some ⟨0, false, 0⟩, none⟩, ⟨[⟨0, 0⟩, ⟨0, 4095⟩], some ⟨0, false, 0⟩, none⟩]⟩

def exCornerBitNormal := exCornerBitTopology [⟨0, 0⟩, ⟨65535, 0⟩, ⟨32767, 2047⟩, ⟨0, 4095⟩, ⟨0, 0⟩]
def exCornerBitClipped := exCornerBitTopology [⟨0, 0⟩, ⟨50000, 0⟩, ⟨50000, 970⟩, ⟨32767, 2047⟩, ⟨0, 4095⟩, ⟨0, 0⟩]

example : IsBox unitBox 0 0 1 1 :=
  ⟨by decide +kernel, by decide +kernel, by decide +kernel, by decide +kernel, by norm_num, by norm_num,
    by decide +kernel, by decide +kernel⟩

example : List.Forall₂ (IsRegionOf .debug (ShapefileQuantizer.new unitBox)) [exCornerBitRecord] [exCornerBitRegion] := by
  refine .cons ⟨rfl, ?_⟩ .nil
  have e : (exCornerBitRecord.rings.map fun s => Ring.points (s.map (ShapefileQuantizer.new unitBox).quantize)) =
      [.points [⟨0, 0⟩, ⟨65535, 0⟩, ⟨32767, 2047⟩, ⟨0, 4095⟩, ⟨0, 0⟩]] := by decide +kernel
  rw [e]
  exact .left (show (0 : Int) ≤ _ by decide +kernel) .nil

example : ∀ record ∈ [exCornerBitRecord], ∀ ring ∈ record.rings, ring.head? = ring.getLast? ∧ ∀ p ∈ ring, InsideBox 0 0 1 1 p := by
  intro record hr ring hring
  obtain rfl := List.mem_singleton.mp hr
  obtain rfl := List.mem_singleton.mp hring
  refine ⟨rfl, fun p hp => ?_⟩
  simp only [exCornerBit, List.mem_cons, List.not_mem_nil, or_false] at hp
  rcases hp with rfl | rfl | rfl | rfl | rfl
  · exact ⟨0, 1, ⟨by decide +kernel, by decide +kernel⟩, by norm_num, by norm_num⟩
  · exact ⟨1 / 65536, 1, ⟨by decide +kernel, by decide +kernel⟩, by norm_num, by norm_num⟩
  · exact ⟨1 / 131072, 2097151 / 2097152, ⟨by decide +kernel, by decide +kernel⟩, by norm_num, by norm_num⟩
  · exact ⟨0, 1048575 / 1048576, ⟨by decide +kernel, by decide +kernel⟩, by norm_num, by norm_num⟩
  · exact ⟨0, 1, ⟨by decide +kernel, by decide +kernel⟩, by norm_num, by norm_num⟩

theorem exCornerBit_run : buildTopology .debug [exCornerBitRegion] = .ok exCornerBitBuilt ∧
    normalize .debug exCornerBitBuilt = .ok exCornerBitNormal ∧
    clipTopology .debug exCornerBitNormal (.maxX 50000) = .ok exCornerBitClipped ∧
    simplify .debug exCornerBitClipped 1000 =
      .ok (exCornerBitTopology [⟨0, 0⟩, ⟨50000, 970⟩, ⟨32767, 2047⟩, ⟨0, 4095⟩, ⟨0, 0⟩]) :=
  ⟨by decide +kernel, by decide +kernel, by decide +kernel, by decide +kernel⟩

example : NoSelfEdges exCornerBitBuilt (allRings exCornerBitBuilt) := by
  unfold NoSelfEdges
  decide +kernel

example : ∀ mask ∈ [.maxX 50000], ProductsFit mask exCornerBitNormal := by
  intro mask hm
  obtain rfl := List.mem_singleton.mp hm
  exact (C76_checked (.maxX 50000) exCornerBitNormal exCornerBitClipped exCornerBit_run.2.2.1).1

example : ∀ region ∈ [exCornerBitRegion], areaOf (lostPart region) ≤ 0 := by
  intro region hr
  obtain rfl := List.mem_singleton.mp hr
  have : droppedRings exCornerBitRegion = [] := by decide +kernel
  simp [lostPart, this, areaOf]

example : ∀ done mask todo t, [.maxX 50000] = done ++ mask :: todo →
    done.foldlM (fun t mask => clipTopology .debug t mask) exCornerBitNormal = .ok t →
      ∀ r ∈ t.regions, areaOf (lostInside .debug mask t r) ≤ 0 := by
  intro done mask todo t he hd
  rcases done with _ | ⟨a, done⟩
  · obtain ⟨rfl, _⟩ := List.cons.inj he
    obtain rfl := Except.ok.inj hd
    exact lostInside_empty (by decide +kernel)
  · simp at he

example : ringsDepth unitBox [.maxX 50000] [exCornerBit] = 17233 ∧
    fans exCornerBitClipped [[0, 2, 3, 4, 5]] exCornerBitClipped.regions.head? = 48500000 := by
  exact ⟨by decide +kernel, by decide +kernel⟩

end TopoGeo
