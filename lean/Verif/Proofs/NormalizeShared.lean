import Verif.Props.Normalize
import Verif.Proofs.Runs
/-!
# Shared boundaries in normalized topologies: facts
-/

namespace TopoGeo

open Spec

/-! ## Walks -/

theorem mem_walks {δ : Type} {t : Topology δ} {A : Nat} {w : List ((Point × Point) × Sides)} :
    (A, w) ∈ walks t ↔ ∃ r, t.regions[A]? = some r ∧
      ((∃ ring ∈ r.outerRings, w = sidedSegs (wound t .clockwise ring)) ∨
       ∃ ring ∈ r.innerRings, w = sidedSegs (wound t .counterClockwise ring)) := by
  unfold walks
  rw [List.mem_flatMap]
  constructor
  · rintro ⟨⟨r, n⟩, hr, h⟩
    have hr := List.mk_mem_zipIdx_iff_getElem?.mp hr
    rcases List.mem_append.mp h with h | h
    · obtain ⟨ring, h1, h2⟩ := List.mem_map.mp h
      obtain ⟨rfl, rfl⟩ := Prod.mk.inj h2
      exact ⟨r, hr, Or.inl ⟨ring, h1, rfl⟩⟩
    · obtain ⟨ring, h1, h2⟩ := List.mem_map.mp h
      obtain ⟨rfl, rfl⟩ := Prod.mk.inj h2
      exact ⟨r, hr, Or.inr ⟨ring, h1, rfl⟩⟩
  · rintro ⟨r, hr, h⟩
    refine ⟨(r, A), List.mk_mem_zipIdx_iff_getElem?.mpr hr, ?_⟩
    rcases h with ⟨ring, h1, rfl⟩ | ⟨ring, h1, rfl⟩
    · exact List.mem_append.mpr (Or.inl (List.mem_map.mpr ⟨ring, h1, rfl⟩))
    · exact List.mem_append.mpr (Or.inr (List.mem_map.mpr ⟨ring, h1, rfl⟩))

/-- A segment of a walk is a segment of an edge of the ring. -/
theorem walk_segment {δ : Type} {t : Topology δ} {order : WindingOrder} {ring : TopoRing}
    {a : (Point × Point) × Sides} (h : a ∈ sidedSegs (wound t order ring)) :
    ∃ de ∈ ring.directedEdges, a.2 = sides t de.edge ∧
      (a.1 ∈ segs (pathOf t de) ∨ a.1.swap ∈ segs (pathOf t de)) := by
  obtain ⟨b, hb, ha⟩ := List.mem_flatMap.mp h
  obtain ⟨s, hs, rfl⟩ := List.mem_map.mp ha
  obtain ⟨de, hde, h1, h2⟩ := mem_wound hb
  refine ⟨de, hde, h1.symm, ?_⟩
  rcases h2 with h2 | h2
  · left; rw [← h2]; exact hs
  · right
    rw [h2, segs_reverse, List.mem_reverse, List.mem_map] at hs
    obtain ⟨s', hs', rfl⟩ := hs
    simpa using hs'

theorem segment_walked {δ : Type} {t : Topology δ} (order : WindingOrder) {ring : TopoRing} {de : DirectedEdge}
    (hde : de ∈ ring.directedEdges) {s : Point × Point} (hs : s ∈ segs (pathOf t de) ∨ s.swap ∈ segs (pathOf t de)) :
    (s, sides t de.edge) ∈ sidedSegs (wound t order ring) ∨
      (s.swap, sides t de.edge) ∈ sidedSegs (wound t order ring) := by
  have hb : (⟨pathOf t de, sides t de.edge⟩ : Bound) ∈ bounds t ring := List.mem_map_of_mem hde
  have hin : ∀ (s' : Point × Point) (p : List Point), (⟨p, sides t de.edge⟩ : Bound) ∈ wound t order ring → s' ∈ segs p →
      (s', sides t de.edge) ∈ sidedSegs (wound t order ring) := by
    intro s' p hp hs'
    exact List.mem_flatMap.mpr ⟨_, hp, List.mem_map.mpr ⟨s', hs', rfl⟩⟩
  by_cases ho : Oriented order (pathsOf t ring)
  · have hp : (⟨pathOf t de, sides t de.edge⟩ : Bound) ∈ wound t order ring := by
      unfold wound; rw [if_pos ho]; exact hb
    exact hs.imp (hin _ _ hp) (hin _ _ hp)
  · have hp : (⟨(pathOf t de).reverse, sides t de.edge⟩ : Bound) ∈ wound t order ring := by
      unfold wound turned
      rw [if_neg ho, List.mem_reverse]
      exact List.mem_map.mpr ⟨_, hb, rfl⟩
    have hrev : ∀ s' : Point × Point, s' ∈ segs (pathOf t de) → s'.swap ∈ segs (pathOf t de).reverse := by
      intro s' hs'
      rw [segs_reverse, List.mem_reverse]
      exact List.mem_map.mpr ⟨s', hs', rfl⟩
    rcases hs with hs | hs
    · exact Or.inr (hin _ _ hp (hrev _ hs))
    · exact Or.inl (hin _ _ hp (by simpa using hrev _ hs))

/-- What a walk passes over belongs to an edge that the region uses. -/
theorem walks_segment {δ : Type} {t : Topology δ} {A : Nat} {w : List ((Point × Point) × Sides)}
    (hw : (A, w) ∈ walks t) {a : (Point × Point) × Sides} (ha : a ∈ w) :
    ∃ r ring de, t.regions[A]? = some r ∧ ring ∈ r.outerRings ++ r.innerRings ∧ de ∈ ring.directedEdges ∧
      a.2 = sides t de.edge ∧ (a.1 ∈ segs (pathOf t de) ∨ a.1.swap ∈ segs (pathOf t de)) := by
  obtain ⟨r, hr, ⟨ring, hring, rfl⟩ | ⟨ring, hring, rfl⟩⟩ := mem_walks.mp hw
  · obtain ⟨de, h1, h2, h3⟩ := walk_segment ha
    exact ⟨r, ring, de, hr, by simp [hring], h1, h2, h3⟩
  · obtain ⟨de, h1, h2, h3⟩ := walk_segment ha
    exact ⟨r, ring, de, hr, by simp [hring], h1, h2, h3⟩

theorem segment_walks {δ : Type} {t : Topology δ} {A : Nat} {r : TopoRegion δ} (hr : t.regions[A]? = some r)
    {ring : TopoRing} (hring : ring ∈ r.outerRings ++ r.innerRings) {de : DirectedEdge}
    (hde : de ∈ ring.directedEdges) {s : Point × Point} (hs : s ∈ segs (pathOf t de) ∨ s.swap ∈ segs (pathOf t de)) :
    ∃ w, (A, w) ∈ walks t ∧ ((s, sides t de.edge) ∈ w ∨ (s.swap, sides t de.edge) ∈ w) := by
  rcases List.mem_append.mp hring with hring | hring
  · exact ⟨_, mem_walks.mpr ⟨r, hr, Or.inl ⟨ring, hring, rfl⟩⟩, segment_walked _ hde hs⟩
  · exact ⟨_, mem_walks.mpr ⟨r, hr, Or.inr ⟨ring, hring, rfl⟩⟩, segment_walked _ hde hs⟩

/-- A directed segment is walked in one place only. -/
theorem once_unique {δ : Type} {t : Topology δ} (h : ((walks t).flatMap fun w => w.2.map (·.1)).Nodup)
    {A A' : Nat} {w w' : List ((Point × Point) × Sides)} (hw : (A, w) ∈ walks t) (hw' : (A', w') ∈ walks t)
    {a b : (Point × Point) × Sides} (ha : a ∈ w) (hb : b ∈ w') (hab : a.1 = b.1) : A = A' ∧ w = w' ∧ a = b := by
  rw [List.nodup_flatMap] at h
  obtain ⟨h1, h2⟩ := h
  by_cases he : (A, w) = (A', w')
  · obtain ⟨rfl, rfl⟩ := Prod.mk.inj he
    exact ⟨rfl, rfl, List.inj_on_of_nodup_map (h1 _ hw) ha hb hab⟩
  · exfalso
    have hd : Std.Symm fun x y => Function.onFun List.Disjoint
        (fun w : Nat × List ((Point × Point) × Sides) => w.2.map (·.1)) x y :=
      ⟨fun x y hxy a ha hb => hxy hb ha⟩
    have := h2.forall hw hw' he
    exact this (List.mem_map_of_mem ha) (by rw [hab]; exact List.mem_map_of_mem hb)

theorem walks_nodup {δ : Type} {t : Topology δ} (h : ((walks t).flatMap fun w => w.2.map (·.1)).Nodup)
    {A : Nat} {w : List ((Point × Point) × Sides)} (hw : (A, w) ∈ walks t) : w.Nodup :=
  List.Nodup.of_map _ ((List.nodup_flatMap.mp h).1 _ hw)

/-! ## Users -/

theorem mem_ringsUsing {δ : Type} {t : Topology δ} {i A : Nat} :
    (∃ p ∈ ringsUsing t i, p.region = A) ↔ ∃ r ring de, t.regions[A]? = some r ∧
      ring ∈ r.outerRings ++ r.innerRings ∧ de ∈ ring.directedEdges ∧ de.edge = i := by
  unfold ringsUsing
  constructor
  · rintro ⟨p, hp, rfl⟩
    obtain ⟨⟨r, n⟩, hr, h⟩ := List.mem_flatMap.mp hp
    have hr := List.mk_mem_zipIdx_iff_getElem?.mp hr
    rcases List.mem_append.mp h with h | h
    all_goals
      obtain ⟨⟨ring, k⟩, hk, h⟩ := List.mem_flatMap.mp h
      obtain ⟨de, hde, rfl⟩ := List.mem_map.mp h
      have hk := List.mk_mem_zipIdx_iff_getElem?.mp hk
      obtain ⟨h1, h2⟩ := List.mem_filter.mp hde
      exact ⟨r, ring, de, hr, by simp [List.mem_of_getElem? hk], h1, by simpa using h2⟩
  · rintro ⟨r, ring, de, hr, hring, hde, he⟩
    have hf : de ∈ ring.directedEdges.filter (·.edge = i) := List.mem_filter.mpr ⟨hde, by simpa using he⟩
    rcases List.mem_append.mp hring with hring | hring
    all_goals
      obtain ⟨k, hk⟩ := List.mem_iff_getElem?.mp hring
    · exact ⟨⟨A, false, k⟩, List.mem_flatMap.mpr ⟨(r, A), List.mk_mem_zipIdx_iff_getElem?.mpr hr,
        List.mem_append.mpr (Or.inl (List.mem_flatMap.mpr ⟨(ring, k), List.mk_mem_zipIdx_iff_getElem?.mpr hk,
          List.mem_map.mpr ⟨de, hf, rfl⟩⟩))⟩, rfl⟩
    · exact ⟨⟨A, true, k⟩, List.mem_flatMap.mpr ⟨(r, A), List.mk_mem_zipIdx_iff_getElem?.mpr hr,
        List.mem_append.mpr (Or.inr (List.mem_flatMap.mpr ⟨(ring, k), List.mk_mem_zipIdx_iff_getElem?.mpr hk,
          List.mem_map.mpr ⟨de, hf, rfl⟩⟩))⟩, rfl⟩

theorem ringsUsing_sorted {δ : Type} (t : Topology δ) (i : Nat) :
    (ringsUsing t i).Pairwise fun p q => p.region ≤ q.region := by
  have key : ∀ (rs : List (TopoRegion δ)) (k : Nat), (List.Pairwise (fun p q => p.region ≤ q.region) <|
      (rs.zipIdx k).flatMap fun (x : TopoRegion δ × Nat) =>
        (x.1.outerRings.zipIdx.flatMap fun (y : TopoRing × Nat) =>
          (y.1.directedEdges.filter (·.edge = i)).map fun _ => (⟨x.2, false, y.2⟩ : RingPtr)) ++
        (x.1.innerRings.zipIdx.flatMap fun (y : TopoRing × Nat) =>
          (y.1.directedEdges.filter (·.edge = i)).map fun _ => (⟨x.2, true, y.2⟩ : RingPtr))) ∧
      ∀ p ∈ (rs.zipIdx k).flatMap fun (x : TopoRegion δ × Nat) =>
        (x.1.outerRings.zipIdx.flatMap fun (y : TopoRing × Nat) =>
          (y.1.directedEdges.filter (·.edge = i)).map fun _ => (⟨x.2, false, y.2⟩ : RingPtr)) ++
        (x.1.innerRings.zipIdx.flatMap fun (y : TopoRing × Nat) =>
          (y.1.directedEdges.filter (·.edge = i)).map fun _ => (⟨x.2, true, y.2⟩ : RingPtr)), k ≤ p.region := by
    intro rs
    induction rs with
    | nil => intro k; simp
    | cons r rs ih =>
      intro k
      obtain ⟨ih1, ih2⟩ := ih (k + 1)
      rw [List.zipIdx_cons, List.flatMap_cons]
      have hk : ∀ p ∈ (r.outerRings.zipIdx.flatMap fun (y : TopoRing × Nat) =>
          (y.1.directedEdges.filter (·.edge = i)).map fun _ => (⟨k, false, y.2⟩ : RingPtr)) ++
        (r.innerRings.zipIdx.flatMap fun (y : TopoRing × Nat) =>
          (y.1.directedEdges.filter (·.edge = i)).map fun _ => (⟨k, true, y.2⟩ : RingPtr)), p.region = k := by
        intro p hp
        rcases List.mem_append.mp hp with hp | hp
        all_goals
          obtain ⟨y, _, hp⟩ := List.mem_flatMap.mp hp
          obtain ⟨_, _, rfl⟩ := List.mem_map.mp hp
          rfl
      refine ⟨List.pairwise_append.mpr ⟨?_, ih1, ?_⟩, ?_⟩
      · refine List.Pairwise.imp_of_mem (R := fun _ _ => True) ?_ (List.pairwise_of_forall fun _ _ => trivial)
        intro a b ha hb _
        rw [hk a ha, hk b hb]
      · intro a ha b hb
        rw [hk a ha]
        have := ih2 b hb
        omega
      · intro p hp
        rcases List.mem_append.mp hp with hp | hp
        · exact (hk p hp).ge
        · have := ih2 p hp
          omega
  exact (key t.regions 0).1

/-- The sides of an edge with two users in different regions. -/
theorem sides_of_two {δ : Type} {t : Topology δ} {i A B : Nat} (hle : (ringsUsing t i).length ≤ 2) (hAB : A < B)
    (hA : ∃ p ∈ ringsUsing t i, p.region = A) (hB : ∃ p ∈ ringsUsing t i, p.region = B) :
    sides t i = (some A, some B) := by
  have hs := ringsUsing_sorted t i
  obtain ⟨p, hp, rfl⟩ := hA
  obtain ⟨q, hq, rfl⟩ := hB
  unfold sides
  match hu : ringsUsing t i with
  | [] => rw [hu] at hp; simp at hp
  | [x] =>
    rw [hu] at hp hq
    simp at hp hq
    subst hp hq
    omega
  | [x, y] =>
    rw [hu] at hp hq hs
    simp at hp hq hs
    rcases hp with rfl | rfl <;> rcases hq with rfl | rfl
    · omega
    · rfl
    · omega
    · omega
  | x :: y :: z :: l => rw [hu] at hle; simp at hle

theorem sides_of_one {δ : Type} {t : Topology δ} {i A : Nat} (hle : (ringsUsing t i).length ≤ 1)
    (hA : ∃ p ∈ ringsUsing t i, p.region = A) : sides t i = (some A, none) := by
  obtain ⟨p, hp, rfl⟩ := hA
  unfold sides
  match hu : ringsUsing t i with
  | [] => rw [hu] at hp; simp at hp
  | [x] => rw [hu] at hp; simp at hp; subst hp; rfl
  | x :: y :: l => rw [hu] at hle; simp at hle

/-- A user of an edge with two different regions has one of them on its side,
and the other one uses the edge, too. -/
theorem other_user {δ : Type} {t : Topology δ} {i A : Nat} (hle : (ringsUsing t i).length ≤ 2)
    (hne : (sides t i).1 ≠ (sides t i).2) (h2 : (sides t i).2 ≠ none) (hA : ∃ p ∈ ringsUsing t i, p.region = A) :
    ∃ B, B ≠ A ∧ (∃ p ∈ ringsUsing t i, p.region = B) ∧ sides t i = (some (min A B), some (max A B)) := by
  have hs := ringsUsing_sorted t i
  obtain ⟨p, hp, rfl⟩ := hA
  unfold sides at hne h2 ⊢
  match hu : ringsUsing t i with
  | [] => rw [hu] at hp; simp at hp
  | [x] => rw [hu] at h2; simp at h2
  | [x, y] =>
    rw [hu] at hp hne hs
    simp at hp hne hs
    rcases hp with rfl | rfl
    · refine ⟨y.region, fun h => hne h.symm, ⟨y, by simp, rfl⟩, ?_⟩
      simp [hs]
    · refine ⟨x.region, hne, ⟨x, by simp, rfl⟩, ?_⟩
      simp [hs]
  | x :: y :: z :: l => rw [hu] at hle; simp at hle

/-! ## What becomes of the rings -/

/-- What is known of a ring of the normalized topology that came from `w`. -/
structure Turns {δ : Type} (t' : Topology δ) (w : List ((Point × Point) × Sides)) (ring' : TopoRing) (n : NormRing) :
    Prop where
  paths : pathsOf t' ring' = npts n
  nice : NiceRing n
  extended : Extended n
  nonzero : wrap64 (shoelaceEdges (npts n)) ≠ 0
  bounded : wrap64 (shoelaceEdges (npts n)) ≠ -2 ^ 63
  segs : nsegs n ~r w

/-- What is known of the outer or inner rings of a region. -/
structure Unmerged {δ : Type} (t t' : Topology δ) (order : WindingOrder) (rings rings' : List TopoRing) : Prop where
  left : ∀ ring ∈ rings, ∃ ring' ∈ rings', ∃ n, Turns t' (sidedSegs (wound t order ring)) ring' n
  right : ∀ ring' ∈ rings', ∃ ring ∈ rings, ∃ n, Turns t' (sidedSegs (wound t order ring)) ring' n

theorem bounded_of_normalizedRing {δ : Type} {t : Topology δ} {order : WindingOrder} {ring : TopoRing} {n : NormRing}
    (h : NormalizedRing t order ring n) (hmin : wrap64 (shoelaceEdges (pathsOf t ring)) ≠ -2 ^ 63) :
    wrap64 (shoelaceEdges (npts n)) ≠ -2 ^ 63 := by
  have hs := h.segs
  rw [wound_nedges] at hs
  have := shoelaceEdges_of_perm hs.perm
  by_cases ho : Oriented order (pathsOf t ring)
  · rw [if_pos ho, npts_nedges] at this
    rw [this]; exact hmin
  · rw [if_neg ho, npts_nturned, shoelaceEdges_reverse, npts_nedges] at this
    rw [this, wrap64_neg' hmin]
    have := inI64_wrap64 (shoelaceEdges (pathsOf t ring))
    unfold InI64 at this
    omega

theorem normalize_unmerged {δ : Type} {m : Build} {t t' : Topology δ} (hw : WellFormed t)
    (hs : NoSelfEdges t (allRings t)) (ho : ∀ r ∈ t.regions, r.outerRings ≠ [])
    (hmin : ∀ ring ∈ allRings t, wrap64 (shoelaceEdges (pathsOf t ring)) ≠ -2 ^ 63)
    (h : normalize m t = .ok t') :
    List.Forall₂ (fun r r' => Unmerged t t' .clockwise r.outerRings r'.outerRings ∧
      Unmerged t t' .counterClockwise r.innerRings r'.innerRings) t.regions t'.regions := by
  obtain ⟨rs, h1, h2⟩ := normalize_rebuilt hw.pointers hw.closed h
  have h7 := C07_round_trip m rs t' h1
  -- what is known about one list of rings
  have key : ∀ (order : WindingOrder) (rings : List TopoRing) (ns out merged : List NormRing),
      (∀ ring ∈ rings, ring ∈ allRings t) → NormalizedRings t order rings ns out merged →
      (keptRings (out.map normRingToRing)).map ringPaths = out.map npts ∧ out.length = rings.length ∧
      ∀ rings', List.Forall₂ (ReadsAs t'.edges) (out.map npts) rings' → Unmerged t t' order rings rings' := by
    intro order rings ns out merged hr hn
    have hx := extended_singles hw hr hn.single
    obtain ⟨_, _, hp⟩ := noSelf_plain hn (fun ring hring de hde => hs ring (hr ring hring) de hde) hx
    refine ⟨?_, ?_, ?_⟩
    · rw [keptRings_normRings fun n hno => hx n (hp.mem_iff.mp hno), List.filter_eq_self]
      intro ps hps
      obtain ⟨n, hno, rfl⟩ := List.mem_map.mp hps
      obtain ⟨ring, hring, hnr⟩ := forall₂_exists_left hn.single (hp.mem_iff.mp hno)
      simpa using hnr.nonzero
    · rw [hp.length_eq, hn.single.length_eq]
    · intro rings' hreads
      have hturn : ∀ ring ∈ rings, ∀ ring' ∈ rings', ∀ n, n ∈ ns → NormalizedRing t order ring n →
          ReadsAs t'.edges (npts n) ring' → Turns t' (sidedSegs (wound t order ring)) ring' n := by
        intro ring hring ring' _ n hn' hnr hread
        exact ⟨pathsOf_reads hread, hnr.nice, hx n hn', hnr.nonzero,
          bounded_of_normalizedRing hnr (hmin ring (hr ring hring)), hnr.segs⟩
      constructor
      · intro ring hring
        obtain ⟨n, hn', hnr⟩ := forall₂_exists_right hn.single hring
        obtain ⟨ring', hr', hread⟩ := forall₂_exists_right hreads (List.mem_map_of_mem (hp.mem_iff.mpr hn'))
        exact ⟨ring', hr', n, hturn ring hring ring' hr' n hn' hnr hread⟩
      · intro ring' hr'
        obtain ⟨ps, hps, hread⟩ := forall₂_exists_left hreads hr'
        obtain ⟨n, hno, rfl⟩ := List.mem_map.mp hps
        have hn' := hp.mem_iff.mp hno
        obtain ⟨ring, hring, hnr⟩ := forall₂_exists_left hn.single hn'
        exact ⟨ring, hring, n, hturn ring hring ring' hr' n hn' hnr hread⟩
  -- no region is dropped
  have hkept : keptRegions rs = rs.map fun r =>
      ⟨r.data, (keptRings r.outerRings).map ringPaths, (keptRings r.innerRings).map ringPaths⟩ := by
    unfold keptRegions
    congr 1
    rw [List.filter_eq_self]
    intro r' hr'
    obtain ⟨r, hr, _, outer, inner, e1, e2, ⟨n1, m1, g1⟩, _⟩ := forall₂_exists_left h2 hr'
    obtain ⟨k1, k2, _⟩ := key _ _ _ _ _ (mem_allRings_outer hr) g1
    rw [e1]
    simp only [ne_eq, decide_not, Bool.not_eq_eq_eq_not, Bool.not_true, decide_eq_false_iff_not]
    intro h0
    rw [h0] at k1
    have := ho r hr
    have h3 : outer.length = 0 := by simpa using (congrArg List.length k1).symm
    rw [h3] at k2
    exact this (List.eq_nil_of_length_eq_zero k2.symm)
  rw [hkept, List.forall₂_map_left_iff] at h7
  have hmem : ∀ {α β : Type} {R : α → β → Prop} {l : List α} {l' : List β}, List.Forall₂ R l l' →
      List.Forall₂ (fun a b => a ∈ l ∧ R a b) l l' := fun h => forall₂_imp_left h fun a ha b hab => ⟨ha, hab⟩
  refine forall₂_comp (hmem h2) h7 ?_
  rintro r r1 r' ⟨hr, hd, outer, inner, e1, e2, ⟨n1, m1, g1⟩, ⟨n2, m2, g2⟩⟩ ⟨hd', h8, h9⟩
  obtain ⟨a1, a2, a3⟩ := key _ _ _ _ _ (mem_allRings_outer hr) g1
  obtain ⟨b1, b2, b3⟩ := key _ _ _ _ _ (mem_allRings_inner hr) g2
  simp only [e1, a1] at h8
  simp only [e2, b1] at h9
  exact ⟨a3 _ h8, b3 _ h9⟩

theorem forall₂_getElem? {α β : Type} {R : α → β → Prop} {l : List α} {l' : List β} (h : List.Forall₂ R l l') {i : Nat}
    {a : α} (ha : l[i]? = some a) : ∃ b, l'[i]? = some b ∧ R a b := by
  induction h generalizing i with
  | nil => simp at ha
  | @cons x y xs ys hr _ ih =>
    cases i with
    | zero =>
      simp only [List.getElem?_cons_zero, Option.some.injEq] at ha ⊢
      subst ha
      exact ⟨_, rfl, hr⟩
    | succ i =>
      simp only [List.getElem?_cons_succ] at ha ⊢
      exact ih ha

/-- The relation between the two topologies that the rest builds on. -/
structure Kept {δ : Type} (t t' : Topology δ) : Prop where
  walk : ∀ A w, (A, w) ∈ walks t → ∃ r' ring' n, t'.regions[A]? = some r' ∧ ring' ∈ r'.outerRings ++ r'.innerRings ∧
    Turns t' w ring' n
  ring : ∀ A r' ring', t'.regions[A]? = some r' → ring' ∈ r'.outerRings ++ r'.innerRings →
    ∃ w n, (A, w) ∈ walks t ∧ Turns t' w ring' n

theorem kept_of_normalize {δ : Type} {m : Build} {t t' : Topology δ} (hw : WellFormed t)
    (hs : NoSelfEdges t (allRings t)) (ho : ∀ r ∈ t.regions, r.outerRings ≠ [])
    (hmin : ∀ ring ∈ allRings t, wrap64 (shoelaceEdges (pathsOf t ring)) ≠ -2 ^ 63)
    (h : normalize m t = .ok t') : Kept t t' := by
  have hf := normalize_unmerged hw hs ho hmin h
  constructor
  · intro A w hA
    obtain ⟨r, hr, hw⟩ := mem_walks.mp hA
    obtain ⟨r', hr', hu, hi⟩ := forall₂_getElem? hf hr
    rcases hw with ⟨ring, hring, rfl⟩ | ⟨ring, hring, rfl⟩
    · obtain ⟨ring', h1, n, h2⟩ := hu.left ring hring
      exact ⟨r', ring', n, hr', by simp [h1], h2⟩
    · obtain ⟨ring', h1, n, h2⟩ := hi.left ring hring
      exact ⟨r', ring', n, hr', by simp [h1], h2⟩
  · intro A r' ring' hr' hring
    obtain ⟨r, hr, hu, hi⟩ := forall₂_getElem? hf.flip hr'
    rcases List.mem_append.mp hring with hring | hring
    · obtain ⟨ring, h1, n, h2⟩ := hu.right ring' hring
      exact ⟨_, n, mem_walks.mpr ⟨r, hr, Or.inl ⟨ring, h1, rfl⟩⟩, h2⟩
    · obtain ⟨ring, h1, n, h2⟩ := hi.right ring' hring
      exact ⟨_, n, mem_walks.mpr ⟨r, hr, Or.inr ⟨ring, h1, rfl⟩⟩, h2⟩

/-! ## Edges are maximal runs -/

/-- Segments that follow each other with the same regions on their sides. -/
def Joins {δ : Type} (t : Topology δ) (a b : (Point × Point) × Sides) : Prop :=
  a.2 = b.2 ∧ ∃ w ∈ walks t, Adjoins w.2 a b

theorem joins_right_unique {δ : Type} {t : Topology δ} (h : ((walks t).flatMap fun w => w.2.map (·.1)).Nodup)
    (a b c : (Point × Point) × Sides) (h1 : Joins t a b) (h2 : Joins t a c) : b = c := by
  obtain ⟨_, ⟨A, w⟩, hw, hf⟩ := h1
  obtain ⟨_, ⟨A', w'⟩, hw', hf'⟩ := h2
  obtain ⟨_, rfl, _⟩ := once_unique h hw hw' (adjoins_mem hf).1 (adjoins_mem hf').1 rfl
  exact adjoins_right_unique (walks_nodup h hw) hf hf'

theorem joins_left_unique {δ : Type} {t : Topology δ} (h : ((walks t).flatMap fun w => w.2.map (·.1)).Nodup)
    (a b c : (Point × Point) × Sides) (h1 : Joins t b a) (h2 : Joins t c a) : b = c := by
  obtain ⟨_, ⟨A, w⟩, hw, hf⟩ := h1
  obtain ⟨_, ⟨A', w'⟩, hw', hf'⟩ := h2
  obtain ⟨_, rfl, _⟩ := once_unique h hw hw' (adjoins_mem hf).2 (adjoins_mem hf').2 rfl
  exact adjoins_left_unique (walks_nodup h hw) hf hf'

/-- The segments of an edge with its sides. -/
def edgeSegs (e : NormEdge) : List ((Point × Point) × Sides) := (segs e.points).map fun s => (s, e.regions)

theorem mem_edgeSegs {e : NormEdge} {a : (Point × Point) × Sides} (h : a ∈ edgeSegs e) : a.2 = e.regions := by
  obtain ⟨s, _, rfl⟩ := List.mem_map.mp h
  rfl

theorem edgeSegs_ne_nil {e : NormEdge} (h : ¬ ZeroLength e.points) : edgeSegs e ≠ [] := by
  unfold edgeSegs
  match hp : e.points with
  | [] => exact absurd (Or.inl (by simp [hp])) h
  | [p] => exact absurd (Or.inl (by simp [hp])) h
  | p :: q :: l => simp [segs]

theorem isChain_of_inner {α : Type} {R : α → α → Prop} {l : List α} (h : ∀ l1 a b l2, l = l1 ++ a :: b :: l2 → R a b) :
    l.IsChain R := by
  induction l with
  | nil => exact .nil
  | cons a l ih =>
    cases l with
    | nil => exact .singleton _
    | cons b l =>
      rw [List.isChain_cons_cons]
      exact ⟨h [] a b l rfl, ih fun l1 x y l2 he => h (a :: l1) x y l2 (by rw [he]; rfl)⟩

theorem cyclicallyDistinct_first {α : Type} {x y : α} {l : List α} (h : CyclicallyDistinct (x :: y :: l)) : x ≠ y := by
  rcases h with h | h
  · simp at h
  · simp only [List.cons_append, List.isChain_cons_cons] at h
    exact h.1

theorem cyclicallyDistinct_last {α : Type} {x y : α} {l : List α} (h : CyclicallyDistinct (x :: l ++ [y])) : y ≠ x := by
  rcases h with h | h
  · simp at h
  · rw [show (x :: l ++ [y]).take 1 = [x] by simp, List.isChain_append] at h
    exact h.2.2 y (by rw [List.getLast?_concat]; rfl) x rfl

theorem edge_run {δ : Type} {t t' : Topology δ} (ho : ((walks t).flatMap fun w => w.2.map (·.1)).Nodup) {A : Nat}
    {w : List ((Point × Point) × Sides)} (hA : (A, w) ∈ walks t) {ring' : TopoRing} {n : NormRing}
    (ht : Turns t' w ring' n) {e : NormEdge} (he : e ∈ n) :
    Run (Joins t) (edgeSegs e) ∧ (Cyclic (Joins t) (edgeSegs e) → n = [e]) := by
  obtain ⟨n1, n2, rfl⟩ := List.append_of_mem he
  have hrot : (edgeSegs e ++ nsegs (n2 ++ n1)) ~r w := by
    refine List.IsRotated.trans ?_ ht.segs
    rw [nsegs_append, nsegs_append, nsegs_cons, ← List.append_assoc]
    exact List.isRotated_append
  have hcyc : CyclicallyDistinct (nsides (e :: (n2 ++ n1))) := by
    have := cyclicallyDistinct_rotate (a := nsides n1) (b := nsides (e :: n2)) (by
      have := ht.nice.cyclic
      simpa [nsides] using this)
    simpa [nsides] using this
  have hnd : (edgeSegs e ++ nsegs (n2 ++ n1)).Nodup := hrot.nodup_iff.mpr (walks_nodup ho hA)
  have hne := edgeSegs_ne_nil (ht.extended e he)
  have hfol : ∀ a b, Adjoins (edgeSegs e ++ nsegs (n2 ++ n1)) a b → a.2 = b.2 → Joins t a b :=
    fun a b hf hs => ⟨hs, (A, w), hA, (adjoins_isRotated hrot).mp hf⟩
  have hback : ∀ a b, a ∈ edgeSegs e ∨ b ∈ edgeSegs e → Joins t a b → Adjoins (edgeSegs e ++ nsegs (n2 ++ n1)) a b := by
    rintro a b hab ⟨_, ⟨A', w'⟩, hw', hf⟩
    have hw : w = w' := by
      rcases hab with ha | hb
      · exact (once_unique ho hA hw' (hrot.mem_iff.mp (List.mem_append_left _ ha)) (adjoins_mem hf).1 rfl).2.1
      · exact (once_unique ho hA hw' (hrot.mem_iff.mp (List.mem_append_left _ hb)) (adjoins_mem hf).2 rfl).2.1
    subst hw
    exact (adjoins_isRotated hrot).mpr hf
  have hchain : (edgeSegs e).IsChain (Joins t) := by
    refine isChain_of_inner fun l1 a b l2 hl => hfol a b ?_ ?_
    · rw [hl, List.append_assoc]
      exact adjoins_inner l1 _ a b
    · rw [mem_edgeSegs (e := e) (a := a) (by rw [hl]; simp), mem_edgeSegs (e := e) (a := b) (by rw [hl]; simp)]
  by_cases hrest : n2 ++ n1 = []
  · obtain ⟨rfl, rfl⟩ := List.append_eq_nil_iff.mp hrest
    refine ⟨⟨hne, hchain, hnd.of_append_left, Or.inr ?_⟩, fun _ => rfl⟩
    intro a z ha hz
    refine hfol z a ?_ ?_
    · simp only [List.append_nil, nsegs, List.flatMap_nil]
      exact adjoins_wrap ha hz
    · rw [mem_edgeSegs (List.mem_of_head? ha), mem_edgeSegs (List.mem_of_getLast? hz)]
  · have hopen : (∀ a, (edgeSegs e).head? = some a → ∀ b, ¬ Joins t b a) ∧
        ∀ z, (edgeSegs e).getLast? = some z → ∀ b, ¬ Joins t z b := by
      have hext : ∀ f ∈ n2 ++ n1, ¬ ZeroLength f.points := by
        intro f hf
        refine ht.extended f ?_
        simp only [List.mem_append, List.mem_cons] at hf ⊢
        tauto
      constructor
      · intro a ha b hj
        have hf := hback b a (Or.inr (List.mem_of_head? ha)) hj
        obtain ⟨init, e0, hl⟩ : ∃ init e0, n2 ++ n1 = init ++ [e0] := by
          rcases List.eq_nil_or_concat (n2 ++ n1) with h | ⟨i, x, h⟩
          · exact absurd h hrest
          · exact ⟨i, x, by simpa using h⟩
        rw [hl] at hf hcyc hnd hext
        obtain ⟨z, hz⟩ : ∃ z, (edgeSegs e0).getLast? = some z :=
          Option.isSome_iff_exists.mp (by rw [List.getLast?_isSome]; exact edgeSegs_ne_nil (hext e0 (by simp)))
        have hlast : (edgeSegs e ++ nsegs (init ++ [e0])).getLast? = some z := by
          have : edgeSegs e ++ nsegs (init ++ [e0]) = edgeSegs e ++ nsegs init ++ edgeSegs e0 := by
            rw [nsegs_append, List.append_assoc]
            simp [nsegs, edgeSegs]
          rw [this, List.getLast?_append_of_ne_nil _ (edgeSegs_ne_nil (hext e0 (by simp)))]
          exact hz
        have hhead : (edgeSegs e ++ nsegs (init ++ [e0])).head? = some a := by
          rw [List.head?_append_of_ne_nil _ hne]; exact ha
        have hbz := adjoins_left_unique hnd hf (adjoins_wrap hhead hlast)
        have h1 : b.2 = e0.regions := by rw [hbz]; exact mem_edgeSegs (List.mem_of_getLast? hz)
        have h2 : a.2 = e.regions := mem_edgeSegs (List.mem_of_head? ha)
        refine cyclicallyDistinct_last (x := e.regions) (y := e0.regions) (l := nsides init) ?_ ?_
        · simpa [nsides] using hcyc
        · rw [← h1, ← h2]; exact hj.1
      · intro z hz b hj
        have hf := hback z b (Or.inl (List.mem_of_getLast? hz)) hj
        obtain ⟨e1, rest, hl⟩ := List.exists_cons_of_ne_nil hrest
        rw [hl] at hf hcyc hnd hext
        obtain ⟨c, l, hc⟩ := List.exists_cons_of_ne_nil (edgeSegs_ne_nil (hext e1 (by simp)))
        obtain ⟨init, hi⟩ := List.getLast?_eq_some_iff.mp hz
        have hL : edgeSegs e ++ nsegs (e1 :: rest) = init ++ z :: c :: (l ++ nsegs rest) := by
          rw [nsegs_cons, show (segs e1.points).map (fun s => (s, e1.regions)) = edgeSegs e1 from rfl, hc, hi]
          simp
        have hbc : b = c := by
          rw [hL] at hf hnd
          exact adjoins_right_unique hnd hf (adjoins_inner _ _ _ _)
        have h1 : b.2 = e1.regions := by rw [hbc]; exact mem_edgeSegs (by rw [hc]; simp)
        have h2 : z.2 = e.regions := mem_edgeSegs (List.mem_of_getLast? hz)
        refine cyclicallyDistinct_first (x := e.regions) (y := e1.regions) (l := nsides rest) ?_ ?_
        · simpa [nsides] using hcyc
        · rw [← h1, ← h2]; exact hj.1
    refine ⟨⟨hne, hchain, hnd.of_append_left, Or.inl hopen⟩, ?_⟩
    intro hy
    exfalso
    obtain ⟨a, l, ha⟩ := List.exists_cons_of_ne_nil hne
    obtain ⟨z, hz⟩ : ∃ z, (edgeSegs e).getLast? = some z :=
      Option.isSome_iff_exists.mp (by rw [List.getLast?_isSome]; exact hne)
    have ha' : (edgeSegs e).head? = some a := by rw [ha]; rfl
    exact hopen.1 a ha' z (hy a z ha' hz)

/-! ## The other side of an edge -/

theorem swapSeg_swapSeg (a : (Point × Point) × Sides) : swapSeg (swapSeg a) = a := by simp [swapSeg]

theorem joins_swap {δ : Type} {t : Topology δ} (ht : Tidy t) {a b : (Point × Point) × Sides} (h : Joins t a b)
    (h2 : a.2.2 ≠ none) : Joins t (swapSeg b) (swapSeg a) := by
  obtain ⟨hs, w, hw, hf⟩ := h
  obtain ⟨w', hw', hf'⟩ := ht.matched w hw a b hf hs h2
  exact ⟨hs.symm, w', hw', hf'⟩

/-- The same edge, walked the other way. -/
def flipEdge (e : NormEdge) : NormEdge := ⟨e.points.reverse, e.regions⟩

theorem edgeSegs_flip (e : NormEdge) : edgeSegs (flipEdge e) = ((edgeSegs e).map swapSeg).reverse := by
  unfold edgeSegs flipEdge
  rw [segs_reverse, ← List.map_reverse, ← List.map_reverse, ← List.map_reverse, List.map_map, List.map_map]
  rfl

theorem run_swap {δ : Type} {t : Topology δ} (ht : Tidy t) {e : NormEdge} (h2 : e.regions.2 ≠ none)
    (h : Run (Joins t) (edgeSegs e)) :
    Run (Joins t) (edgeSegs (flipEdge e)) ∧ (Cyclic (Joins t) (edgeSegs (flipEdge e)) → Cyclic (Joins t) (edgeSegs e)) := by
  have hsw : ∀ {a b}, a ∈ edgeSegs e ∨ b ∈ edgeSegs e → (Joins t a b ↔ Joins t (swapSeg b) (swapSeg a)) := by
    intro a b hab
    constructor
    · intro hj
      refine joins_swap ht hj ?_
      rcases hab with ha | hb
      · rw [mem_edgeSegs ha]; exact h2
      · rw [hj.1, mem_edgeSegs hb]; exact h2
    · intro hj
      have hs : b.2 = a.2 := hj.1
      have := joins_swap ht hj (by
        show b.2.2 ≠ none
        rcases hab with ha | hb
        · rw [hs, mem_edgeSegs ha]; exact h2
        · rw [mem_edgeSegs hb]; exact h2)
      rw [swapSeg_swapSeg, swapSeg_swapSeg] at this
      exact this
  have hhead : ∀ a, (edgeSegs (flipEdge e)).head? = some a ↔ (edgeSegs e).getLast? = some (swapSeg a) := by
    intro a
    rw [edgeSegs_flip, List.head?_reverse, List.getLast?_map, Option.map_eq_some_iff]
    constructor
    · rintro ⟨b, hb, rfl⟩; rw [swapSeg_swapSeg]; exact hb
    · intro hb; exact ⟨_, hb, swapSeg_swapSeg a⟩
  have hlast : ∀ a, (edgeSegs (flipEdge e)).getLast? = some a ↔ (edgeSegs e).head? = some (swapSeg a) := by
    intro a
    rw [edgeSegs_flip, List.getLast?_reverse, List.head?_map, Option.map_eq_some_iff]
    constructor
    · rintro ⟨b, hb, rfl⟩; rw [swapSeg_swapSeg]; exact hb
    · intro hb; exact ⟨_, hb, swapSeg_swapSeg a⟩
  have hcyc : Cyclic (Joins t) (edgeSegs (flipEdge e)) ↔ Cyclic (Joins t) (edgeSegs e) := by
    constructor
    · intro hy a z ha hz
      rw [hsw (Or.inr (List.mem_of_head? ha))]
      refine hy _ _ ((hhead _).mpr (by rw [swapSeg_swapSeg]; exact hz)) ((hlast _).mpr (by rw [swapSeg_swapSeg]; exact ha))
    · intro hy a z ha hz
      have ha := (hhead a).mp ha
      have hz := (hlast z).mp hz
      have := (hsw (Or.inl (List.mem_of_getLast? ha))).mp (hy _ _ hz ha)
      rw [swapSeg_swapSeg, swapSeg_swapSeg] at this
      exact this
  refine ⟨⟨?_, ?_, ?_, ?_⟩, hcyc.mp⟩
  · rw [edgeSegs_flip]
    have := h.ne
    simpa using this
  · rw [edgeSegs_flip, List.isChain_reverse, List.isChain_map]
    have hc := h.chain
    have : ∀ l : List ((Point × Point) × Sides), (∀ a ∈ l, a ∈ edgeSegs e) → l.IsChain (Joins t) →
        l.IsChain fun a b => Joins t (swapSeg b) (swapSeg a) := by
      intro l
      induction l with
      | nil => intro _ _; exact .nil
      | cons a l ih =>
        cases l with
        | nil => intro _ _; exact .singleton _
        | cons b l =>
          intro hm hl
          rw [List.isChain_cons_cons] at hl ⊢
          exact ⟨(hsw (Or.inl (hm a (by simp)))).mp hl.1, ih (fun x hx => hm x (by simp [hx])) hl.2⟩
    exact this _ (fun _ h => h) hc
  · rw [edgeSegs_flip, List.nodup_reverse]
    exact h.nodup.map fun a b hab => by rw [← swapSeg_swapSeg a, hab, swapSeg_swapSeg]
  · rcases h.ends with ho | hy
    · left
      constructor
      · intro a ha b hj
        have ha := (hhead a).mp ha
        refine ho.2 _ ha (swapSeg b) ?_
        rw [hsw (Or.inl (List.mem_of_getLast? ha)), swapSeg_swapSeg, swapSeg_swapSeg]
        exact hj
      · intro z hz b hj
        have hz := (hlast z).mp hz
        refine ho.1 _ hz (swapSeg b) ?_
        rw [hsw (Or.inr (List.mem_of_head? hz)), swapSeg_swapSeg, swapSeg_swapSeg]
        exact hj
    · exact Or.inr (hcyc.mpr hy)

theorem path_of_segs (l : List Point) (h : l ≠ []) : ∃ p, l.head? = some p ∧ l = p :: (segs l).map (·.2) := by
  induction l with
  | nil => exact absurd rfl h
  | cons p l ih =>
    cases l with
    | nil => exact ⟨p, rfl, rfl⟩
    | cons q l =>
      obtain ⟨_, h1, h2⟩ := ih (by simp)
      obtain rfl := Option.some.inj h1
      refine ⟨p, rfl, ?_⟩
      rw [segs, List.map_cons, ← h2]

theorem segs_head (l : List Point) (h : segs l ≠ []) : (segs l).head?.map (·.1) = l.head? := by
  match l with
  | [] => exact absurd rfl h
  | [p] => exact absurd rfl h
  | p :: q :: l => rfl

theorem segs_injective {l l' : List Point} (h : segs l ≠ []) (he : segs l = segs l') : l = l' := by
  have h' : segs l' ≠ [] := by rw [← he]; exact h
  obtain ⟨p, h1, h2⟩ := path_of_segs l (by rintro rfl; exact h rfl)
  obtain ⟨q, h3, h4⟩ := path_of_segs l' (by rintro rfl; exact h' rfl)
  have : p = q := by
    have g1 := segs_head l h
    have g2 := segs_head l' h'
    rw [he, g2, h1, h3] at g1
    exact (Option.some.inj g1).symm
  rw [h2, h4, he, this]

theorem edgeSegs_fst (e : NormEdge) : (edgeSegs e).map (·.1) = segs e.points := by
  unfold edgeSegs
  rw [List.map_map]
  simp [Function.comp_def]

theorem edgeSegs_injective {e f : NormEdge} (hne : edgeSegs e ≠ []) (h : edgeSegs e = edgeSegs f) :
    e.points = f.points ∧ e.regions = f.regions := by
  constructor
  · refine segs_injective ?_ ?_
    · intro h0
      apply hne
      unfold edgeSegs
      rw [h0]; rfl
    · rw [← edgeSegs_fst, h, edgeSegs_fst]
  · obtain ⟨a, l, ha⟩ := List.exists_cons_of_ne_nil hne
    rw [← mem_edgeSegs (e := e) (a := a) (by rw [ha]; simp), ← mem_edgeSegs (e := f) (a := a) (by rw [← h, ha]; simp)]

theorem rotated_eq {α β : Type} {f : α → β} {l k : List α} (hr : l ~r k) (hn : (l.map f).Nodup)
    (hh : l.head?.map f = k.head?.map f) : l = k := by
  obtain ⟨j, rfl⟩ := hr
  cases l with
  | nil => simp
  | cons a l =>
    have hpos : 0 < (a :: l).length := by simp
    rw [← List.rotate_mod] at hh ⊢
    have hlt := Nat.mod_lt j hpos
    generalize j % (a :: l).length = i at hh hlt ⊢
    rw [List.head?_eq_getElem?, List.head?_eq_getElem?, List.getElem?_rotate hpos, Nat.zero_add, Nat.mod_eq_of_lt hlt,
      ← List.getElem?_map, ← List.getElem?_map, List.getElem?_eq_getElem (by simp), List.getElem?_eq_getElem (by simpa using hlt)] at hh
    have := hn.getElem_inj_iff.mp (Option.some.inj hh)
    subst this
    simp

theorem segs_fst_mem {l : List Point} {s : Point × Point} (h : s ∈ segs l) : s.1 ∈ l ∧ s.2 ∈ l := by
  induction l with
  | nil => simp [segs] at h
  | cons p l ih =>
    cases l with
    | nil => simp [segs] at h
    | cons q l =>
      simp only [segs, List.mem_cons] at h
      rcases h with rfl | h
      · simp
      · have := ih h
        simp only [List.mem_cons] at this ⊢
        exact ⟨Or.inr this.1, Or.inr this.2⟩

theorem closedRing_single {e : List Point} (h : ClosedRing [e]) : e.head? = e.getLast? := by
  obtain ⟨_, a, h⟩ := h
  obtain ⟨h1, h2⟩ := leads_single.mp h
  rw [h1, h2]

/-- An edge between two regions has a counterpart in a ring of the other
region. -/
theorem counterpart {δ : Type} {t t' : Topology δ} (hT : Tidy t) (hb : BackPointersExact t)
    (hs : NoSelfEdges t (allRings t)) (hk : Kept t t') {A : Nat}
    {w : List ((Point × Point) × Sides)} (hA : (A, w) ∈ walks t) {ring' : TopoRing} {n : NormRing}
    (ht : Turns t' w ring' n) {e : NormEdge} (he : e ∈ n) (h2 : e.regions.2 ≠ none) :
    ∃ B w' r'' ring'' n' e', B ≠ A ∧ (B, w') ∈ walks t ∧ t'.regions[B]? = some r'' ∧
      ring'' ∈ r''.outerRings ++ r''.innerRings ∧ Turns t' w' ring'' n' ∧ e' ∈ n' ∧
      e'.points = e.points.reverse ∧ e'.regions = e.regions ∧ e.regions = (some (min A B), some (max A B)) := by
  obtain ⟨hrun, hone⟩ := edge_run hT.once hA ht he
  obtain ⟨hrun2, hcyc2⟩ := run_swap hT h2 hrun
  obtain ⟨a, l, hal⟩ := List.exists_cons_of_ne_nil hrun.ne
  have hae : a ∈ edgeSegs e := by rw [hal]; simp
  have haw : a ∈ w := ht.segs.mem_iff.mp (List.mem_flatMap.mpr ⟨e, he, hae⟩)
  obtain ⟨r, ring, de, hr, hring, hde, hsd, hseg⟩ := walks_segment hA haw
  have hsd' : sides t de.edge = e.regions := by rw [← hsd]; exact mem_edgeSegs hae
  have hall : ring ∈ allRings t := List.mem_flatMap.mpr ⟨r, List.mem_of_getElem? hr, hring⟩
  have hlt := hb.2.2 de (List.mem_flatMap.mpr ⟨ring, hall, hde⟩)
  have hle := (hb.1 de.edge _ (List.getElem?_eq_getElem hlt)).1
  obtain ⟨B, hBA, hB, hBs⟩ := other_user hle (hs ring hall de hde) (by rw [hsd']; exact h2)
    (mem_ringsUsing.mpr ⟨r, ring, de, hr, hring, hde, rfl⟩)
  obtain ⟨r2, ring2, de2, hr2, hring2, hde2, hedge⟩ := mem_ringsUsing.mp hB
  have hpath : pathOf t de2 = pathOf t de ∨ pathOf t de2 = (pathOf t de).reverse := by
    unfold pathOf walk
    rw [hedge, List.getElem?_eq_getElem hlt]
    simp only [Option.map_some, Option.getD_some]
    cases de.direction <;> cases de2.direction <;> simp
  have hseg2 : a.1 ∈ segs (pathOf t de2) ∨ a.1.swap ∈ segs (pathOf t de2) := by
    rcases hpath with hp | hp
    · rw [hp]; exact hseg
    · rw [hp, segs_reverse, List.mem_reverse, List.mem_reverse, List.mem_map, List.mem_map]
      rcases hseg with h | h
      · exact Or.inr ⟨_, h, rfl⟩
      · exact Or.inl ⟨_, h, by simp⟩
  obtain ⟨w', hw', hin⟩ := segment_walks hr2 hring2 hde2 hseg2
  have hswap : swapSeg a ∈ w' := by
    rcases hin with hin | hin
    · exact absurd (once_unique hT.once hA hw' haw hin rfl).1.symm hBA
    · have : swapSeg a = (a.1.swap, sides t de2.edge) := by
        unfold swapSeg
        rw [hedge, ← hsd]
      rw [this]; exact hin
  obtain ⟨r'', ring'', n', hr'', hring'', ht'⟩ := hk.walk B w' hw'
  obtain ⟨e', he', hae'⟩ := List.mem_flatMap.mp (ht'.segs.mem_iff.mpr hswap)
  have hae' : swapSeg a ∈ edgeSegs e' := hae'
  obtain ⟨hrun', hone'⟩ := edge_run hT.once hw' ht' he'
  have haf : swapSeg a ∈ edgeSegs (flipEdge e) := by
    rw [edgeSegs_flip, List.mem_reverse]
    exact List.mem_map_of_mem hae
  refine ⟨B, w', r'', ring'', n', e', hBA, hw', hr'', hring'', ht', he', ?_⟩
  have heq : edgeSegs e' = edgeSegs (flipEdge e) := by
    rcases run_unique (joins_right_unique hT.once) (joins_left_unique hT.once) hrun' hrun2 hae' haf with h | ⟨hrot, hy, hy2⟩
    · exact h
    · obtain rfl := hone (hcyc2 hy2)
      obtain rfl := hone' hy
      have hseg1 : nsegs [e'] = edgeSegs e' := by simp [nsegs, edgeSegs]
      have hnd : ((edgeSegs e').map (·.1.1)).Nodup := by
        have h1 := ht'.segs
        rw [hseg1] at h1
        exact (h1.map (·.1.1)).nodup_iff.mpr (hT.simple _ hw')
      refine rotated_eq hrot hnd ?_
      have hmap : ∀ (f : NormEdge), segs f.points ≠ [] → (edgeSegs f).head?.map (·.1.1) = f.points.head? := by
        intro f hf
        rw [← segs_head _ hf, ← edgeSegs_fst, List.head?_map, Option.map_map]
        rfl
      have hne : ∀ {f : NormEdge}, edgeSegs f ≠ [] → segs f.points ≠ [] := by
        intro f hf h0
        rw [← edgeSegs_fst, List.map_eq_nil_iff] at h0
        exact hf h0
      rw [hmap _ (hne hrun'.ne), hmap _ (hne hrun2.ne)]
      have hc : e.points.head? = e.points.getLast? := closedRing_single ht.nice.closed
      obtain ⟨p', hp', _⟩ := path_of_segs e'.points (by intro h0; exact hne hrun'.ne (by rw [h0]; rfl))
      obtain ⟨p, hp, _⟩ := path_of_segs e.points (by intro h0; exact hne hrun.ne (by rw [h0]; rfl))
      have hfp : (flipEdge e).points.head? = some p := by
        show e.points.reverse.head? = some p
        rw [List.head?_reverse, ← hc, hp]
      have m1 : p ∈ e'.points := by
        have : some p = (edgeSegs (flipEdge e)).head?.map (·.1.1) := by rw [hmap _ (hne hrun2.ne), hfp]
        obtain ⟨x, hx, hxp⟩ := Option.map_eq_some_iff.mp this.symm
        have hx' := hrot.mem_iff.mpr (List.mem_of_head? hx)
        obtain ⟨s, hs, rfl⟩ := List.mem_map.mp hx'
        rw [← hxp]
        exact (segs_fst_mem hs).1
      have m2 : p' ∈ e.points := by
        have : some p' = (edgeSegs e').head?.map (·.1.1) := by rw [hmap _ (hne hrun'.ne), hp']
        obtain ⟨x, hx, hxp⟩ := Option.map_eq_some_iff.mp this.symm
        have hx' := hrot.mem_iff.mp (List.mem_of_head? hx)
        obtain ⟨s, hs, rfl⟩ := List.mem_map.mp hx'
        rw [← hxp]
        have := (segs_fst_mem hs).1
        exact List.mem_reverse.mp this
      have f1 : ¬ p < p' := ht'.nice.first p m1 p' hp'
      have f2 : ¬ p' < p := ht.nice.first p' m2 p hp
      rw [hfp, hp']
      rcases Point.trichotomy p p' with h | h | h
      · exact absurd h f1
      · rw [h]
      · exact absurd h f2
  obtain ⟨g1, g2⟩ := edgeSegs_injective hrun'.ne heq
  exact ⟨g1, g2, by rw [← hsd']; exact hBs⟩

/-! ## Counting -/

theorem passes_kept {δ : Type} {m : Build} {t t' : Topology δ} (hw : WellFormed t)
    (hs : NoSelfEdges t (allRings t)) (ho : ∀ r ∈ t.regions, r.outerRings ≠ []) (h : normalize m t = .ok t')
    (p q : Point) : passes t' p q = passes t p q := by
  have h15 := C15_topology m t t' hw hs ho h
  unfold passes allRings
  show List.countP (either p q) _ = List.countP (either p q) _
  have hw : ∀ (order : WindingOrder) (rings : List TopoRing),
      (rings.flatMap fun ring => (sidedSegs (wound t order ring)).map (·.1)).countP (either p q) =
      (rings.flatMap fun ring => (pathsOf t ring).flatMap segs).countP (either p q) := by
    intro order rings
    induction rings with
    | nil => rfl
    | cons ring rings ih => rw [List.flatMap_cons, List.flatMap_cons, List.countP_append, List.countP_append, ih, countP_wound]
  generalize t.regions = rs at h15 ⊢
  generalize t'.regions = rs' at h15 ⊢
  induction h15 with
  | nil => rfl
  | cons h1 _ ih =>
    obtain ⟨_, _, _, h4, h5⟩ := h1
    rw [List.flatMap_cons, List.flatMap_cons, List.flatMap_append, List.flatMap_append, List.countP_append,
      List.countP_append, ih]
    congr 1
    rw [List.flatMap_append, List.flatMap_append, List.countP_append, List.countP_append, h4.countP_eq, h5.countP_eq,
      hw, hw]

theorem passes_eq {δ : Type} (t : Topology δ) (p q : Point) :
    passes t p q = ((allDirectedEdges t).flatMap fun de => segs (pathOf t de)).countP (either p q) := by
  unfold passes allDirectedEdges
  rw [List.flatMap_assoc]
  show List.countP (either p q) _ = _
  congr 1
  congr 1
  funext ring
  rw [pathsOf, List.flatMap_map]

theorem users_le_passes_seg {δ : Type} {t : Topology δ} {de : DirectedEdge} (hlt : de.edge < t.edges.length) {p q : Point}
    (hs : (p, q) ∈ segs (pathOf t de) ∨ (q, p) ∈ segs (pathOf t de)) :
    (ringsUsing t de.edge).length ≤ passes t p q := by
  rw [← allDirectedEdges_count, passes_eq, List.countP_eq_length_filter]
  refine length_filter_le_countP _ _ _ _ ?_
  intro d _ hd
  have hd : d.edge = de.edge := by simpa using hd
  have hpath : pathOf t d = pathOf t de ∨ pathOf t d = (pathOf t de).reverse := by
    unfold pathOf walk
    rw [hd, List.getElem?_eq_getElem hlt]
    simp only [Option.map_some, Option.getD_some]
    cases de.direction <;> cases d.direction <;> simp
  rcases hpath with hp | hp
  · rw [hp]
    rcases hs with h | h
    · exact ⟨_, h, by simp [either]⟩
    · exact ⟨_, h, by simp [either]⟩
  · rw [hp, segs_reverse]
    rcases hs with h | h
    · exact ⟨(q, p), List.mem_reverse.mpr (List.mem_map.mpr ⟨_, h, rfl⟩), by simp [either]⟩
    · exact ⟨(p, q), List.mem_reverse.mpr (List.mem_map.mpr ⟨_, h, rfl⟩), by simp [either]⟩

/-- A segment of one edge lies on no other edge, and on that one once. -/
theorem segment_once {δ : Type} {t : Topology δ} (hb : BackPointersExact t)
    (hn : (t.edges.flatMap fun e => segs e.points ++ (segs e.points).map Prod.swap).Nodup)
    {de : DirectedEdge} (hlt : de.edge < t.edges.length) {p q : Point}
    (hs : (p, q) ∈ segs (pathOf t de) ∨ (q, p) ∈ segs (pathOf t de)) :
    ∀ d ∈ allDirectedEdges t, (segs (pathOf t d)).countP (either p q) ≤ if d.edge = de.edge then 1 else 0 := by
  -- both directions of the segment lie on the edge
  have hpe : ∀ d : DirectedEdge, d.edge < t.edges.length → ∃ e, t.edges[d.edge]? = some e ∧
      (pathOf t d = e.points ∨ pathOf t d = e.points.reverse) := by
    intro d hd
    refine ⟨_, List.getElem?_eq_getElem hd, ?_⟩
    unfold pathOf walk
    rw [List.getElem?_eq_getElem hd]
    cases d.direction <;> simp
  have hboth : ∀ (e : TopoEdge) (l : List Point), l = e.points ∨ l = e.points.reverse → ∀ s ∈ segs l,
      s ∈ segs e.points ++ (segs e.points).map Prod.swap ∧ s.swap ∈ segs e.points ++ (segs e.points).map Prod.swap := by
    rintro e l (rfl | rfl) s hs
    · exact ⟨List.mem_append_left _ hs, List.mem_append_right _ (List.mem_map_of_mem hs)⟩
    · rw [segs_reverse, List.mem_reverse] at hs
      obtain ⟨s', hs', rfl⟩ := List.mem_map.mp hs
      exact ⟨List.mem_append_right _ (List.mem_map_of_mem hs'), List.mem_append_left _ (by simpa using hs')⟩
  rw [List.nodup_flatMap] at hn
  obtain ⟨hn1, hn2⟩ := hn
  obtain ⟨e0, he0, hp0⟩ := hpe de hlt
  have hmem : (p, q) ∈ segs e0.points ++ (segs e0.points).map Prod.swap ∧
      (q, p) ∈ segs e0.points ++ (segs e0.points).map Prod.swap := by
    rcases hs with h | h
    · exact hboth e0 _ hp0 _ h
    · exact (hboth e0 _ hp0 _ h).symm
  intro d hd
  obtain ⟨e, he, hp⟩ := hpe d (hb.2.2 d hd)
  by_cases hc : (segs (pathOf t d)).countP (either p q) = 0
  · rw [hc]; omega
  · obtain ⟨s, hs1, hs2⟩ := List.countP_pos_iff.mp (Nat.pos_of_ne_zero hc)
    have hse : (p, q) ∈ segs e.points ++ (segs e.points).map Prod.swap := by
      have hse : s = (p, q) ∨ s = (q, p) := by simpa [either] using hs2
      have := hboth e _ hp s hs1
      rcases hse with rfl | rfl
      · exact this.1
      · exact this.2
    have hij : d.edge = de.edge := by
      by_contra hne
      obtain ⟨hi, hi'⟩ := List.getElem?_eq_some_iff.mp he
      obtain ⟨hj, hj'⟩ := List.getElem?_eq_some_iff.mp he0
      have hdis : ∀ (i j : Nat) (hi : i < t.edges.length) (hj : j < t.edges.length), i < j →
          (p, q) ∈ segs t.edges[i].points ++ (segs t.edges[i].points).map Prod.swap →
          (p, q) ∈ segs t.edges[j].points ++ (segs t.edges[j].points).map Prod.swap → False := by
        intro i j hi hj hij h1 h2
        exact (List.pairwise_iff_getElem.mp hn2) i j hi hj hij h1 h2
      rcases Nat.lt_or_gt_of_ne hne with h | h
      · exact hdis _ _ hi hj h (by rw [hi']; exact hse) (by rw [hj']; exact hmem.1)
      · exact hdis _ _ hj hi h (by rw [hj']; exact hmem.1) (by rw [hi']; exact hse)
    rw [if_pos hij]
    -- a nodup list of segments and their reverses has the segment once
    have hnd := hn1 e (List.mem_of_getElem? he)
    have hcount : (segs e.points).countP (either p q) ≤ 1 := by
      have h1 : ((segs e.points ++ (segs e.points).map Prod.swap).countP fun s => decide (s = (p, q))) ≤ 1 := by
        have := List.nodup_iff_count_le_one.mp hnd (p, q)
        rw [List.count] at this
        refine Nat.le_trans (Nat.le_of_eq ?_) this
        congr 1
        funext x
        by_cases hx : x = (p, q) <;> simp [hx]
      rw [List.countP_append, List.countP_map] at h1
      have h2 : ∀ l : List (Point × Point), l.countP (either p q) ≤
          l.countP (fun s => decide (s = (p, q))) + l.countP ((fun s => decide (s = (p, q))) ∘ Prod.swap) := by
        intro l
        induction l with
        | nil => simp
        | cons s l ih =>
          rw [List.countP_cons, List.countP_cons, List.countP_cons]
          have hs : (if either p q s = true then 1 else 0) ≤ (if decide (s = (p, q)) = true then 1 else 0) +
              (if ((fun s => decide (s = (p, q))) ∘ Prod.swap) s = true then 1 else 0) := by
            by_cases h : either p q s = true
            · have h' : s = (p, q) ∨ s = (q, p) := by simpa [either] using h
              rcases h' with rfl | rfl
              · rw [if_pos h, if_pos (by simp)]; omega
              · rw [if_pos h, if_pos (c := ((fun s => decide (s = (p, q))) ∘ Prod.swap) (q, p) = true) (by simp)]; omega
            · rw [if_neg h]; omega
          omega
      exact Nat.le_trans (h2 _) h1
    rcases hp with hp | hp
    · rw [hp]; exact hcount
    · rw [hp, segs_reverse, List.countP_reverse, List.countP_map]
      have : either p q ∘ Prod.swap = either p q := by
        funext s; exact either_swap p q s
      rw [this]; exact hcount

theorem passes_le_users {δ : Type} {t : Topology δ} (hb : BackPointersExact t)
    (hn : (t.edges.flatMap fun e => segs e.points ++ (segs e.points).map Prod.swap).Nodup)
    {de : DirectedEdge} (hlt : de.edge < t.edges.length) {p q : Point}
    (hs : (p, q) ∈ segs (pathOf t de) ∨ (q, p) ∈ segs (pathOf t de)) :
    passes t p q ≤ (ringsUsing t de.edge).length := by
  rw [← allDirectedEdges_count, passes_eq]
  have hone := segment_once hb hn hlt hs
  have : ∀ l : List DirectedEdge, (∀ d ∈ l, d ∈ allDirectedEdges t) →
      (l.flatMap fun d => segs (pathOf t d)).countP (either p q) ≤ l.countP fun d => decide (d.edge = de.edge) := by
    intro l
    induction l with
    | nil => simp
    | cons d l ih =>
      intro hl
      have h1 := ih fun x hx => hl x (by simp [hx])
      have h2 := hone d (hl d (by simp))
      rw [List.flatMap_cons, List.countP_append, List.countP_cons]
      simp only [decide_eq_true_eq]
      omega
  exact this _ fun d hd => hd

/-! ## The sides of edges do not change -/

/-- In a ring that does not touch itself only a ring of one edge has a closed
edge. -/
theorem closed_edge {δ : Type} {t : Topology δ} (hsimple : ∀ w ∈ walks t, (w.2.map (·.1.1)).Nodup) {A : Nat}
    {t' : Topology δ} {w : List ((Point × Point) × Sides)} (hA : (A, w) ∈ walks t) {ring' : TopoRing} {n : NormRing}
    (ht : Turns t' w ring' n) {e : NormEdge} (he : e ∈ n) (hc : e.points.head? = e.points.getLast?) : n = [e] := by
  obtain ⟨n1, n2, rfl⟩ := List.append_of_mem he
  by_cases hrest : n2 ++ n1 = []
  · obtain ⟨rfl, rfl⟩ := List.append_eq_nil_iff.mp hrest
    rfl
  · exfalso
    obtain ⟨f, rest, hl⟩ := List.exists_cons_of_ne_nil hrest
    have hrot : nsegs (e :: (n2 ++ n1)) ~r w := by
      refine List.IsRotated.trans ?_ ht.segs
      rw [← List.cons_append, nsegs_append, nsegs_append]
      exact List.isRotated_append
    have hnd := (hrot.map (·.1.1)).nodup_iff.mpr (hsimple _ hA)
    have hcl : ClosedRing (npts (e :: (n2 ++ n1))) := by
      have := closedRing_rotate (l1 := npts n1) (l2 := npts (e :: n2)) (by
        have := ht.nice.closed
        simpa [npts] using this)
      simpa [npts] using this
    rw [hl] at hnd hcl
    obtain ⟨_, p, h1, q, h2, h3, _⟩ := hcl
    have hfm : f ∈ n1 ++ e :: n2 := by
      have : f ∈ n2 ++ n1 := by rw [hl]; simp
      simp only [List.mem_append, List.mem_cons] at this ⊢
      tauto
    have hse := edgeSegs_ne_nil (ht.extended e he)
    have hsf := edgeSegs_ne_nil (ht.extended f hfm)
    have hhead : ∀ (g : NormEdge) (x : Point), edgeSegs g ≠ [] → g.points.head? = some x → x ∈ (edgeSegs g).map (·.1.1) := by
      intro g x hg hx
      have hg' : segs g.points ≠ [] := by
        intro h0
        rw [← edgeSegs_fst, List.map_eq_nil_iff] at h0
        exact hg h0
      have := segs_head _ hg'
      rw [hx, ← edgeSegs_fst, List.head?_map, Option.map_map] at this
      obtain ⟨a, ha, hax⟩ := Option.map_eq_some_iff.mp this
      exact List.mem_map.mpr ⟨a, List.mem_of_head? ha, hax⟩
    have hpq : p = q := by
      have h1' : e.points.head? = some p := h1
      rw [hc] at h1'
      exact Option.some.inj (h1'.symm.trans h2)
    subst hpq
    rw [nsegs_cons, List.map_append, nsegs_cons, List.map_append] at hnd
    refine (List.nodup_append.mp hnd).2.2 p (hhead e p hse h1) p (List.mem_append_left _ (hhead f p hsf h3)) rfl

theorem shoelaceEdges_single (e : List Point) : shoelaceEdges [e] = shoelace e := by
  rw [shoelaceEdges_eq, List.flatMap_cons, List.flatMap_nil, List.append_nil, crossSum_segs]

theorem edge_sides {δ : Type} {m : Build} {t t' : Topology δ} (hw : WellFormed t) (hs : NoSelfEdges t (allRings t))
    (ho : ∀ r ∈ t.regions, r.outerRings ≠ [])
    (hmin : ∀ ring ∈ allRings t, wrap64 (shoelaceEdges (pathsOf t ring)) ≠ -2 ^ 63) (hT : Tidy t)
    (h : normalize m t = .ok t') {A : Nat} {w : List ((Point × Point) × Sides)} (hA : (A, w) ∈ walks t)
    {r' : TopoRegion δ} (hr' : t'.regions[A]? = some r') {ring' : TopoRing}
    (hring' : ring' ∈ r'.outerRings ++ r'.innerRings) {n : NormRing} (ht : Turns t' w ring' n) {e : NormEdge}
    (he : e ∈ n) {de' : DirectedEdge} (hde' : de' ∈ ring'.directedEdges) (hp : pathOf t' de' = e.points) :
    sides t' de'.edge = e.regions := by
  have hk := kept_of_normalize hw hs ho hmin h
  have hw' := wellFormed_normalize hw h
  have hall : ∀ {A : Nat} {r' : TopoRegion δ} {ring' : TopoRing} {d : DirectedEdge}, t'.regions[A]? = some r' →
      ring' ∈ r'.outerRings ++ r'.innerRings → d ∈ ring'.directedEdges → d ∈ allDirectedEdges t' := by
    intro A r' ring' d h1 h2 h3
    exact List.mem_flatMap.mpr ⟨ring', List.mem_flatMap.mpr ⟨r', List.mem_of_getElem? h1, h2⟩, h3⟩
  have hd := hall hr' hring' hde'
  have hlt := hw'.pointers.2.2 de' hd
  have hwalk : ∀ d ∈ allDirectedEdges t', walk t'.edges d = some (pathOf t' d) := by
    intro d hd
    have := hw'.pointers.2.2 d hd
    unfold pathOf walk
    rw [List.getElem?_eq_getElem this]
    rfl
  have hAuse : ∃ p ∈ ringsUsing t' de'.edge, p.region = A :=
    mem_ringsUsing.mpr ⟨r', ring', de', hr', hring', hde', rfl⟩
  by_cases h2 : e.regions.2 = none
  · -- no other region: count
    obtain ⟨a, l, hal⟩ := List.exists_cons_of_ne_nil (edgeSegs_ne_nil (ht.extended e he))
    have hae : a ∈ edgeSegs e := by rw [hal]; simp
    have haw : a ∈ w := ht.segs.mem_iff.mp (List.mem_flatMap.mpr ⟨e, he, hae⟩)
    obtain ⟨r, ring, de, hr, hring, hde, hsd, hseg⟩ := walks_segment hA haw
    have hsd' : sides t de.edge = e.regions := by rw [← hsd]; exact mem_edgeSegs hae
    have hdall : de ∈ allDirectedEdges t :=
      List.mem_flatMap.mpr ⟨ring, List.mem_flatMap.mpr ⟨r, List.mem_of_getElem? hr, hring⟩, hde⟩
    have hlt0 := hw.pointers.2.2 de hdall
    have hone : (ringsUsing t de.edge).length ≤ 1 := by
      by_contra hc
      have : (sides t de.edge).2 = none := by rw [hsd', h2]
      unfold sides at this
      rw [Option.map_eq_none_iff, List.getElem?_eq_none_iff] at this
      omega
    have hsegs : a.1 ∈ segs (pathOf t' de') := by
      rw [hp, ← edgeSegs_fst]
      exact List.mem_map_of_mem hae
    obtain ⟨⟨p, q⟩, x⟩ := a
    have l1 := users_le_passes_seg hlt (p := p) (q := q) (Or.inl hsegs)
    have l2 := passes_le_users hw.pointers hT.segments hlt0 (p := p) (q := q) hseg
    rw [passes_kept hw hs ho h] at l1
    rw [sides_of_one (by omega) hAuse, ← hsd',
      sides_of_one hone (mem_ringsUsing.mpr ⟨r, ring, de, hr, hring, hde, rfl⟩)]
  · obtain ⟨B, w', r'', ring'', n', e', hBA, hB, hr'', hring'', ht', he', hrev, _, hsides⟩ :=
      counterpart hT hw.pointers hs hk hA ht he h2
    have : e'.points ∈ pathsOf t' ring'' := by rw [ht'.paths]; exact List.mem_map_of_mem he'
    obtain ⟨de'', hde'', hp''⟩ := List.mem_map.mp this
    have hd'' := hall hr'' hring'' hde''
    obtain ⟨rs, _, hbuilt⟩ := normalize_ok.mp h
    have hshare := (C10_sharing m rs t' hbuilt de' de'' hd hd'' _ _ (hwalk _ hd) (hwalk _ hd'')).2.1
      (by rw [hp'', hp, hrev]) (by
        by_cases hc : e.points.head? = e.points.getLast?
        · right
          obtain rfl := closed_edge hT.simple hA ht he hc
          have h1 := ht.nonzero
          have h2 := ht.bounded
          rw [show npts [e] = [e.points] from rfl, shoelaceEdges_single] at h1 h2
          rw [hp]
          exact ⟨h1, h2⟩
        · left; rw [hp]; exact hc)
    have hBuse : ∃ p ∈ ringsUsing t' de'.edge, p.region = B :=
      mem_ringsUsing.mpr ⟨r'', ring'', de'', hr'', hring'', hde'', hshare.1.symm⟩
    have hle := (hw'.pointers.1 de'.edge _ (List.getElem?_eq_getElem hlt)).1
    rw [hsides]
    rcases Nat.lt_or_gt_of_ne hBA with hlt | hlt
    · rw [sides_of_two hle hlt hBuse hAuse, Nat.min_eq_right hlt.le, Nat.max_eq_left hlt.le]
    · rw [sides_of_two hle hlt hAuse hBuse, Nat.min_eq_left (Nat.le_of_lt hlt), Nat.max_eq_right (Nat.le_of_lt hlt)]

end TopoGeo
