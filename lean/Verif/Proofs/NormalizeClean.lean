import Verif.Proofs.NormalizeShared
/-!
# Maps whose regions neither overlap nor touch themselves: facts
-/

namespace TopoGeo

open Spec

/-! ## Walks continue where they are -/

theorem segs_leads {l : List Point} {a c : Point} (h1 : l.head? = some a) (h2 : l.getLast? = some c) :
    (segs l).IsChain (fun s s' => s.2 = s'.1) ∧ (segs l = [] → a = c) ∧ (∀ s, (segs l).head? = some s → s.1 = a) ∧
      ∀ s, (segs l).getLast? = some s → s.2 = c := by
  induction l generalizing a with
  | nil => simp at h1
  | cons p l ih =>
    obtain rfl : p = a := by simpa using h1
    cases l with
    | nil =>
      obtain rfl : p = c := by simpa using h2
      simp [segs]
    | cons q l =>
      rw [List.getLast?_cons_cons] at h2
      obtain ⟨g1, g2, g3, g4⟩ := ih rfl h2
      refine ⟨?_, by simp [segs], by simp [segs], ?_⟩
      · rw [segs]
        cases hs : segs (q :: l) with
        | nil => exact .singleton _
        | cons s k =>
          rw [List.isChain_cons_cons]
          refine ⟨(g3 s (by rw [hs]; rfl)).symm, by rw [← hs]; exact g1⟩
      · intro s hs
        rw [segs] at hs
        cases hk : segs (q :: l) with
        | nil =>
          rw [hk] at hs
          obtain rfl : (p, q) = s := by simpa using hs
          exact g2 hk
        | cons s' k =>
          rw [hk, List.getLast?_cons_cons, ← hk] at hs
          exact g4 s hs

theorem leads_segs {paths : List (List Point)} {a c : Point} (h : Leads a paths c) :
    (paths.flatMap segs).IsChain (fun s s' => s.2 = s'.1) ∧ (paths.flatMap segs = [] → a = c) ∧
      (∀ s, (paths.flatMap segs).head? = some s → s.1 = a) ∧ ∀ s, (paths.flatMap segs).getLast? = some s → s.2 = c := by
  induction paths generalizing a with
  | nil => cases h; simp
  | cons e paths ih =>
    obtain ⟨h1, b, h2, h3⟩ := h
    obtain ⟨g1, g2, g3, g4⟩ := ih h3
    obtain ⟨k1, k2, k3, k4⟩ := segs_leads h1 h2
    rw [List.flatMap_cons]
    refine ⟨List.isChain_append.mpr ⟨k1, g1, ?_⟩, ?_, ?_, ?_⟩
    · intro x hx y hy
      rw [k4 x hx, g3 y hy]
    · intro h
      obtain ⟨h4, h5⟩ := List.append_eq_nil_iff.mp h
      rw [k2 h4, g2 h5]
    · intro s hs
      cases hk : segs e with
      | nil =>
        rw [hk, List.nil_append] at hs
        rw [g3 s hs, k2 hk]
      | cons x l =>
        rw [hk] at hs
        refine k3 s (by rw [hk]; simpa using hs)
    · intro s hs
      by_cases hk : paths.flatMap segs = []
      · rw [hk, List.append_nil] at hs
        rw [k4 s hs, g2 hk]
      · rw [List.getLast?_append_of_ne_nil _ hk] at hs
        exact g4 s hs

theorem adjoins_cases {α : Type} {l : List α} {a b : α} (h : Adjoins l a b) :
    (∃ l1 l2, l = l1 ++ a :: b :: l2) ∨ (l.getLast? = some a ∧ l.head? = some b) := by
  obtain ⟨i, h1, h2⟩ := h
  have hi := (List.getElem?_eq_some_iff.mp h1).1
  by_cases hl : i + 1 = l.length
  · right
    rw [hl, Nat.mod_self] at h2
    refine ⟨?_, by rw [List.head?_eq_getElem?]; exact h2⟩
    rw [List.getLast?_eq_getElem?, show l.length - 1 = i by omega]
    exact h1
  · left
    rw [Nat.mod_eq_of_lt (by omega)] at h2
    obtain ⟨hi1, hi2⟩ := List.getElem?_eq_some_iff.mp h1
    obtain ⟨hj1, hj2⟩ := List.getElem?_eq_some_iff.mp h2
    refine ⟨l.take i, l.drop (i + 2), ?_⟩
    rw [← hi2, ← hj2, List.getElem_cons_drop, List.getElem_cons_drop, List.take_append_drop]

theorem adjoins_of_mem {α : Type} {l : List α} {a : α} (h : a ∈ l) : ∃ b, Adjoins l a b := by
  obtain ⟨i, hi⟩ := List.mem_iff_getElem?.mp h
  have hlt := (List.getElem?_eq_some_iff.mp hi).1
  exact ⟨l[(i + 1) % l.length]'(Nat.mod_lt _ (by omega)), i, hi, List.getElem?_eq_getElem _⟩

theorem wound_paths {δ : Type} (t : Topology δ) (order : WindingOrder) (ring : TopoRing) :
    pathsIn (wound t order ring) = pathsOf t ring ∨
      pathsIn (wound t order ring) = ((pathsOf t ring).map List.reverse).reverse := by
  unfold wound
  split
  · left; simp [pathsIn, bounds, pathsOf, Function.comp_def]
  · right
    simp [pathsIn, turned, bounds, pathsOf, Function.comp_def]

theorem sidedSegs_fst (bs : List Bound) : (sidedSegs bs).map (·.1) = (pathsIn bs).flatMap segs := by
  unfold sidedSegs pathsIn
  rw [List.map_flatMap, List.flatMap_map]
  congr 1
  funext b
  simp [Function.comp_def]

theorem adjoins_map {α β : Type} (f : α → β) {l : List α} {a b : α} (h : Adjoins l a b) : Adjoins (l.map f) (f a) (f b) := by
  obtain ⟨i, h1, h2⟩ := h
  exact ⟨i, by rw [List.getElem?_map, h1]; rfl, by rw [List.length_map, List.getElem?_map, h2]; rfl⟩

theorem walk_ring {δ : Type} {t : Topology δ} {A : Nat} {w : List ((Point × Point) × Sides)} (hA : (A, w) ∈ walks t) :
    ∃ order ring, ring ∈ allRings t ∧ w = sidedSegs (wound t order ring) := by
  obtain ⟨r, hr, ⟨ring, hring, rfl⟩ | ⟨ring, hring, rfl⟩⟩ := mem_walks.mp hA
  · exact ⟨_, ring, mem_allRings_outer (List.mem_of_getElem? hr) ring hring, rfl⟩
  · exact ⟨_, ring, mem_allRings_inner (List.mem_of_getElem? hr) ring hring, rfl⟩

theorem walk_continues {δ : Type} {t : Topology δ} (hc : RingsClosed t) {A : Nat} {w : List ((Point × Point) × Sides)}
    (hA : (A, w) ∈ walks t) {a b : (Point × Point) × Sides} (h : Adjoins w a b) : a.1.2 = b.1.1 := by
  obtain ⟨order, ring, hring, rfl⟩ := walk_ring hA
  have hclosed : ClosedRing (pathsIn (wound t order ring)) := by
    rcases wound_paths t order ring with h | h
    · rw [h]; exact closed_pathsOf hc hring
    · rw [h]; exact closedRing_reverse (closed_pathsOf hc hring)
  obtain ⟨_, c, hl⟩ := hclosed
  obtain ⟨g1, _, g3, g4⟩ := leads_segs hl
  rw [← sidedSegs_fst] at g1 g3 g4
  rcases adjoins_cases (adjoins_map Prod.fst h) with ⟨l1, l2, he⟩ | ⟨h1, h2⟩
  · rw [he] at g1
    have := (List.isChain_append.mp g1).2.1
    rw [List.isChain_cons_cons] at this
    exact this.1
  · rw [g3 _ h2, g4 _ h1]

/-! ## Unique places -/

theorem flatMap_unique {ι α β : Type} {L : List ι} {g : ι → List α} {f : α → β}
    (h : (L.flatMap fun i => (g i).map f).Nodup) {i j : ι} (hi : i ∈ L) (hj : j ∈ L) {a b : α} (ha : a ∈ g i) (hb : b ∈ g j)
    (hab : f a = f b) : i = j ∧ a = b := by
  rw [List.nodup_flatMap] at h
  obtain ⟨h1, h2⟩ := h
  by_cases he : i = j
  · subst he
    exact ⟨rfl, List.inj_on_of_nodup_map (h1 _ hi) ha hb hab⟩
  · exfalso
    have hd : Std.Symm fun x y => Function.onFun List.Disjoint (fun i => (g i).map f) x y :=
      ⟨fun x y hxy a ha hb => hxy hb ha⟩
    have := h2.forall hi hj he
    exact this (List.mem_map_of_mem ha) (by rw [hab]; exact List.mem_map_of_mem hb)

theorem start_unique {δ : Type} {t : Topology δ} (h : Clean t) {A : Nat} {w w' : List ((Point × Point) × Sides)}
    (hw : (A, w) ∈ walks t) (hw' : (A, w') ∈ walks t) {a b : (Point × Point) × Sides} (ha : a ∈ w) (hb : b ∈ w')
    (hab : a.1.1 = b.1.1) : w = w' ∧ a = b := by
  have := flatMap_unique (g := fun w : Nat × List ((Point × Point) × Sides) => w.2) (f := fun a => a.1.1) (h.simple A)
    (i := (A, w)) (j := (A, w')) (List.mem_filter.mpr ⟨hw, by simp⟩) (List.mem_filter.mpr ⟨hw', by simp⟩) ha hb hab
  exact ⟨(Prod.mk.inj this.1).2, this.2⟩

theorem passes_walks {δ : Type} (t : Topology δ) (p q : Point) :
    ((walks t).flatMap fun w => w.2.map (·.1)).countP (either p q) = passes t p q := by
  have hrings : ∀ (order : WindingOrder) (n : Nat) (rings : List TopoRing),
      ((rings.map fun ring => (n, sidedSegs (wound t order ring))).flatMap fun w => w.2.map (·.1)).countP (either p q) =
      (rings.flatMap fun ring => (pathsOf t ring).flatMap segs).countP (either p q) := by
    intro order n rings
    induction rings with
    | nil => rfl
    | cons ring rings ih =>
      rw [List.map_cons, List.flatMap_cons, List.flatMap_cons, List.countP_append, List.countP_append, ih, countP_wound]
  have key : ∀ (rs : List (TopoRegion δ)) (k : Nat),
      (((rs.zipIdx k).flatMap fun (x : TopoRegion δ × Nat) =>
        (x.1.outerRings.map fun ring => (x.2, sidedSegs (wound t .clockwise ring))) ++
        (x.1.innerRings.map fun ring => (x.2, sidedSegs (wound t .counterClockwise ring)))).flatMap
          fun w => w.2.map (·.1)).countP (either p q) =
      ((rs.flatMap fun r => r.outerRings ++ r.innerRings).flatMap fun ring =>
        (pathsOf t ring).flatMap segs).countP (either p q) := by
    intro rs
    induction rs with
    | nil => intro k; rfl
    | cons r rs ih =>
      intro k
      rw [List.zipIdx_cons, List.flatMap_cons, List.flatMap_append, List.countP_append, ih, List.flatMap_cons,
        List.flatMap_append, List.flatMap_append, List.countP_append, List.countP_append, hrings, hrings,
        List.flatMap_append, List.countP_append]
  exact key t.regions 0

theorem both_of_two {l : List (Point × Point)} (hn : l.Nodup) {p q : Point} (h : 2 ≤ l.countP (either p q)) :
    (p, q) ∈ l ∧ (q, p) ∈ l := by
  have key : ∀ a b : Point × Point, (∀ s, either p q s = true → s = a ∨ s = b) → a ∉ l → False := by
    intro a b hab ha
    have : l.countP (either p q) ≤ l.countP (· == b) := by
      apply List.countP_mono_left
      intro s hs hse
      rcases hab s hse with rfl | rfl
      · exact absurd hs ha
      · simp
    have := List.nodup_iff_count_le_one.mp hn b
    rw [List.count] at this
    omega
  constructor
  · by_contra hc
    exact key (p, q) (q, p) (fun s hs => by simpa [either] using hs) hc
  · by_contra hc
    exact key (q, p) (p, q) (fun s hs => by simpa [either, or_comm] using hs) hc

/-! ## Clean maps are tidy -/

/-- An edge with a segment in it, for an element of a walk. -/
theorem same_edge {δ : Type} {t : Topology δ} (hb : BackPointersExact t)
    (hn : (t.edges.flatMap fun e => segs e.points ++ (segs e.points).map Prod.swap).Nodup) {d d' : DirectedEdge}
    (hd : d ∈ allDirectedEdges t) (hd' : d' ∈ allDirectedEdges t) {s : Point × Point}
    (hs : s ∈ segs (pathOf t d) ∨ s.swap ∈ segs (pathOf t d)) (hs' : s ∈ segs (pathOf t d') ∨ s.swap ∈ segs (pathOf t d')) :
    d.edge = d'.edge := by
  have key : ∀ d ∈ allDirectedEdges t, (s ∈ segs (pathOf t d) ∨ s.swap ∈ segs (pathOf t d)) →
      ∃ h : d.edge < t.edges.length, s ∈ segs t.edges[d.edge].points ++ (segs t.edges[d.edge].points).map Prod.swap := by
    intro d hd hs
    have hlt := hb.2.2 d hd
    refine ⟨hlt, ?_⟩
    have hp : pathOf t d = t.edges[d.edge].points ∨ pathOf t d = t.edges[d.edge].points.reverse := by
      unfold pathOf walk
      rw [List.getElem?_eq_getElem hlt]
      cases d.direction <;> simp
    have h2 : ∀ s' : Point × Point, s' ∈ segs (pathOf t d) →
        s' ∈ segs t.edges[d.edge].points ∨ s'.swap ∈ segs t.edges[d.edge].points := by
      intro s' hs'
      rcases hp with hp | hp
      · left; rw [← hp]; exact hs'
      · right
        rw [hp, segs_reverse, List.mem_reverse] at hs'
        obtain ⟨x, hx, rfl⟩ := List.mem_map.mp hs'
        simpa using hx
    rw [List.mem_append, List.mem_map]
    rcases hs with hs | hs
    · rcases h2 _ hs with h | h
      · exact Or.inl h
      · exact Or.inr ⟨_, h, by simp⟩
    · rcases h2 _ hs with h | h
      · exact Or.inr ⟨_, h, by simp⟩
      · exact Or.inl (by simpa using h)
  obtain ⟨h1, g1⟩ := key d hd hs
  obtain ⟨h2, g2⟩ := key d' hd' hs'
  by_contra hne
  rw [List.nodup_flatMap] at hn
  have hp := List.pairwise_iff_getElem.mp hn.2
  rcases Nat.lt_or_gt_of_ne hne with h | h
  · exact hp _ _ h1 h2 h g1 g2
  · exact hp _ _ h2 h1 h g2 g1

/-- Two segments that lead there and back enclose no area. -/
theorem two_segments {l : List ((Point × Point) × Sides)} {a b : (Point × Point) × Sides} (hn : l.Nodup) (hne : a ≠ b)
    (hab : b.1 = a.1.swap) (h1 : Adjoins l a b) (h2 : Adjoins l b a) : crossSum (l.map (·.1)) = 0 := by
  obtain ⟨i, hi, hi'⟩ := h1
  obtain ⟨j, hj, hj'⟩ := h2
  have e1 := nodup_index hn hi' hj
  have e2 := nodup_index hn hj' hi
  have hlt := (List.getElem?_eq_some_iff.mp hi).1
  have hlen : l.length ≤ 2 := by
    by_contra hc
    rw [← e1, Nat.mod_add_mod] at e2
    by_cases h : i + 1 + 1 < l.length
    · rw [Nat.mod_eq_of_lt h] at e2; omega
    · rw [Nat.mod_eq_sub_mod (by omega), Nat.mod_eq_of_lt (by omega)] at e2
      omega
  have ha := List.mem_of_getElem? hi
  have hb := List.mem_of_getElem? hj
  have hsum : cross a.1.1 a.1.2 + cross b.1.1 b.1.2 = 0 := by
    rw [hab]
    unfold cross
    simp only [Prod.fst_swap, Prod.snd_swap]
    ring
  match l, hlen with
  | [], _ => rfl
  | [c], _ =>
    rw [List.mem_singleton] at ha hb
    exact absurd (ha.trans hb.symm) hne
  | [c, d], _ =>
    simp only [List.mem_cons, List.not_mem_nil, or_false] at ha hb
    simp only [crossSum, List.map_cons, List.map_nil, List.sum_cons, List.sum_nil]
    rcases ha with rfl | rfl <;> rcases hb with rfl | rfl
    · exact absurd rfl hne
    · omega
    · omega
    · exact absurd rfl hne
  | _ :: _ :: _ :: _, h => simp at h

/-- The area within a walk. -/
theorem crossSum_walk {δ : Type} {t : Topology δ} {order : WindingOrder} {ring : TopoRing}
    (h : crossSum ((sidedSegs (wound t order ring)).map (·.1)) = 0) : shoelaceEdges (pathsOf t ring) = 0 := by
  rw [sidedSegs_fst, ← shoelaceEdges_eq] at h
  rcases wound_paths t order ring with hw | hw
  · rw [hw] at h; exact h
  · rw [hw, shoelaceEdges_reverse] at h
    omega

theorem noSelf_of_clean {δ : Type} {t : Topology δ} (hw : WellFormed t)
    (hseg : (t.edges.flatMap fun e => segs e.points ++ (segs e.points).map Prod.swap).Nodup)
    (ha : ∀ ring ∈ allRings t, wrap64 (shoelaceEdges (pathsOf t ring)) ≠ 0) (hc : Clean t) :
    NoSelfEdges t (allRings t) := by
  intro ring hring de hde heq
  have hall : de ∈ allDirectedEdges t := List.mem_flatMap.mpr ⟨ring, hring, hde⟩
  have hlt := hw.pointers.2.2 de hall
  have hle := (hw.pointers.1 de.edge _ (List.getElem?_eq_getElem hlt)).1
  obtain ⟨r, hr, hm⟩ := List.mem_flatMap.mp hring
  obtain ⟨A, hA⟩ := List.mem_iff_getElem?.mp hr
  obtain ⟨x, hx, hxA⟩ := mem_ringsUsing.mpr ⟨r, ring, de, hA, hm, hde, rfl⟩
  -- both users belong to one region
  have hboth : 2 ≤ (ringsUsing t de.edge).length ∧ ∀ y ∈ ringsUsing t de.edge, y.region = A := by
    unfold sides at heq
    match hu : ringsUsing t de.edge with
    | [] => rw [hu] at hx; simp at hx
    | [x] => rw [hu] at heq; simp at heq
    | [x', y'] =>
      rw [hu] at hx heq
      simp at hx heq
      refine ⟨by simp, ?_⟩
      intro y hy
      simp at hy
      rcases hy with rfl | rfl <;> rcases hx with rfl | rfl <;> simp_all
    | _ :: _ :: _ :: _ => rw [hu] at hle; simp at hle
  -- a segment of the edge
  have hext : ¬ ZeroLength (pathOf t de) := by
    have := hw.extended _ (List.getElem_mem hlt)
    unfold pathOf walk
    rw [List.getElem?_eq_getElem hlt]
    cases de.direction
    · simpa using this
    · simpa using fun h => this (zeroLength_reverse.mp h)
  obtain ⟨⟨p, q⟩, hs⟩ : ∃ s, s ∈ segs (pathOf t de) := by
    have := edgeSegs_ne_nil (e := ⟨pathOf t de, (none, none)⟩) hext
    obtain ⟨a, l, hal⟩ := List.exists_cons_of_ne_nil this
    refine ⟨a.1, ?_⟩
    have h2 := edgeSegs_fst ⟨pathOf t de, (none, none)⟩
    rw [hal] at h2
    rw [← h2]; simp
  have hpass := users_le_passes_seg hlt (Or.inl hs)
  rw [← passes_walks] at hpass
  obtain ⟨m1, m2⟩ := both_of_two hc.once (Nat.le_trans hboth.1 hpass)
  -- they are walked by the same region
  have place : ∀ s : Point × Point, (s = (p, q) ∨ s = (q, p)) → s ∈ ((walks t).flatMap fun w => w.2.map (·.1)) →
      ∃ w a, (A, w) ∈ walks t ∧ a ∈ w ∧ a.1 = s := by
    intro s hs' hsm
    obtain ⟨⟨B, w⟩, hwB, hsw⟩ := List.mem_flatMap.mp hsm
    obtain ⟨a, haw, rfl⟩ := List.mem_map.mp hsw
    obtain ⟨r2, ring2, de2, hr2, hring2, hde2, _, hseg2⟩ := walks_segment hwB haw
    have hall2 : de2 ∈ allDirectedEdges t :=
      List.mem_flatMap.mpr ⟨ring2, List.mem_flatMap.mpr ⟨r2, List.mem_of_getElem? hr2, hring2⟩, hde2⟩
    have hse : de.edge = de2.edge := by
      refine same_edge hw.pointers hseg hall hall2 (s := a.1) ?_ hseg2
      rcases hs' with h | h
      · left; rw [h]; exact hs
      · right; rw [h]; exact hs
    obtain ⟨y, hy, hyB⟩ := mem_ringsUsing.mpr ⟨r2, ring2, de2, hr2, hring2, hde2, hse.symm⟩
    obtain rfl : B = A := by rw [← hyB]; exact hboth.2 y hy
    exact ⟨w, a, hwB, haw, rfl⟩
  obtain ⟨w1, a, hw1, ha1, has⟩ := place (p, q) (Or.inl rfl) m1
  obtain ⟨w2, b, hw2, hb2, hbs⟩ := place (q, p) (Or.inr rfl) m2
  obtain ⟨c, hac⟩ := adjoins_of_mem ha1
  obtain ⟨d, hbd⟩ := adjoins_of_mem hb2
  have hcw : c ∈ w1 := (adjoins_mem hac).2
  have hdw : d ∈ w2 := (adjoins_mem hbd).2
  have e1 := walk_continues hw.closed hw1 hac
  have e2 := walk_continues hw.closed hw2 hbd
  obtain ⟨rfl, rfl⟩ := start_unique hc hw1 hw2 hcw hb2 (by rw [← e1, has, hbs])
  obtain ⟨_, rfl⟩ := start_unique hc hw1 hw1 hdw ha1 (by rw [← e2, has, hbs])
  have hpq : p ≠ q := by
    rintro rfl
    have hz := hseg
    rw [List.nodup_flatMap] at hz
    have hn := hz.1 _ (List.getElem_mem hlt)
    have hin : (p, p) ∈ segs t.edges[de.edge].points := by
      have : pathOf t de = t.edges[de.edge].points ∨ pathOf t de = t.edges[de.edge].points.reverse := by
        unfold pathOf walk
        rw [List.getElem?_eq_getElem hlt]
        cases de.direction <;> simp
      rcases this with h | h
      · rw [← h]; exact hs
      · rw [h, segs_reverse, List.mem_reverse, List.mem_map] at hs
        obtain ⟨x, hx, hxe⟩ := hs
        have : x = (p, p) := by rw [← Prod.swap_swap x, hxe]; rfl
        rw [← this]; exact hx
    exact (List.nodup_append.mp hn).2.2 _ hin _ (List.mem_map.mpr ⟨_, hin, rfl⟩) rfl
  have hzero := two_segments (walks_nodup hc.once hw1) (a := d) (b := c)
    (by rintro rfl; rw [has] at hbs; exact hpq (Prod.mk.inj hbs).1) (by rw [has, hbs]; rfl) hac hbd
  obtain ⟨order, ring', hring', rfl⟩ := walk_ring hw1
  exact ha ring' hring' (by rw [crossSum_walk hzero]; decide)

theorem matched_of_clean {δ : Type} {t : Topology δ} (hw : WellFormed t) (hs : NoSelfEdges t (allRings t)) (hc : Clean t) :
    ∀ w ∈ walks t, ∀ a b, Adjoins w.2 a b → a.2 = b.2 → a.2.2 ≠ none →
      ∃ w' ∈ walks t, Adjoins w'.2 (b.1.swap, b.2) (a.1.swap, a.2) := by
  rintro ⟨A, w⟩ hA a b hab hsab h2
  obtain ⟨haw, hbw⟩ := adjoins_mem hab
  -- the other region walks a segment the other way
  have other : ∀ a ∈ w, a.2.2 ≠ none → ∃ B w', a.2 = (some (min A B), some (max A B)) ∧ B ≠ A ∧ (B, w') ∈ walks t ∧
      (a.1.swap, a.2) ∈ w' := by
    intro a haw h2
    obtain ⟨r, ring, de, hr, hring, hde, hsd, hseg⟩ := walks_segment hA haw
    have hall : ring ∈ allRings t := List.mem_flatMap.mpr ⟨r, List.mem_of_getElem? hr, hring⟩
    have hlt := hw.pointers.2.2 de (List.mem_flatMap.mpr ⟨ring, hall, hde⟩)
    have hle := (hw.pointers.1 de.edge _ (List.getElem?_eq_getElem hlt)).1
    obtain ⟨B, hBA, hB, hBs⟩ := other_user hle (hs ring hall de hde) (by rw [← hsd]; exact h2)
      (mem_ringsUsing.mpr ⟨r, ring, de, hr, hring, hde, rfl⟩)
    obtain ⟨r2, ring2, de2, hr2, hring2, hde2, hedge⟩ := mem_ringsUsing.mp hB
    have hpath : pathOf t de2 = pathOf t de ∨ pathOf t de2 = (pathOf t de).reverse := by
      unfold pathOf walk
      rw [hedge, List.getElem?_eq_getElem hlt]
      simp only [Option.map_some, Option.getD_some]
      cases de.direction <;> cases de2.direction <;> simp
    have hseg2 : a.1 ∈ segs (pathOf t de2) ∨ a.1.swap ∈ segs (pathOf t de2) := by
      rcases hpath with hp | hp
      · rw [hp]; exact hseg
      · rw [hp, segs_reverse, List.mem_reverse, List.mem_reverse, List.mem_map, List.mem_map]
        rcases hseg with h | h
        · exact Or.inr ⟨_, h, rfl⟩
        · exact Or.inl ⟨_, h, by simp⟩
    obtain ⟨w', hw', hin⟩ := segment_walks hr2 hring2 hde2 hseg2
    refine ⟨B, w', by rw [hsd]; exact hBs, hBA, hw', ?_⟩
    rcases hin with hin | hin
    · exact absurd (once_unique hc.once hA hw' haw hin rfl).1.symm hBA
    · have : (a.1.swap, a.2) = (a.1.swap, sides t de2.edge) := by rw [hedge, ← hsd]
      rw [this]; exact hin
  obtain ⟨B, w', hBs, hBA, hw', hin⟩ := other a haw h2
  obtain ⟨B', w'', hBs', hBA', hw'', hin'⟩ := other b hbw (by rw [← hsab]; exact h2)
  obtain rfl : B = B' := by
    rw [hsab, hBs'] at hBs
    obtain ⟨h1, h2⟩ := Prod.mk.inj hBs
    have h1 := Option.some.inj h1
    have h2 := Option.some.inj h2
    omega
  obtain ⟨c, hfc⟩ := adjoins_of_mem hin'
  have e1 := walk_continues hw.closed hw'' hfc
  have e2 := walk_continues hw.closed hA hab
  obtain ⟨rfl, rfl⟩ := start_unique hc hw'' hw' (adjoins_mem hfc).2 hin (by rw [← e1]; exact e2.symm)
  exact ⟨_, hw'', hfc⟩

theorem tidy_of_clean {δ : Type} {t : Topology δ} (hw : WellFormed t)
    (hseg : (t.edges.flatMap fun e => segs e.points ++ (segs e.points).map Prod.swap).Nodup)
    (ha : ∀ ring ∈ allRings t, wrap64 (shoelaceEdges (pathsOf t ring)) ≠ 0) (hc : Clean t) :
    NoSelfEdges t (allRings t) ∧ Tidy t := by
  have hs := noSelf_of_clean hw hseg ha hc
  refine ⟨hs, hseg, hc.once, ?_, matched_of_clean hw hs hc⟩
  rintro ⟨A, w⟩ hA
  have := (List.nodup_flatMap.mp (hc.simple A)).1 (A, w) (List.mem_filter.mpr ⟨hA, by simp⟩)
  exact this

/-- The edges of a topology made from points are single segments. -/
theorem segments_of_points {δ : Type} {m : Build} {rs : List (Region δ)} {t : Topology δ} (h : buildTopology m rs = .ok t)
    (hp : ∀ r ∈ rs, ∀ ring ∈ r.outerRings ++ r.innerRings, ∃ ps, ring = .points ps) :
    (t.edges.flatMap fun e => segs e.points ++ (segs e.points).map Prod.swap).Nodup := by
  have hpair : ∀ (ps : List Point) (e : List Point), e ∈ pairs ps → ∃ a b, e = [a, b] := by
    intro ps
    induction ps with
    | nil => simp [pairs]
    | cons x ps ih =>
      cases ps with
      | nil => simp [pairs]
      | cons y ps =>
        intro e he
        simp only [pairs, List.mem_cons] at he
        rcases he with rfl | he
        · exact ⟨x, y, rfl⟩
        · exact ih e he
  have hform : ∀ e ∈ t.edges, ∃ a b, e.points = [a, b] ∧ a < b := by
    intro e he
    have hk : e.points ∈ keysOf rs := by rw [← (buildTopology_facts h).2.1]; exact List.mem_map_of_mem he
    obtain ⟨f, hf, hst⟩ := mem_keysOf.mp hk
    obtain ⟨a, b, hab⟩ : ∃ a b, e.points = [a, b] := by
      have : ∃ a b, f = [a, b] := by
        obtain ⟨k, hk, hfk⟩ := List.mem_flatMap.mp hf
        obtain ⟨r0, hr0, rfl⟩ := List.mem_map.mp hk
        have hr0 := List.mem_of_mem_filter hr0
        have hex : ∃ ring0 ∈ r0.outerRings ++ r0.innerRings, f ∈ ringPaths ring0 := by
          rcases List.mem_append.mp hfk with hfk | hfk
          · obtain ⟨ps, hps, hfp⟩ := List.mem_flatten.mp hfk
            obtain ⟨ring0, hk0, rfl⟩ := List.mem_map.mp hps
            exact ⟨ring0, by simp [List.mem_of_mem_filter hk0], hfp⟩
          · obtain ⟨ps, hps, hfp⟩ := List.mem_flatten.mp hfk
            obtain ⟨ring0, hk0, rfl⟩ := List.mem_map.mp hps
            exact ⟨ring0, by simp [List.mem_of_mem_filter hk0], hfp⟩
        obtain ⟨ring0, hm0, hfr⟩ := hex
        obtain ⟨ps, rfl⟩ := hp r0 hr0 ring0 hm0
        exact hpair ps f (List.mem_filter.mp hfr).1
      obtain ⟨a, b, rfl⟩ := this
      rcases stored_cases [a, b] with h | h
      · exact ⟨a, b, by rw [← hst, h]⟩
      · exact ⟨b, a, by rw [← hst, h]; rfl⟩
    refine ⟨a, b, hab, ?_⟩
    obtain ⟨hz, p, q, h1, h2, h3⟩ := C09_canonical m rs t h e he
    rw [hab] at h1 h2 hz
    obtain rfl : a = p := by simpa using h1
    obtain rfl : b = q := by simpa using h2
    rcases h3 with h3 | ⟨rfl, _⟩
    · exact h3
    · exact absurd (Or.inr ⟨_, rfl⟩) hz
  have hn := (C09_unique m rs t h).1
  generalize t.edges = es at hform hn
  induction es with
  | nil => simp
  | cons e es ih =>
    rw [List.map_cons, List.nodup_cons] at hn
    rw [List.flatMap_cons]
    obtain ⟨a, b, hab, hlt⟩ := hform e (by simp)
    rw [List.nodup_append]
    refine ⟨?_, ih (fun e he => hform e (by simp [he])) hn.2, ?_⟩
    · rw [hab]
      simp [segs]
      rintro rfl
      exact absurd hlt (Point.lt_irrefl _)
    · intro x hx y hy hxy
      subst hxy
      obtain ⟨f, hf, hxf⟩ := List.mem_flatMap.mp hy
      obtain ⟨c, d, hcd, hlt'⟩ := hform f (by simp [hf])
      rw [hab] at hx
      rw [hcd] at hxf
      simp [segs] at hx hxf
      have hne : ¬ (a = c ∧ b = d) := by
        rintro ⟨rfl, rfl⟩
        exact hn.1 (by rw [hab, ← hcd]; exact List.mem_map_of_mem hf)
      have hasym : ¬ (a = d ∧ b = c) := by
        rintro ⟨rfl, rfl⟩
        exact absurd hlt (Point.lt_asymm hlt')
      rcases hx with rfl | rfl <;> rcases hxf with hxf | hxf <;> simp at hxf
      · exact hne hxf
      · exact hasym hxf
      · exact hasym hxf.symm
      · exact hne hxf.symm

end TopoGeo
