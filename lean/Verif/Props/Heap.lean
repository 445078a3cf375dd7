import Verif.Spec.Heap
import Verif.Proofs.SimplifyHeap
/-!
# C97 — which operations of the heap are right
-/

namespace TopoGeo

open Spec

theorem placeWeight_eq (h : PointHeap) (k : Nat) : placeWeight h k = h.w k := by
  unfold placeWeight PointHeap.w
  cases h.heap[k]? with
  | none => rfl
  | some j =>
    simp only [Option.bind_some]
    cases h.points[j]? <;> rfl

theorem swap_rearranged {h h' : PointHeap} {a b : Nat} (hs : h.swap a b = .ok h') : Rearranged h h' := by
  unfold PointHeap.swap at hs
  split at hs
  · rename_i pa pb ha hb
    simp only [PointHeap.modifyPoint, bind_ok] at hs
    obtain ⟨h2, h3, hs⟩ := hs
    split at h3
    · simp at h3
    · rename_i p hp
      obtain rfl := Except.ok.inj h3
      split at hs
      · simp at hs
      · rename_i q hq
        obtain rfl := Except.ok.inj hs
        obtain ⟨hal, rfl⟩ := List.getElem?_eq_some_iff.mp ha
        obtain ⟨hbl, rfl⟩ := List.getElem?_eq_some_iff.mp hb
        refine ⟨List.set_set_perm hal hbl, fun j => ?_⟩
        simp only at hp hq ⊢
        rw [List.getElem?_set]
        split
        · rename_i hj
          subst hj
          rw [List.getElem?_set] at hq
          have hl := (List.getElem?_eq_some_iff.mp hp).1
          split at hq
          · rename_i hj
            obtain rfl := Option.some.inj hq
            rw [← hj, hp, if_pos (by simpa using hl)]
            rfl
          · rw [hq, if_pos (by simpa using (List.getElem?_eq_some_iff.mp hq).1)]
            rfl
        · rw [List.getElem?_set]
          split
          · rename_i hj
            subst hj
            rw [hp, if_pos (List.getElem?_eq_some_iff.mp hp).1]
            rfl
          · rfl
  · simp at hs

theorem Spec.Rearranged.refl (h : PointHeap) : Rearranged h h := ⟨.refl _, fun _ => rfl⟩

theorem Spec.Rearranged.trans {h h' h'' : PointHeap} (h1 : Rearranged h h') (h2 : Rearranged h' h'') : Rearranged h h'' :=
  ⟨h2.1.trans h1.1, fun j => (h2.2 j).trans (h1.2 j)⟩

theorem swap_placed {h h' : PointHeap} {a b : Nat} (hp : Placed h) (hs : h.swap a b = .ok h') : Placed h' := by
  unfold PointHeap.swap at hs
  split at hs
  · rename_i pa pb ha hb
    simp only [PointHeap.modifyPoint, bind_ok] at hs
    obtain ⟨h2, h3, hs⟩ := hs
    split at h3
    · simp at h3
    · rename_i p hpp
      obtain rfl := Except.ok.inj h3
      split at hs
      · simp at hs
      · rename_i q hq
        obtain rfl := Except.ok.inj hs
        simp only at hpp hq
        have hpl := (List.getElem?_eq_some_iff.mp hpp).1
        have hql := (List.getElem?_eq_some_iff.mp hq).1
        rw [List.length_set] at hql
        intro k j hk
        simp only at hk ⊢
        rw [List.getElem?_set] at hk
        split at hk
        · rename_i hkb
          subst hkb
          split at hk
          · obtain rfl := Option.some.inj hk
            exact ⟨_, by rw [List.getElem?_set, if_pos rfl, if_pos (by simpa using hql)], rfl⟩
          · cases hk
        · rename_i hkb
          rw [List.getElem?_set] at hk
          split at hk
          · rename_i hka
            subst hka
            split at hk
            · obtain rfl := Option.some.inj hk
              have hne : pa ≠ pb := by
                rintro rfl
                obtain ⟨x, hx, e1⟩ := hp _ _ ha
                obtain ⟨y, hy, e2⟩ := hp _ _ hb
                rw [hx] at hy
                obtain rfl := Option.some.inj hy
                exact hkb (by omega)
              exact ⟨_, by rw [List.getElem?_set, if_neg hne, List.getElem?_set, if_pos rfl, if_pos hpl], rfl⟩
            · cases hk
          · rename_i hka
            obtain ⟨x, hx, e1⟩ := hp _ _ hk
            have hne : ∀ {i c : Nat}, h.heap[i]? = some c → i ≠ k → c ≠ j := by
              rintro i c hi hik rfl
              obtain ⟨y, hy, e2⟩ := hp _ _ hi
              rw [hx] at hy
              obtain rfl := Option.some.inj hy
              exact hik (by omega)
            exact ⟨x, by rw [List.getElem?_set, if_neg (hne ha hka), List.getElem?_set, if_neg (hne hb hkb)]; exact hx, e1⟩
  · simp at hs

/-! ## Sifting up -/

/-- **C97.** Sifting up a point that may be too light puts the heap in order. -/
theorem C97_up (fuel : Nat) (h h' : PointHeap) (i : Nat) (ho : OrderBut h i) (hs : h.siftUp 0 fuel i = .ok h') :
    HeapOrder h' ∧ Rearranged h h' ∧ (Placed h → Placed h') := by
  induction fuel generalizing h i with
  | zero => simp [PointHeap.siftUp] at hs
  | succ fuel ih =>
    unfold PointHeap.siftUp at hs
    split at hs
    · rename_i hi
      simp only [bind_ok] at hs
      obtain ⟨wp, hwp, wc, hwc, hs⟩ := hs
      have hwp := weightAt_ok hwp
      have hwc := weightAt_ok hwc
      split at hs
      · rename_i hlt
        obtain ⟨h1, hsw, hs⟩ := bind_ok.mp hs
        have hw := swap_w hsw
        have hr := swap_rearranged hsw
        suffices hb : OrderBut h1 ((i - 1) / 2) by
          obtain ⟨k1, k2, k3⟩ := ih h1 ((i - 1) / 2) hb hs
          exact ⟨k1, hr.trans k2, fun hp => k3 (swap_placed hp hsw)⟩
        obtain ⟨o1, o2⟩ := ho
        constructor
        · intro k hk hne x y hx hy
          rw [placeWeight_eq, hw] at hx hy
          by_cases e1 : k = i
          · subst e1
            rw [if_pos rfl] at hy
            rw [if_neg (by omega), if_pos rfl] at hx
            rw [hwp] at hy
            rw [hwc] at hx
            cases hx; cases hy
            omega
          · rw [if_neg e1, if_neg hne] at hy
            by_cases e2 : (k - 1) / 2 = i
            · rw [if_pos e2] at hx
              exact o2 k hi hk e2 x y (by rw [placeWeight_eq]; exact hx) (by rw [placeWeight_eq]; exact hy)
            · rw [if_neg e2] at hx
              split at hx
              · rename_i e3
                rw [hwc] at hx
                obtain rfl := Option.some.inj hx
                have := o1 k hk e1 wp y (by rw [placeWeight_eq, e3]; exact hwp) (by rw [placeWeight_eq]; exact hy)
                omega
              · exact o1 k hk e1 x y (by rw [placeWeight_eq]; exact hx) (by rw [placeWeight_eq]; exact hy)
        · intro k hp hk hkp x y hx hy
          rw [placeWeight_eq, hw] at hx hy
          rw [if_neg (by omega), if_neg (by omega)] at hx
          have hup := o1 ((i - 1) / 2) hp (by omega) x wp (by rw [placeWeight_eq]; exact hx) (by rw [placeWeight_eq]; exact hwp)
          by_cases e1 : k = i
          · rw [if_pos e1, hwp] at hy
            obtain rfl := Option.some.inj hy
            exact hup
          · rw [if_neg e1, if_neg (by omega)] at hy
            have := o1 k hk e1 wp y (by rw [placeWeight_eq, hkp]; exact hwp) (by rw [placeWeight_eq]; exact hy)
            omega
      · rename_i hge
        obtain rfl := Except.ok.inj hs
        refine ⟨fun k hk => ?_, .refl _, id⟩
        by_cases e : k = i
        · subst e
          intro x y hx hy
          rw [placeWeight_eq] at hx hy
          rw [hwp] at hx
          rw [hwc] at hy
          cases hx; cases hy; omega
        · exact ho.1 k hk e
    · rename_i hi
      obtain rfl := Except.ok.inj hs
      exact ⟨fun k hk => ho.1 k hk (by omega), .refl _, id⟩

/-! ## Sifting down -/

theorem siftDown_kept {start e fuel root : Nat} {h h' : PointHeap} (hs : h.siftDown start e fuel root = .ok h') :
    Rearranged h h' ∧ (Placed h → Placed h') := by
  induction fuel generalizing h root with
  | zero => simp [PointHeap.siftDown] at hs
  | succ fuel ih =>
    unfold PointHeap.siftDown at hs
    simp only at hs
    split at hs
    · simp only [bind_ok] at hs
      obtain ⟨ws, _, wc, _, hs⟩ := hs
      have hfin : ∀ s1, (if s1 = root then Except.ok h else do
            let h' ← h.swap root s1
            PointHeap.siftDown start e fuel h' s1) = .ok h' → Rearranged h h' ∧ (Placed h → Placed h') := by
        intro s1 hs
        split at hs
        · obtain rfl := Except.ok.inj hs
          exact ⟨.refl _, id⟩
        · obtain ⟨h1, hsw, hs⟩ := bind_ok.mp hs
          obtain ⟨k1, k2⟩ := ih hs
          exact ⟨(swap_rearranged hsw).trans k1, fun hp => k2 (swap_placed hp hsw)⟩
      split at hs
      · simp only [bind_ok] at hs
        obtain ⟨_, _, _, _, s1, _, hs⟩ := hs
        exact hfin s1 hs
      · simp only [bind_ok] at hs
        obtain ⟨s1, _, hs⟩ := hs
        exact hfin s1 hs
    · obtain rfl := Except.ok.inj hs
      exact ⟨.refl _, id⟩

theorem Spec.Rearranged.length {h h' : PointHeap} (hr : Rearranged h h') : h'.heap.length = h.heap.length := hr.1.length_eq

theorem placeWeight_lt {h : PointHeap} {k x : Nat} (hw : placeWeight h k = some x) : k < h.heap.length := by
  unfold placeWeight at hw
  split at hw
  · cases hw
  · rename_i hk
    exact (List.getElem?_eq_some_iff.mp hk).1

/-- **C97.** Sifting down moves points to other places and they know their places
afterwards, if they knew them before; with no more than three points, the heap is in
order afterwards. -/
theorem C97_down (fuel : Nat) (h h' : PointHeap) (hs : h.siftDown 0 (h.heap.length - 1) fuel 0 = .ok h') :
    Rearranged h h' ∧ (Placed h → Placed h') ∧ (h.heap.length ≤ 3 → HeapOrder h') := by
  obtain ⟨hr, hp⟩ := siftDown_kept hs
  refine ⟨hr, hp, fun hl k hk x y hx hy => ?_⟩
  have hkl := placeWeight_lt hy
  rw [hr.length] at hkl
  rw [placeWeight_eq] at hx hy
  have hmin : IsMin h' (h.heap.length - 1) 0 := siftDown_min hs
    (fun u hu hle x y hx hy => by
      have hu1 := hu.le
      have : u = 2 * 0 + 1 := by
        rcases hu.child with h | h | h
        · exact h
        · have := h.le; omega
        · have := h.le; omega
      rw [this, hx] at hy
      cases hy
      exact Nat.le_refl _)
    (fun u hu hle x y hx hy => by
      have hu1 := hu.le
      have : u = 2 * 0 + 2 := by
        rcases hu.child with h | h | h
        · exact h
        · have := h.le; omega
        · have := h.le; omega
      rw [this, hx] at hy
      cases hy
      exact Nat.le_refl _)
  refine hmin k (under_zero k) (by omega) x y ?_ hy
  rw [← hx, show (k - 1) / 2 = 0 by omega]

/-- **C97.** If all is in order but that the topmost point may be too heavy, sifting it
down puts a lightest point on top, however many there are. -/
theorem C97_down_top (fuel : Nat) (h h' : PointHeap) (hw : ∀ k, k < h.heap.length → placeWeight h k ≠ none)
    (ho : OrderAbove h 0) (hs : h.siftDown 0 (h.heap.length - 1) fuel 0 = .ok h') : ∀ k, NoHeavier h' 0 k := by
  have hmin : ∀ v, 0 < v → IsMin h (h.heap.length - 1) v := by
    intro v hv u hu hle x y hx hy
    have hstep : ∀ k, Under v ((k - 1) / 2) → 0 < k → (∀ y, (k - 1) / 2 ≤ h.heap.length - 1 → h.w ((k - 1) / 2) = some y → x ≤ y) →
        k ≤ h.heap.length - 1 → ∀ y, h.w k = some y → x ≤ y := by
      intro k hu hk ih hle y hy
      have hul := hu.le
      have hkl := placeWeight_lt (h := h) (by rw [placeWeight_eq]; exact hy)
      obtain ⟨z, hz⟩ := Option.ne_none_iff_exists'.mp (hw ((k - 1) / 2) (by omega))
      have h1 := ih z (by omega) (by rw [← placeWeight_eq]; exact hz)
      have h2 := ho.1 k hk (by omega) z y hz (by rw [placeWeight_eq]; exact hy)
      omega
    induction hu generalizing y with
    | self =>
      rw [hx] at hy
      cases hy
      exact Nat.le_refl _
    | @left u hu ih =>
      have e : (2 * u + 1 - 1) / 2 = u := by omega
      exact hstep (2 * u + 1) (by rw [e]; exact hu) (by omega) (by rw [e]; exact fun y h1 h2 => ih h1 y h2) hle y hy
    | @right u hu ih =>
      have e : (2 * u + 2 - 1) / 2 = u := by omega
      exact hstep (2 * u + 2) (by rw [e]; exact hu) (by omega) (by rw [e]; exact fun y h1 h2 => ih h1 y h2) hle y hy
  intro k x y hx hy
  have hkl := placeWeight_lt hy
  rw [(siftDown_kept hs).1.length] at hkl
  rw [placeWeight_eq] at hx hy
  exact siftDown_min hs (hmin _ (by omega)) (hmin _ (by omega)) k (under_zero k) (by omega) x y hx hy

/-- A heap of points of given weights that do not know their places. -/
def exHeap (ws : List Nat) : PointHeap :=
  ⟨ws.map fun w => ⟨⟨0, 0⟩, w, 0, none, none⟩, List.range ws.length⟩

/-- Sifting down is wrong from four points on: in later rounds the left child is
compared with the wrong point. -/
theorem C97_down_refuted : ¬ ∀ (fuel : Nat) (h h' : PointHeap), (∀ k, k < h.heap.length → placeWeight h k ≠ none) →
    OrderAbove h 0 → h.siftDown 0 (h.heap.length - 1) fuel 0 = .ok h' → HeapOrder h' := by
  intro hall
  have e : ∃ h', (exHeap [2, 0, 3, 1]).siftDown 0 3 5 0 = .ok h' ∧ placeWeight h' 1 = some 2 ∧ placeWeight h' 3 = some 1 := by
    refine ⟨((exHeap [2, 0, 3, 1]).siftDown 0 3 5 0).toOption.getD ⟨[], []⟩, ?_⟩
    decide +kernel
  obtain ⟨h', h1, h2, h3⟩ := e
  have := hall 5 (exHeap [2, 0, 3, 1]) h' (by decide) ?_ h1 3 (by omega) 2 1 h2 h3
  · omega
  · refine ⟨fun k hk hne x y hx hy => ?_, fun k h0 => absurd h0 (by omega)⟩
    have hkl := placeWeight_lt hy
    have hk4 : k < 4 := hkl
    have : k = 3 := by omega
    subst this
    obtain rfl : 0 = x := Option.some.inj hx
    exact Nat.zero_le _

/-! ## A fresh heap -/

theorem heapifyLoop_kept {len : Nat} : ∀ (start : Nat) {h h' : PointHeap}, h.heapifyLoop len start = .ok h' →
    Rearranged h h' ∧ (Placed h → Placed h')
  | 0, h, h', hs => siftDown_kept hs
  | start + 1, h, h', hs => by
    unfold PointHeap.heapifyLoop at hs
    obtain ⟨h1, e1, e2⟩ := bind_ok.mp hs
    obtain ⟨a1, a2⟩ := siftDown_kept e1
    obtain ⟨b1, b2⟩ := heapifyLoop_kept start e2
    exact ⟨a1.trans b1, fun hp => b2 (a2 hp)⟩

/-- **C97.** Building a heap puts a lightest point on top, and puts all in order if there
are no more than three points. -/
theorem C97_heapify (h h' : PointHeap) (hs : h.heapify = .ok h') :
    Rearranged h h' ∧ (Placed h → Placed h') ∧ (∀ k, NoHeavier h' 0 k) ∧ (h.heap.length ≤ 3 → HeapOrder h') := by
  have hk : Rearranged h h' ∧ (Placed h → Placed h') := by
    unfold PointHeap.heapify at hs
    split at hs
    · exact heapifyLoop_kept _ hs
    · obtain rfl := Except.ok.inj hs
      exact ⟨.refl _, id⟩
  have htop : ∀ k, NoHeavier h' 0 k := by
    intro k x y hx hy
    have hkl := placeWeight_lt hy
    rw [hk.1.length] at hkl
    rw [placeWeight_eq] at hx hy
    exact heapify_min hs hkl hx hy
  refine ⟨hk.1, hk.2, htop, fun hl k h0 x y hx hy => ?_⟩
  have hkl := placeWeight_lt hy
  rw [hk.1.length] at hkl
  refine htop k x y ?_ hy
  rw [← hx, show (k - 1) / 2 = 0 by omega]

/-- With four points, building a heap may leave points out of order. -/
theorem C97_heapify_refuted : ¬ ∀ (h h' : PointHeap), h.heapify = .ok h' → HeapOrder h' := by
  intro hall
  have e : ∃ h', (exHeap [2, 1, 3, 0]).heapify = .ok h' ∧ placeWeight h' 1 = some 2 ∧ placeWeight h' 3 = some 1 := by
    refine ⟨((exHeap [2, 1, 3, 0]).heapify).toOption.getD ⟨[], []⟩, ?_⟩
    decide +kernel
  obtain ⟨h', h1, h2, h3⟩ := e
  have := hall _ h' h1 3 (by omega) 2 1 h2 h3
  omega

/-- Points of a fresh heap need not know their places: three points in order all take
theirs for the first. -/
theorem C97_places_refuted : ¬ ∀ (m : Build) (ps : List Point) (h : PointHeap), PointHeap.from m ps = .ok h → Placed h := by
  intro hall
  have e : ∃ h, PointHeap.from .debug [⟨1, 1⟩, ⟨1, 2⟩, ⟨2, 4⟩, ⟨9, 9⟩] = .ok h ∧ h.heap = [1, 2] ∧
      h.points[2]?.map (·.heapIndex) = some 0 := by
    refine ⟨(PointHeap.from .debug [⟨1, 1⟩, ⟨1, 2⟩, ⟨2, 4⟩, ⟨9, 9⟩]).toOption.getD ⟨[], []⟩, ?_⟩
    decide +kernel
  obtain ⟨h, h1, h2, h3⟩ := e
  obtain ⟨p, h4, h5⟩ := hall _ _ h h1 1 2 (by rw [h2]; rfl)
  rw [h4] at h3
  simp only [Option.map_some, Option.some.injEq] at h3
  omega

/-! ## Weighing again -/

/-- **C97.** If all is in order and points know their places, a point that becomes lighter
is put where it belongs. -/
theorem C97_lighter (m : Build) (h h' : PointHeap) (j : Nat) (ho : HeapOrder h) (hp : Placed h) (hj : j ∈ h.heap)
    (hs : h.recalculate m j = .ok h')
    (hl : ∀ p p' : SPoint, h.points[j]? = some p → h'.points[j]? = some p' → p'.weight ≤ p.weight) :
    HeapOrder h' ∧ Placed h' ∧ h'.heap.Perm h.heap := by
  unfold PointHeap.recalculate at hs
  split at hs
  · cases hs
  · rename_i b hb
    split at hs
    · split at hs
      · rename_i ia ic _ _ a c _ _
        obtain ⟨w, hw, hs⟩ := bind_ok.mp hs
        obtain ⟨k, hk⟩ := List.mem_iff_getElem?.mp hj
        obtain ⟨b', hb', hbk⟩ := hp k j hk
        rw [hb] at hb'
        obtain rfl := Option.some.inj hb'
        have hjl := (List.getElem?_eq_some_iff.mp hb).1
        have huniq : ∀ k', h.heap[k']? = some j → k' = k := by
          intro k' hk'
          obtain ⟨b'', hb'', hbk''⟩ := hp k' j hk'
          rw [hb] at hb''
          obtain rfl := Option.some.inj hb''
          omega
        subst hbk
        -- the heap with the new weight
        have hset : ∀ x, placeWeight { h with points := h.points.set j { b with weight := w } } x =
            if x = b.heapIndex then some w else placeWeight h x := by
          intro x
          unfold placeWeight
          simp only
          split
          · rename_i hx
            rw [if_neg (by rintro rfl; rw [hx] at hk; cases hk)]
          · rename_i i hx
            rw [List.getElem?_set]
            by_cases he : j = i
            · subst he
              rw [if_pos rfl, if_pos hjl, if_pos (huniq x hx)]
            · rw [if_neg he, if_neg (by rintro rfl; rw [hx] at hk; exact he (Option.some.inj hk).symm)]
        have hold : placeWeight h b.heapIndex = some b.weight := by
          unfold placeWeight
          simp only [hk, hb]
        have hp1 : Placed { h with points := h.points.set j { b with weight := w } } := by
          intro x i hx
          obtain ⟨q, h1, h2⟩ := hp x i hx
          by_cases he : j = i
          · subst he
            exact ⟨{ b with weight := w }, by rw [List.getElem?_set, if_pos rfl, if_pos hjl], by
              rw [hb] at h1; obtain rfl := Option.some.inj h1; exact h2⟩
          · exact ⟨q, by rw [List.getElem?_set, if_neg he]; exact h1, h2⟩
        split at hs
        · rename_i hlt
          simp only [PointHeap.modifyPoint, hb, ok_bind] at hs
          have hbut : OrderBut { h with points := h.points.set j { b with weight := w } } b.heapIndex := by
            constructor
            · intro x hx0 hxk y z hy hz
              rw [hset] at hy hz
              rw [if_neg hxk] at hz
              split at hy
              · rename_i he
                obtain rfl := Option.some.inj hy
                have := ho x hx0 b.weight z (by rw [he]; exact hold) hz
                omega
              · exact ho x hx0 y z hy hz
            · intro x hk0 hx0 hxk y z hy hz
              rw [hset] at hy hz
              rw [if_neg (by omega)] at hy hz
              have h1 := ho b.heapIndex hk0 y b.weight hy hold
              have h2 := ho x hx0 b.weight z (by rw [hxk]; exact hold) hz
              omega
          obtain ⟨k1, k2, k3⟩ := C97_up _ _ _ _ hbut hs
          exact ⟨k1, k3 hp1, k2.1⟩
        · split at hs
          · rename_i hgt
            simp only [PointHeap.modifyPoint, hb, ok_bind] at hs
            split at hs
            · cases hs
            · obtain ⟨k1, _⟩ := siftDown_kept hs
              have hpt := k1.2 j
              simp only [List.getElem?_set, if_pos hjl, if_true] at hpt
              cases hq : h'.points[j]? with
              | none => rw [hq] at hpt; cases hpt
              | some q =>
                rw [hq] at hpt
                simp only [Option.map_some, Option.some.injEq, Prod.mk.injEq] at hpt
                have := hl b q hb hq
                omega
          · obtain rfl := Except.ok.inj hs
            exact ⟨ho, hp, .refl _⟩
      · cases hs
    · obtain rfl := Except.ok.inj hs
      exact ⟨ho, hp, .refl _⟩

/-! ### The hypotheses can be met -/

-- a point that went from 7 to 0 rises to the top
example : (((exHeap [1, 2, 4, 3, 0]).siftUp 0 5 4).toOption.map fun h => (List.range 5).map (placeWeight h)) =
    some [some 0, some 1, some 4, some 3, some 2] := by decide +kernel

example : OrderBut (exHeap [1, 2, 4, 3, 0]) 4 ∧ ¬ HeapOrder (exHeap [1, 2, 4, 3, 0]) := by
  constructor
  · constructor
    · intro k hk hne x y hx hy
      have hkl : k < 5 := placeWeight_lt hy
      have : k = 1 ∨ k = 2 ∨ k = 3 := by omega
      rcases this with rfl | rfl | rfl
      · obtain rfl : 1 = x := Option.some.inj hx
        obtain rfl : 2 = y := Option.some.inj hy
        omega
      · obtain rfl : 1 = x := Option.some.inj hx
        obtain rfl : 4 = y := Option.some.inj hy
        omega
      · obtain rfl : 2 = x := Option.some.inj hx
        obtain rfl : 3 = y := Option.some.inj hy
        omega
    · intro k _ hk hk4 x y hx hy
      have hkl : k < 5 := placeWeight_lt hy
      omega
  · intro h
    have := h 4 (by omega) 2 0 rfl rfl
    omega

-- three points, the heaviest on top
example : (((exHeap [5, 4, 3]).siftDown 0 2 4 0).toOption.map fun h => (List.range 3).map (placeWeight h)) =
    some [some 3, some 4, some 5] := by decide +kernel

-- points that know their places, one of which becomes lighter
example : (({ points := [⟨⟨1, 1⟩, u64Max, 0, some 1, none⟩, ⟨⟨1, 2⟩, 3, 0, some 2, some 0⟩,
      ⟨⟨2, 4⟩, 900, 1, some 3, some 1⟩, ⟨⟨9, 9⟩, u64Max, 0, none, some 2⟩], heap := [1, 2] } : PointHeap).recalculate .debug 2).toOption.map
      (fun h => (h.heap, (List.range 2).map (placeWeight h))) = some ([2, 1], [some 2, some 3]) := by decide +kernel

end TopoGeo
