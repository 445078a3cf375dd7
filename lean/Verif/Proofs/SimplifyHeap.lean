import Verif.Proofs.Simplify
/-!
# Helper lemmas: the lightest point is on top of a fresh heap
-/

namespace TopoGeo

open Spec

/-- The weight at a place of the heap. -/
def PointHeap.w (h : PointHeap) (k : Nat) : Option Nat := h.heap[k]?.bind fun j => h.points[j]?.map (·.weight)

theorem weightAt_ok {h : PointHeap} {k v : Nat} (hw : h.weightAt k = .ok v) : h.w k = some v := by
  unfold PointHeap.weightAt at hw
  unfold PointHeap.w
  split at hw
  · simp at hw
  · rename_i j hj
    rw [hj]
    split at hw
    · simp at hw
    · rename_i p hp
      obtain rfl := Except.ok.inj hw
      simp [hp]

theorem swap_w {h h' : PointHeap} {a b : Nat} (hs : h.swap a b = .ok h') (k : Nat) :
    h'.w k = if k = b then h.w a else if k = a then h.w b else h.w k := by
  unfold PointHeap.swap at hs
  split at hs
  · rename_i pa pb ha hb
    simp only [PointHeap.modifyPoint, bind_ok] at hs
    obtain ⟨h2, h3, hs⟩ := hs
    split at h3
    · simp at h3
    · rename_i p hp
      obtain rfl := Except.ok.inj h3
      split at hs
      · simp at hs
      · rename_i q hq
        obtain rfl := Except.ok.inj hs
        -- the weights of points
        have hpt : ∀ (j : Nat), ((h.points.set pb { p with heapIndex := a }).set pa { q with heapIndex := b })[j]?.map (·.weight) =
            h.points[j]?.map (·.weight) := by
          intro j
          simp only at hp hq
          have e1 := congrArg (fun l => l[j]?.map (·.weight)) (strip_set (k := b) hq)
          have e2 := congrArg (fun l => l[j]?.map (·.weight)) (strip_set (k := a) hp)
          simp only [List.getElem?_map, Option.map_map] at e1 e2
          exact e1.trans e2
        have hal := (List.getElem?_eq_some_iff.mp ha).1
        have hbl := (List.getElem?_eq_some_iff.mp hb).1
        unfold PointHeap.w
        simp only [hpt]
        by_cases h1 : k = b
        · subst h1
          rw [if_pos rfl, List.getElem?_set, if_pos rfl, if_pos (by simpa using hbl), ha]
        · rw [if_neg h1, List.getElem?_set, if_neg (fun h => h1 h.symm), List.getElem?_set]
          by_cases h2 : k = a
          · subst h2
            rw [if_pos rfl, if_pos hal, if_pos rfl, hb]
          · rw [if_neg (fun h => h2 h.symm), if_neg h2]
  · simp at hs

/-- `u` lies in the subtree of `s`. -/
inductive Under (s : Nat) : Nat → Prop where
  | self : Under s s
  | left {u : Nat} : Under s u → Under s (2 * u + 1)
  | right {u : Nat} : Under s u → Under s (2 * u + 2)

theorem Under.le {s u : Nat} (h : Under s u) : s ≤ u := by induction h <;> omega

theorem Under.trans {a b c : Nat} (h1 : Under a b) (h2 : Under b c) : Under a c := by
  induction h2 with
  | self => exact h1
  | left _ ih => exact .left ih
  | right _ ih => exact .right ih

theorem Under.parent {s u : Nat} (h : Under s u) : u = s ∨ (0 < u ∧ Under s ((u - 1) / 2)) := by
  cases h with
  | self => exact Or.inl rfl
  | @left v h => right; refine ⟨by omega, ?_⟩; rwa [show (2 * v + 1 - 1) / 2 = v by omega]
  | @right v h => right; refine ⟨by omega, ?_⟩; rwa [show (2 * v + 2 - 1) / 2 = v by omega]

theorem Under.child {s u : Nat} (h : Under s u) : u = s ∨ Under (2 * s + 1) u ∨ Under (2 * s + 2) u := by
  induction h with
  | self => exact Or.inl rfl
  | left _ ih =>
    rcases ih with rfl | ih | ih
    · exact Or.inr (Or.inl .self)
    · exact Or.inr (Or.inl (.left ih))
    · exact Or.inr (Or.inr (.left ih))
  | right _ ih =>
    rcases ih with rfl | ih | ih
    · exact Or.inr (Or.inr .self)
    · exact Or.inr (Or.inl (.right ih))
    · exact Or.inr (Or.inr (.right ih))

theorem Under.comparable {a b u : Nat} (ha : Under a u) (hb : Under b u) : Under a b ∨ Under b a := by
  induction u using Nat.strongRecOn with
  | _ u ih =>
    rcases ha.parent with rfl | ⟨h1, ha'⟩
    · exact Or.inr hb
    · rcases hb.parent with rfl | ⟨h2, hb'⟩
      · exact Or.inl ha
      · exact ih _ (by omega) ha' hb'

/-- Sifting moves weights within the subtree. -/
theorem siftDown_w {start e fuel root : Nat} {h h' : PointHeap} (hs : h.siftDown start e fuel root = .ok h') :
    (∀ u, ¬ Under root u → h'.w u = h.w u) ∧ ∀ u, Under root u → u ≤ e → ∃ v, Under root v ∧ v ≤ e ∧ h'.w u = h.w v := by
  induction fuel generalizing h root with
  | zero => simp [PointHeap.siftDown] at hs
  | succ fuel ih =>
    unfold PointHeap.siftDown at hs
    simp only at hs
    split at hs
    · rename_i hc
      simp only [bind_ok] at hs
      obtain ⟨ws, _, wc, _, hs⟩ := hs
      generalize hs0d : (if ws > wc then 2 * root + 1 else root) = s0 at hs
      have hs0 : s0 = root ∨ s0 = 2 * root + 1 := by split at hs0d <;> omega
      have hfin : ∀ s1, (s1 = root ∨ s1 = 2 * root + 1 ∨ (s1 = 2 * root + 2 ∧ 2 * root + 2 ≤ e)) →
          (if s1 = root then Except.ok h else do
            let h' ← h.swap root s1
            PointHeap.siftDown start e fuel h' s1) = .ok h' →
          (∀ u, ¬ Under root u → h'.w u = h.w u) ∧
            ∀ u, Under root u → u ≤ e → ∃ v, Under root v ∧ v ≤ e ∧ h'.w u = h.w v := by
        intro s1 hs1 hs
        split at hs
        · obtain rfl := Except.ok.inj hs
          exact ⟨fun _ _ => rfl, fun u hu hle => ⟨u, hu, hle, rfl⟩⟩
        · rename_i hne
          obtain ⟨h1, hsw, hrec⟩ := bind_ok.mp hs
          obtain ⟨k1, k2⟩ := ih hrec
          have hu1 : Under root s1 := by
            rcases hs1 with h | h | h
            · exact absurd h hne
            · rw [h]; exact .left .self
            · rw [h.1]; exact .right .self
          have hle1 : s1 ≤ e := by omega
          have hw := swap_w hsw
          have hmove : ∀ u, Under root u → u ≤ e → ∃ v, Under root v ∧ v ≤ e ∧ h1.w u = h.w v := by
            intro u hu hle
            rw [hw]
            split
            · exact ⟨root, .self, by omega, rfl⟩
            · split
              · exact ⟨s1, hu1, hle1, rfl⟩
              · exact ⟨u, hu, hle, rfl⟩
          constructor
          · intro u hu
            rw [k1 u fun h => hu (hu1.trans h), hw, if_neg (fun h => hu (by rw [h]; exact hu1)),
              if_neg (fun h => hu (by rw [h]; exact .self))]
          · intro u hu hle
            by_cases hus : Under s1 u
            · obtain ⟨v, hv, hve, heq⟩ := k2 u hus hle
              obtain ⟨x, hx, hxe, heq'⟩ := hmove v (hu1.trans hv) hve
              exact ⟨x, hx, hxe, by rw [heq, heq']⟩
            · obtain ⟨x, hx, hxe, heq'⟩ := hmove u hu hle
              exact ⟨x, hx, hxe, by rw [k1 u hus, heq']⟩
      split at hs
      · simp only [bind_ok] at hs
        obtain ⟨w0, _, wr, _, s1, h1, hs⟩ := hs
        obtain rfl := Except.ok.inj h1
        exact hfin _ (by split <;> omega) hs
      · simp only [bind_ok] at hs
        obtain ⟨s1, h1, hs⟩ := hs
        obtain rfl := Except.ok.inj h1
        exact hfin _ (by omega) hs
    · obtain rfl := Except.ok.inj hs
      exact ⟨fun _ _ => rfl, fun u hu hle => ⟨u, hu, hle, rfl⟩⟩

/-- The lightest point of a subtree is on top. -/
def IsMin (h : PointHeap) (e v : Nat) : Prop :=
  ∀ u, Under v u → u ≤ e → ∀ x y, h.w v = some x → h.w u = some y → x ≤ y

/-- One correct round is enough for the top of the subtree. -/
theorem siftDown_min {start e fuel : Nat} {h h' : PointHeap} (hs : h.siftDown start e fuel start = .ok h')
    (h1 : IsMin h e (2 * start + 1)) (h2 : IsMin h e (2 * start + 2)) : IsMin h' e start := by
  cases fuel with
  | zero => simp [PointHeap.siftDown] at hs
  | succ fuel =>
    unfold PointHeap.siftDown at hs
    simp only at hs
    split at hs
    · rename_i hc
      simp only [bind_ok] at hs
      obtain ⟨ws, hws, wc, hwc, hs⟩ := hs
      have hws := weightAt_ok hws
      have hwc := weightAt_ok hwc
      generalize hs0d : (if ws > wc then 2 * start + 1 else start) = s0 at hs
      have hs0 : (s0 = start ∧ ws ≤ wc) ∨ (s0 = 2 * start + 1 ∧ wc ≤ ws) := by split at hs0d <;> omega
      have hfin : ∀ s1 wm, (s1 = start ∨ s1 = 2 * start + 1 ∨ (s1 = 2 * start + 2 ∧ 2 * start + 2 ≤ e)) → h.w s1 = some wm →
          wm ≤ ws → wm ≤ wc → (2 * start + 2 ≤ e → ∃ wr, h.w (2 * start + 2) = some wr ∧ wm ≤ wr) →
          (if s1 = start then Except.ok h else do
            let h' ← h.swap start s1
            PointHeap.siftDown start e fuel h' s1) = .ok h' → IsMin h' e start := by
        intro s1 wm hs1 hwm hm1 hm2 hm3 hs
        -- `wm` is the least weight below
        have hleast : ∀ u, Under start u → u ≤ e → ∀ y, h.w u = some y → wm ≤ y := by
          intro u hu hle y hy
          rcases hu.child with rfl | hu | hu
          · rw [hws] at hy; obtain rfl := Option.some.inj hy; exact hm1
          · exact Nat.le_trans hm2 (h1 u hu hle wc y hwc hy)
          · have hr : 2 * start + 2 ≤ e := Nat.le_trans hu.le hle
            obtain ⟨wr, hwr, hm⟩ := hm3 hr
            exact Nat.le_trans hm (h2 u hu hle wr y hwr hy)
        split at hs
        · rename_i heq
          obtain rfl := Except.ok.inj hs
          intro u hu hle x y hx hy
          rw [← heq, hwm] at hx
          obtain rfl := Option.some.inj hx
          exact hleast u hu hle y hy
        · rename_i hne
          obtain ⟨h3, hsw, hrec⟩ := bind_ok.mp hs
          obtain ⟨k1, k2⟩ := siftDown_w hrec
          have hw := swap_w hsw
          have hlt : start < s1 := by omega
          have hu1 : Under start s1 := by
            rcases hs1 with h | h | h
            · exact absurd h hne
            · rw [h]; exact .left .self
            · rw [h.1]; exact .right .self
          have hmove : ∀ u, Under start u → u ≤ e → ∀ y, h3.w u = some y → wm ≤ y := by
            intro u hu hle y hy
            rw [hw] at hy
            split at hy
            · exact hleast start .self (by omega) y hy
            · split at hy
              · exact hleast s1 hu1 (by omega) y hy
              · exact hleast u hu hle y hy
          intro u hu hle x y hx hy
          rw [k1 start (fun h => by have := h.le; omega), hw, if_neg (by omega), if_pos rfl, hwm] at hx
          obtain rfl := Option.some.inj hx
          by_cases hus : Under s1 u
          · obtain ⟨v, hv, hve, heq⟩ := k2 u hus hle
            rw [heq] at hy
            exact hmove v (hu1.trans hv) hve y hy
          · rw [k1 u hus] at hy
            exact hmove u hu hle y hy
      split at hs
      · simp only [bind_ok] at hs
        obtain ⟨w0, hw0, wr, hwr, s1, he1, hs⟩ := hs
        obtain rfl := Except.ok.inj he1
        have hw0 := weightAt_ok hw0
        have hwr := weightAt_ok hwr
        have hw0' : w0 ≤ ws ∧ w0 ≤ wc := by
          rcases hs0 with ⟨rfl, hle⟩ | ⟨rfl, hle⟩
          · rw [hws] at hw0; obtain rfl := Option.some.inj hw0; exact ⟨Nat.le_refl _, hle⟩
          · rw [hwc] at hw0; obtain rfl := Option.some.inj hw0; exact ⟨hle, Nat.le_refl _⟩
        split at hs
        · rename_i hgt
          exact hfin (2 * start + 1 + 1) wr (by omega) hwr (by omega) (by omega) (fun _ => ⟨wr, hwr, Nat.le_refl _⟩) hs
        · rename_i hgt
          exact hfin s0 w0 (by omega) hw0 (by omega) (by omega) (fun _ => ⟨wr, hwr, by omega⟩) hs
      · simp only [bind_ok] at hs
        obtain ⟨s1, he1, hs⟩ := hs
        obtain rfl := Except.ok.inj he1
        rcases hs0 with ⟨rfl, hle⟩ | ⟨rfl, hle⟩
        · exact hfin _ ws (by omega) hws (by omega) (by omega) (fun _ => by omega) hs
        · exact hfin _ wc (by omega) hwc (by omega) (by omega) (fun _ => by omega) hs
    · obtain rfl := Except.ok.inj hs
      intro u hu hle x y hx hy
      rcases hu.child with rfl | hu | hu
      · rw [hx] at hy; obtain rfl := Option.some.inj hy; exact Nat.le_refl _
      · have := hu.le; omega
      · have := hu.le; omega

theorem heapifyLoop_min {len start : Nat} {h h' : PointHeap} (hl : start < len)
    (hs : h.heapifyLoop len start = .ok h')
    (hm : ∀ v, start < v → v < len → (v - 1) / 2 < start + 1 → IsMin h (len - 1) v) : IsMin h' (len - 1) 0 := by
  have hout : ∀ v, ¬ v ≤ len - 1 → ∀ h : PointHeap, IsMin h (len - 1) v := by
    intro v hv h u hu hle
    have := hu.le
    omega
  induction start generalizing h with
  | zero =>
    unfold PointHeap.heapifyLoop at hs
    refine siftDown_min hs ?_ ?_
    · by_cases h1 : 2 * 0 + 1 < len
      · exact hm _ (by omega) h1 (by omega)
      · exact hout _ (by omega) _
    · by_cases h1 : 2 * 0 + 2 < len
      · exact hm _ (by omega) h1 (by omega)
      · exact hout _ (by omega) _
  | succ start ih =>
    unfold PointHeap.heapifyLoop at hs
    obtain ⟨h1, h2, h3⟩ := bind_ok.mp hs
    refine ih (by omega) h3 ?_
    intro v hv hvl hvp
    by_cases heq : v = start + 1
    · subst heq
      refine siftDown_min h2 ?_ ?_
      · by_cases h1 : 2 * (start + 1) + 1 < len
        · exact hm _ (by omega) h1 (by omega)
        · exact hout _ (by omega) _
      · by_cases h1 : 2 * (start + 1) + 2 < len
        · exact hm _ (by omega) h1 (by omega)
        · exact hout _ (by omega) _
    · -- the subtree of `v` is not touched
      have hmin := hm v (by omega) hvl (by omega)
      obtain ⟨k1, _⟩ := siftDown_w h2
      have hdis : ∀ u, Under v u → ¬ Under (start + 1) u := by
        intro u hu hu'
        rcases hu.comparable hu' with hc | hc
        · have := hc.le; omega
        · rcases hc.parent with hc | ⟨_, hc⟩
          · exact heq hc
          · have := hc.le; omega
      intro u hu hle x y hx hy
      rw [k1 v (hdis v .self)] at hx
      rw [k1 u (hdis u hu)] at hy
      exact hmin u hu hle x y hx hy

theorem under_zero (u : Nat) : Under 0 u := by
  induction u using Nat.strongRecOn with
  | _ u ih =>
    by_cases h0 : u = 0
    · subst h0; exact .self
    · have := ih ((u - 1) / 2) (by omega)
      rcases Nat.mod_two_eq_zero_or_one u with h | h
      · rw [show u = 2 * ((u - 1) / 2) + 2 by omega]; exact .right this
      · rw [show u = 2 * ((u - 1) / 2) + 1 by omega]; exact .left this

/-- The top of a fresh heap is the lightest point. -/
theorem heapify_min {h h' : PointHeap} (hs : h.heapify = .ok h') {u x y : Nat} (hu : u < h.heap.length)
    (hx : h'.w 0 = some x) (hy : h'.w u = some y) : x ≤ y := by
  unfold PointHeap.heapify at hs
  split at hs
  · refine heapifyLoop_min (by omega) hs ?_ u (under_zero u) (by omega) x y hx hy
    intro v hv hvl _ u hu hle x y hx hy
    rcases hu.child with rfl | hu | hu
    · rw [hx] at hy; obtain rfl := Option.some.inj hy; exact Nat.le_refl _
    · have := hu.le; omega
    · have := hu.le; omega
  · obtain rfl := Except.ok.inj hs
    have : u = 0 := by omega
    subst this
    rw [hx] at hy; obtain rfl := Option.some.inj hy; exact Nat.le_refl _

/-! ## The first point to go -/

theorem simplifyEdge_first {m : Build} {ps out : List Point} {s : Nat} (hs : s ≤ u64Max)
    (h : simplifyEdge m ps s = .ok out) : ∃ kept, Simplified ps s kept out ∧
      ((ps.head? = ps.getLast? ∧ out.length = 4) ∨ ∀ j a b c, ps[j]? = some a → ps[j + 1]? = some b →
        ps[j + 2]? = some c → weightOf a b c < s → ∃ i a' b' c', ps[i]? = some a' ∧ ps[i + 1]? = some b' ∧
          ps[i + 2]? = some c' ∧ i + 1 ∉ kept ∧ weightOf a' b' c' < s ∧
          ∀ k x y z, ps[k]? = some x → ps[k + 1]? = some y → ps[k + 2]? = some z →
            weightOf a' b' c' ≤ weightOf x y z) := by
  have hp : Simplifiable ps := by
    by_contra hp
    rw [simplifyEdge_not hp] at h
    simp at h
  simp only [simplifyEdge, PointHeap.visvalingamWhyatt, bind_ok] at h
  obtain ⟨h0, h1, h2, h3, h⟩ := h
  obtain ⟨hi, hf, hall, h00, hheap, hl00⟩ := (from_safe s hp).of_ok h1
  obtain ⟨hw, _, htop⟩ := (vwLoop_safe hp.1 hi (Nat.le_refl _) (Or.inl rfl)).of_ok h3
  obtain ⟨kept, hk, hheavy⟩ := (finish_safe (E := True) hs hp hw).of_ok h
  refine ⟨kept, hk, ?_⟩
  rcases hheavy with hheavy | hheavy
  · right
    intro j a b c ha hb hc hlt
    -- weights of points of the fresh heap
    have hweight : ∀ (k : Nat) (x y z : Point), ps[k]? = some x → ps[k + 1]? = some y → ps[k + 2]? = some z →
        ∃ (u : Nat) (p : SPoint), h0.heap[u]? = some (k + 1) ∧ h0.points[k + 1]? = some p ∧ p.weight = weightOf x y z := by
      intro k x y z hx hy hz
      have hlt := (List.getElem?_eq_some_iff.mp hz).1
      have hmem := hall (k + 1) (by omega) (by omega)
      obtain ⟨u, hu⟩ := List.mem_iff_getElem?.mp hmem
      have hpl := List.getElem?_eq_getElem (hi.ok.bound _ hmem)
      obtain ⟨x', y', z', k1, k2, k3, k4⟩ := hf _ _ hpl (by omega) (by omega)
      rw [show k + 1 - 1 = k by omega, hx] at k1
      rw [hy] at k2
      rw [show k + 1 + 1 = k + 2 by omega, hz] at k3
      rw [← Option.some.inj k1, ← Option.some.inj k2, ← Option.some.inj k3] at k4
      exact ⟨u, _, hu, hpl, k4⟩
    obtain ⟨u, p, hu, hpu, hpw⟩ := hweight j a b c ha hb hc
    have hpos : 0 < h0.heap.length := by
      have := (List.getElem?_eq_some_iff.mp hu).1
      omega
    have hg := List.getElem?_eq_getElem hpos
    have hr := hi.range _ (List.mem_of_getElem? hg)
    obtain ⟨i, hi1⟩ : ∃ i, h0.heap[0] = i + 1 := ⟨h0.heap[0] - 1, by omega⟩
    rw [hi1] at hg hr
    have hgp := List.getElem?_eq_getElem (hi.ok.bound _ (List.mem_of_getElem? hg))
    obtain ⟨a', b', c', k1, k2, k3, k4⟩ := hf _ _ hgp hr.1 hr.2
    rw [show i + 1 - 1 = i by omega] at k1
    rw [show i + 1 + 1 = i + 2 by omega] at k3
    have hmin : ∀ k x y z, ps[k]? = some x → ps[k + 1]? = some y → ps[k + 2]? = some z →
        weightOf a' b' c' ≤ weightOf x y z := by
      intro k x y z hx hy hz
      obtain ⟨v, q, hv, hq, hqw⟩ := hweight k x y z hx hy hz
      rw [← k4, ← hqw]
      refine heapify_min hheap (u := v) ?_ ?_ ?_
      · rw [hl00]; exact (List.getElem?_eq_some_iff.mp hv).1
      · simp [PointHeap.w, hg, hgp]
      · simp [PointHeap.w, hv, hq]
    have hlt' : weightOf a' b' c' < s := by
      have := hmin j a b c ha hb hc
      omega
    refine ⟨i, a', b', c', k1, k2, k3, ?_, hlt', hmin⟩
    rw [hheavy]
    intro hmem
    obtain ⟨q, hq, hqw⟩ := mem_heavy.mp hmem
    have := htop (i + 1) _ q (by rw [List.head?_eq_getElem?]; exact hg) hgp (Nat.zero_le _) (by rw [k4]; exact hlt') hq
    omega
  · exact Or.inl hheavy

end TopoGeo
