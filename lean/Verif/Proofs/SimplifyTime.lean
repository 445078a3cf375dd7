import Verif.Model.SimplifyTime
/-!
# Rounds of the simplifier

The instrumented functions compute the same results, and each sift takes
logarithmically many rounds.
-/

namespace TopoGeo

open Timed

@[simp] theorem result_pure {α : Type} (a : α) : (pure a : Timed α).result = .ok a := rfl
@[simp] theorem rounds_pure {α : Type} (a : α) : (pure a : Timed α).rounds = 0 := rfl
@[simp] theorem result_lift {α : Type} (x : R α) : (lift x).result = x := by cases x <;> rfl
@[simp] theorem rounds_lift {α : Type} (x : R α) : (lift x).rounds = 0 := by cases x <;> rfl
@[simp] theorem result_tick : tick.result = .ok () := rfl
@[simp] theorem rounds_tick : tick.rounds = 1 := rfl
@[simp] theorem result_ticks (n : Nat) : (ticks n).result = .ok () := rfl
@[simp] theorem rounds_ticks (n : Nat) : (ticks n).rounds = n := rfl
theorem result_after {α : Type} (n : Nat) (x : Timed α) : (x.after n).result = x.result := by cases x <;> rfl
theorem rounds_after {α : Type} (n : Nat) (x : Timed α) : (x.after n).rounds = n + x.rounds := by cases x <;> rfl

@[simp] theorem result_bind {α β : Type} (x : Timed α) (f : α → Timed β) :
    (x >>= f).result = x.result >>= fun a => (f a).result := by
  cases x with
  | panic e n => rfl
  | done a n => exact result_after n (f a)

theorem result_ite {α : Type} (c : Prop) [Decidable c] (x y : Timed α) :
    (if c then x else y).result = if c then x.result else y.result := by split <;> rfl

/-- The rounds of a sequence: both parts, if the first one succeeds. -/
theorem rounds_bind {α β : Type} {x : Timed α} {f : α → Timed β} {k l : Nat} (hx : x.rounds ≤ k)
    (hf : ∀ a, x.result = .ok a → (f a).rounds ≤ l) : (x >>= f).rounds ≤ k + l := by
  cases x with
  | panic e n => exact Nat.le_trans hx (Nat.le_add_right _ _)
  | done a n =>
    show ((f a).after n).rounds ≤ k + l
    rw [rounds_after]
    exact Nat.add_le_add hx (hf a rfl)

/-- The rounds after code without loops. -/
theorem rounds_lift_bind {α β : Type} {x : R α} {f : α → Timed β} {l : Nat} (hf : ∀ a, x = .ok a → (f a).rounds ≤ l) :
    (lift x >>= f).rounds ≤ l := by
  simpa using rounds_bind (x := lift x) (k := 0) (by simp) (by simpa using hf)

theorem rounds_tick_bind {β : Type} {f : Unit → Timed β} {l : Nat} (hf : (f ()).rounds ≤ l) : (tick >>= f).rounds ≤ l + 1 := by
  rw [Nat.add_comm]; exact rounds_bind (x := tick) (Nat.le_refl 1) fun _ _ => hf

theorem rounds_ticks_bind {β : Type} {n : Nat} {f : Unit → Timed β} {l : Nat} (hf : (f ()).rounds ≤ l) :
    (ticks n >>= f).rounds ≤ n + l := rounds_bind (x := ticks n) (Nat.le_refl n) fun _ _ => hf

theorem timed_pure_bind {α β : Type} (a : α) (f : α → Timed β) : (pure a >>= f : Timed β) = f a := by
  show (f a).after 0 = f a
  cases f a <;> simp [after]

theorem ok_bind' {α β : Type} (a : α) (f : α → R β) : (Except.ok a >>= f : R β) = f a := rfl

/-! ## The same results -/

theorem siftDownT_result (start e fuel : Nat) (h : PointHeap) (root : Nat) :
    (h.siftDownT start e fuel root).result = h.siftDown start e fuel root := by
  induction fuel generalizing h root with
  | zero => rfl
  | succ fuel ih =>
    simp only [PointHeap.siftDownT, PointHeap.siftDown, result_bind, result_tick, ok_bind']
    split
    · simp only [result_bind, result_lift]
      refine bind_congr fun ws => bind_congr fun wc => ?_
      split
      · simp only [result_bind, result_lift]
        refine bind_congr fun w0 => bind_congr fun wr => ?_
        simp only [result_pure, ok_bind', result_ite, result_bind, result_lift, ih]
      · simp only [result_pure, ok_bind', result_ite, result_bind, result_lift, ih]
    · rfl

theorem siftUpT_result (start fuel : Nat) (h : PointHeap) (child : Nat) :
    (h.siftUpT start fuel child).result = h.siftUp start fuel child := by
  induction fuel generalizing h child with
  | zero => rfl
  | succ fuel ih =>
    simp only [PointHeap.siftUpT, PointHeap.siftUp, result_bind, result_tick, ok_bind']
    split
    · simp only [result_bind, result_lift]
      refine bind_congr fun ws => bind_congr fun wc => ?_
      split
      · simp only [result_bind, result_lift, ih]
      · rfl
    · rfl

theorem heapifyLoopT_result (len : Nat) (h : PointHeap) (start : Nat) :
    (h.heapifyLoopT len start).result = h.heapifyLoop len start := by
  induction start generalizing h with
  | zero => simp only [PointHeap.heapifyLoopT, PointHeap.heapifyLoop, result_bind, result_tick, ok_bind', siftDownT_result]
  | succ start ih =>
    simp only [PointHeap.heapifyLoopT, PointHeap.heapifyLoop, result_bind, result_tick, ok_bind', siftDownT_result, ih]

theorem heapifyT_result (h : PointHeap) : h.heapifyT.result = h.heapify := by
  simp only [PointHeap.heapifyT, PointHeap.heapify]
  split
  · exact heapifyLoopT_result _ _ _
  · rfl

theorem fromT_result (m : Build) (vec : List Point) : (PointHeap.fromT m vec).result = PointHeap.from m vec := by
  simp only [PointHeap.fromT, PointHeap.from]
  split
  · rfl
  split
  · rfl
  split
  · rfl
  · simp only [result_bind, result_ticks, ok_bind', result_lift, heapifyT_result]

theorem popT_result (h : PointHeap) : h.popT.result = h.pop := by
  obtain ⟨pts, heap⟩ := h
  match heap with
  | [] => rfl
  | [_] => rfl
  | top :: second :: rest =>
    simp only [PointHeap.popT, PointHeap.pop, result_bind, result_lift, siftDownT_result, result_pure]

theorem reweighT_result (m : Build) (h : PointHeap) (j : Nat) (b : SPoint) (weight : R Nat) :
    (h.reweighT m j b weight).result = (do
      let w ← weight
      if w < b.weight then do
        let h1 ← h.modifyPoint j (fun p => { p with weight := w })
        h1.siftUp 0 (b.heapIndex + 1) b.heapIndex
      else if w > b.weight then do
        let h1 ← h.modifyPoint j (fun p => { p with weight := w })
        if h1.heap.length = 0 then
          .error (match m with | .debug => .overflow | .release => .index)
        else h1.siftDown b.heapIndex (h1.heap.length - 1) (h1.heap.length + 1) b.heapIndex
      else .ok h) := by
  unfold PointHeap.reweighT
  simp only [result_ite, result_bind, result_lift, siftUpT_result, siftDownT_result, result_pure]
  cases m <;> rfl

theorem recalculateT_result (m : Build) (h : PointHeap) (j : Nat) : (h.recalculateT m j).result = h.recalculate m j := by
  unfold PointHeap.recalculateT PointHeap.recalculate
  cases h.points[j]? with
  | none => rfl
  | some b =>
    simp only
    cases b.previous with
    | none => rfl
    | some ia =>
      cases b.next with
      | none => rfl
      | some ic =>
        simp only
        cases h.points[ia]? with
        | none => rfl
        | some a =>
          cases h.points[ic]? with
          | none => rfl
          | some c =>
            simp only [reweighT_result]
            cases m <;> rfl

theorem recalculateOptT_result (m : Build) (h : PointHeap) (j : Option Nat) :
    (h.recalculateOptT m j).result = h.recalculateOpt m j := by
  cases j with
  | none => rfl
  | some j => exact recalculateT_result m h j

theorem vwLoopT_result (m : Build) (s fuel lw : Nat) (h : PointHeap) :
    (h.vwLoopT m s fuel lw).result = h.vwLoop m s fuel lw := by
  induction fuel generalizing h lw with
  | zero =>
    rw [PointHeap.vwLoopT, PointHeap.vwLoop]
    split <;> rfl
  | succ fuel ih =>
    rw [PointHeap.vwLoopT, PointHeap.vwLoop]
    split
    · simp only [result_bind, result_tick, ok_bind', popT_result]
      refine bind_congr fun x => ?_
      cases hx : x.2.points[x.1]? with
      | none => rfl
      | some p =>
      simp only
      split
      · simp only [result_bind, result_lift, recalculateOptT_result, ih]
      split
      · rfl
      · simp only [result_bind, recalculateOptT_result, ih]
    · rfl

theorem visvalingamWhyattT_result (m : Build) (h : PointHeap) (s : Nat) :
    (h.visvalingamWhyattT m s).result = h.visvalingamWhyatt m s := by
  simp only [PointHeap.visvalingamWhyattT, PointHeap.visvalingamWhyatt, result_bind, vwLoopT_result, result_ticks, ok_bind']
  refine bind_congr fun h' => ?_
  generalize (h'.points.filter (fun p => p.weight ≥ s)).map (·.geo) = ret
  cases ret.head? with
  | none => rfl
  | some a =>
    cases ret.getLast? with
    | none => rfl
    | some z => simp only [result_ite, result_bind, result_ticks, ok_bind', result_lift, result_pure]

theorem simplifyEdgeT_result (m : Build) (ps : List Point) (s : Nat) : (simplifyEdgeT m ps s).result = simplifyEdge m ps s := by
  simp only [simplifyEdgeT, simplifyEdge, result_bind, result_ticks, ok_bind', fromT_result, visvalingamWhyattT_result]

theorem simplifyEdgesT_result (m : Build) (s : Nat) (es : List TopoEdge) :
    (simplifyEdgesT m s es).result = simplifyEdges m s es := by
  induction es with
  | nil => rfl
  | cons e es ih =>
    simp only [simplifyEdgesT, simplifyEdges, result_bind, result_tick, ok_bind', simplifyEdgeT_result, ih, result_pure]

theorem simplifyT_result {δ : Type} (m : Build) (t : Topology δ) (s : Nat) : (simplifyT m t s).result = simplify m t s := by
  simp only [simplifyT, simplify, result_bind, simplifyEdgesT_result, result_pure]

/-! ## The number of rounds -/

theorem log2_mono {a b : Nat} (h : a ≤ b) : a.log2 ≤ b.log2 := by
  by_cases ha : a = 0
  · subst ha; simp
  · exact (Nat.le_log2 (by omega)).2 (Nat.le_trans (Nat.log2_self_le ha) h)

theorem log2_double {a : Nat} (h : 1 ≤ a) : (2 * a).log2 = a.log2 + 1 := Nat.log2_two_mul (by omega)

theorem siftDownT_rounds (start e fuel : Nat) (h : PointHeap) (root : Nat) :
    (h.siftDownT start e fuel root).rounds ≤ ((e + 1) / (root + 1)).log2 + 1 := by
  induction fuel generalizing h root with
  | zero => simp [PointHeap.siftDownT]
  | succ fuel ih =>
    simp only [PointHeap.siftDownT]
    apply rounds_tick_bind
    by_cases hc : 2 * root + 1 ≤ e
    · rw [if_pos hc]
      have hlog : ((e + 1) / (root + 1)).log2 = ((e + 1) / (2 * root + 2)).log2 + 1 := by
        have h2 : 2 ≤ (e + 1) / (root + 1) := (Nat.le_div_iff_mul_le (by omega)).2 (by omega)
        rw [Nat.log2_def, if_pos h2, Nat.div_div_eq_div_mul]
        congr 3; omega
      have step : ∀ s : Nat, (s = root ∨ 2 * root + 1 ≤ s) → (if s = root then pure h else do
          let h' ← lift (h.swap root s)
          h'.siftDownT start e fuel s : Timed PointHeap).rounds ≤ ((e + 1) / (root + 1)).log2 := by
        intro s hs
        split
        · exact Nat.zero_le _
        · refine rounds_lift_bind fun h' _ => ?_
          refine Nat.le_trans (ih h' s) ?_
          rw [hlog]
          apply Nat.succ_le_succ
          apply log2_mono
          exact Nat.div_le_div_left (by omega) (by omega)
      refine rounds_lift_bind fun ws _ => rounds_lift_bind fun wc _ => ?_
      split
      · refine rounds_lift_bind fun w0 _ => rounds_lift_bind fun wr _ => ?_
        rw [timed_pure_bind]
        refine step _ ?_
        split
        · omega
        · split <;> omega
      · rw [timed_pure_bind]
        refine step _ ?_
        split <;> omega
    · rw [if_neg hc]; exact Nat.zero_le _

theorem siftDownT_rounds' (start e fuel : Nat) (h : PointHeap) (root : Nat) :
    (h.siftDownT start e fuel root).rounds ≤ (e + 1).log2 + 1 :=
  Nat.le_trans (siftDownT_rounds ..) (Nat.succ_le_succ (log2_mono (Nat.div_le_self _ _)))

theorem weightAt_lt {h : PointHeap} {k w : Nat} (hw : h.weightAt k = .ok w) : k < h.heap.length := by
  unfold PointHeap.weightAt at hw
  split at hw
  · cases hw
  · rename_i j hj; exact (List.getElem?_eq_some_iff.1 hj).1

theorem modifyPoint_heap {h h' : PointHeap} {j : Nat} {f : SPoint → SPoint} (hm : h.modifyPoint j f = .ok h') :
    h'.heap = h.heap ∧ h'.points.length = h.points.length := by
  unfold PointHeap.modifyPoint at hm
  split at hm
  · cases hm
  · injection hm with hm; subst hm; simp

theorem swap_length {h h' : PointHeap} {a b : Nat} (hs : h.swap a b = .ok h') :
    h'.heap.length = h.heap.length ∧ h'.points.length = h.points.length := by
  unfold PointHeap.swap at hs
  split at hs
  · rename_i pa pb _ _
    simp only at hs
    generalize hm1 : PointHeap.modifyPoint _ pb _ = r at hs
    cases r with
    | error e => cases hs
    | ok h2 =>
      have h2' := modifyPoint_heap hm1
      have h3' := modifyPoint_heap hs
      rw [h3'.1, h3'.2, h2'.1, h2'.2]
      simp
  · cases hs

theorem siftUpT_rounds_child (start fuel : Nat) (h : PointHeap) (child : Nat) :
    (h.siftUpT start fuel child).rounds ≤ (child + 1).log2 + 1 := by
  induction fuel generalizing h child with
  | zero => simp [PointHeap.siftUpT]
  | succ fuel ih =>
    simp only [PointHeap.siftUpT]
    apply rounds_tick_bind
    by_cases hc : child > start
    · rw [if_pos hc]
      refine rounds_lift_bind fun wp _ => rounds_lift_bind fun wc _ => ?_
      split
      · refine rounds_lift_bind fun h' _ => Nat.le_trans (ih h' _) ?_
        rw [show (child + 1).log2 = ((child + 1) / 2).log2 + 1 by rw [Nat.log2_def, if_pos (by omega)]]
        apply Nat.succ_le_succ
        apply log2_mono
        omega
      · exact Nat.zero_le _
    · rw [if_neg hc]; exact Nat.zero_le _

theorem siftUpT_rounds (fuel : Nat) (h : PointHeap) (child : Nat) :
    (h.siftUpT 0 fuel child).rounds ≤ h.heap.length.log2 + 1 := by
  cases fuel with
  | zero => simp [PointHeap.siftUpT]
  | succ fuel =>
    by_cases hlt : child < h.heap.length
    · exact Nat.le_trans (siftUpT_rounds_child _ _ _ _) (Nat.succ_le_succ (log2_mono hlt))
    · simp only [PointHeap.siftUpT]
      apply rounds_tick_bind
      split
      · refine rounds_lift_bind fun wp _ => rounds_lift_bind fun wc hw => ?_
        exact absurd (weightAt_lt hw) hlt
      · exact Nat.zero_le _

theorem siftDown_length {start e fuel : Nat} {h h' : PointHeap} {root : Nat} (hs : h.siftDown start e fuel root = .ok h') :
    h'.heap.length = h.heap.length ∧ h'.points.length = h.points.length := by
  induction fuel generalizing h root with
  | zero => cases hs
  | succ fuel ih =>
    simp only [PointHeap.siftDown] at hs
    split at hs
    · cases h1 : h.weightAt start with
      | error x => rw [h1] at hs; cases hs
      | ok ws =>
        cases h2 : h.weightAt (2 * root + 1) with
        | error x => rw [h1, h2] at hs; cases hs
        | ok wc =>
          rw [h1, h2] at hs
          simp only [ok_bind'] at hs
          have step : ∀ s : Nat, (if s = root then Except.ok h else do
              let h' ← h.swap root s
              h'.siftDown start e fuel s) = Except.ok h' →
              h'.heap.length = h.heap.length ∧ h'.points.length = h.points.length := by
            intro s hs
            split at hs
            · injection hs with hs; subst hs; simp
            · cases h3 : h.swap root s with
              | error x => rw [h3] at hs; cases hs
              | ok h3' =>
                rw [h3] at hs
                have a := ih hs
                have b := swap_length h3
                omega
          split at hs
          · generalize hw0 : h.weightAt (if ws > wc then 2 * root + 1 else root) = r0 at hs
            cases r0 with
            | error x => cases hs
            | ok w0 =>
              cases hw1 : h.weightAt (2 * root + 1 + 1) with
              | error x => rw [hw1] at hs; cases hs
              | ok w1 =>
                rw [hw1] at hs
                simp only [ok_bind'] at hs
                exact step _ hs
          · exact step _ hs
    · injection hs with hs; subst hs; simp

theorem siftUp_length {start fuel : Nat} {h h' : PointHeap} {child : Nat} (hs : h.siftUp start fuel child = .ok h') :
    h'.heap.length = h.heap.length ∧ h'.points.length = h.points.length := by
  induction fuel generalizing h child with
  | zero => cases hs
  | succ fuel ih =>
    simp only [PointHeap.siftUp] at hs
    split at hs
    · cases h1 : h.weightAt ((child - 1) / 2) with
      | error x => rw [h1] at hs; cases hs
      | ok ws =>
        cases h2 : h.weightAt child with
        | error x => rw [h1, h2] at hs; cases hs
        | ok wc =>
          rw [h1, h2] at hs
          simp only [ok_bind'] at hs
          split at hs
          · cases h3 : h.swap ((child - 1) / 2) child with
            | error x => rw [h3] at hs; cases hs
            | ok h3' =>
              rw [h3] at hs
              have a := ih hs
              have b := swap_length h3
              omega
          · injection hs with hs; subst hs; simp
    · injection hs with hs; subst hs; simp

theorem heapifyLoopT_rounds (len : Nat) (h : PointHeap) (start : Nat) :
    (h.heapifyLoopT len start).rounds ≤ (start + 1) * ((len - 1 + 1).log2 + 2) := by
  induction start generalizing h with
  | zero =>
    simp only [PointHeap.heapifyLoopT]
    have := rounds_tick_bind (f := fun _ => h.siftDownT 0 (len - 1) (len + 1) 0) (siftDownT_rounds' 0 (len - 1) (len + 1) h 0)
    omega
  | succ start ih =>
    simp only [PointHeap.heapifyLoopT]
    have := rounds_tick_bind (f := fun _ => h.siftDownT (start + 1) (len - 1) (len + 1) (start + 1) >>= fun h' =>
      h'.heapifyLoopT len start) (rounds_bind (siftDownT_rounds' (start + 1) (len - 1) (len + 1) h (start + 1))
        fun h' _ => ih h')
    rw [Nat.succ_mul (start + 1)]
    omega

theorem heapifyLoop_length {len start : Nat} {h h' : PointHeap} (hs : h.heapifyLoop len start = .ok h') :
    h'.heap.length = h.heap.length ∧ h'.points.length = h.points.length := by
  induction start generalizing h with
  | zero => exact siftDown_length hs
  | succ start ih =>
    simp only [PointHeap.heapifyLoop] at hs
    cases h1 : h.siftDown (start + 1) (len - 1) (len + 1) (start + 1) with
    | error x => rw [h1] at hs; cases hs
    | ok h1' =>
      rw [h1] at hs
      have a := siftDown_length h1
      have b := ih hs
      omega

theorem heapify_length {h h' : PointHeap} (hs : h.heapify = .ok h') :
    h'.heap.length = h.heap.length ∧ h'.points.length = h.points.length := by
  unfold PointHeap.heapify at hs
  split at hs
  · exact heapifyLoop_length hs
  · injection hs with hs; subst hs; simp

theorem heapifyT_rounds (h : PointHeap) : h.heapifyT.rounds ≤ h.heap.length * (h.heap.length.log2 + 2) := by
  unfold PointHeap.heapifyT
  split
  · refine Nat.le_trans (heapifyLoopT_rounds _ _ _) ?_
    rw [show h.heap.length - 1 + 1 = h.heap.length by omega]
    exact Nat.mul_le_mul_right _ (by omega)
  · exact Nat.zero_le _

theorem initPoints_length {m : Build} {i : Nat} {prev : Point} {l : List Point} {out : List SPoint}
    (h : initPoints m i prev l = .ok out) : out.length = l.length := by
  induction l generalizing i prev out with
  | nil => unfold initPoints at h; cases h; rfl
  | cons b l ih =>
    cases l with
    | nil => unfold initPoints at h; cases h; rfl
    | cons c rest =>
      simp only [initPoints] at h
      cases h1 : triWeight m prev b c with
      | error x => rw [h1] at h; cases h
      | ok w =>
        cases h2 : initPoints m (i + 1) b (c :: rest) with
        | error x => rw [h1, h2] at h; cases h
        | ok tail =>
          rw [h1, h2] at h
          have := ih h2
          obtain rfl := Except.ok.inj h
          simp [this]

theorem from_length {m : Build} {vec : List Point} {h : PointHeap} (hf : PointHeap.from m vec = .ok h) :
    h.heap.length = vec.length - 2 ∧ h.points.length = vec.length := by
  unfold PointHeap.from at hf
  split at hf
  · cases hf
  split at hf
  · cases hf
  split at hf
  · cases hf
  · rename_i p0 rest _ _
    cases h1 : initPoints m 1 p0 rest with
    | error x => rw [h1] at hf; cases hf
    | ok tail =>
      rw [h1] at hf
      have a := heapify_length hf
      have b := initPoints_length h1
      simp only [List.length_range', List.length_cons] at a ⊢
      omega

theorem fromT_rounds (m : Build) (vec : List Point) :
    (PointHeap.fromT m vec).rounds ≤ 3 * vec.length + vec.length * (vec.length.log2 + 2) := by
  unfold PointHeap.fromT
  split
  · exact Nat.zero_le _
  split
  · exact Nat.zero_le _
  split
  · exact Nat.zero_le _
  · rename_i p0 rest _ _
    generalize hn : (p0 :: rest).length = n
    have hn' : rest.length ≤ n := by simp only [List.length_cons] at hn; omega
    rw [show 3 * n + n * (n.log2 + 2) = n + (n + (n + n * (n.log2 + 2))) by omega]
    refine rounds_ticks_bind (Nat.le_trans (rounds_ticks_bind (rounds_lift_bind fun tail _ => ?_)) (Nat.add_le_add_right hn' _))
    refine Nat.le_trans (rounds_ticks_bind (heapifyT_rounds _)) ?_
    simp only [List.length_range']
    have h1 : (n - 2).log2 + 2 ≤ n.log2 + 2 := Nat.add_le_add_right (log2_mono (by omega)) 2
    exact Nat.add_le_add (by omega) (Nat.mul_le_mul (by omega) h1)

theorem popT_rounds (h : PointHeap) : h.popT.rounds ≤ h.heap.length.log2 + 1 := by
  unfold PointHeap.popT
  split
  · exact Nat.zero_le _
  · exact Nat.zero_le _
  · rename_i top second rest heq
    refine rounds_lift_bind fun h2 _ => ?_
    refine rounds_bind (l := 0) (Nat.le_trans (siftDownT_rounds' _ _ _ _ _) (Nat.succ_le_succ (log2_mono ?_)))
      fun h3 _ => rounds_lift_bind fun _ _ => Nat.le_refl 0
    rw [heq]; simp only [List.length_cons]; omega

theorem unlink_length {h h' : PointHeap} {top : Nat} (hu : h.unlink top = .ok h') :
    h'.heap.length = h.heap.length ∧ h'.points.length = h.points.length := by
  unfold PointHeap.unlink at hu
  split at hu
  · cases hu
  split at hu
  · rename_i a c _ _
    generalize hm1 : PointHeap.modifyPoint _ a _ = r at hu
    cases r with
    | error e => cases hu
    | ok h2 =>
      have h2' := modifyPoint_heap hm1
      have h3' := modifyPoint_heap hu
      rw [h3'.1, h3'.2, h2'.1, h2'.2]
      simp
  · cases hu

theorem pop_length {h h' : PointHeap} {i : Nat} (hp : h.pop = .ok (i, h')) :
    h'.heap.length + 1 = h.heap.length ∧ h'.points.length = h.points.length := by
  unfold PointHeap.pop at hp
  split at hp
  · cases hp
  · rename_i top heq
    injection hp with hp; injection hp with h1 h2; subst h2; simp [heq]
  · rename_i top second rest heq
    simp only at hp
    generalize hm : PointHeap.modifyPoint _ _ _ = r at hp
    cases r with
    | error e => cases hp
    | ok h2 =>
      simp only [ok_bind'] at hp
      generalize hsd : h2.siftDown _ _ _ _ = r at hp
      cases r with
      | error e => cases hp
      | ok h3 =>
        simp only [ok_bind'] at hp
        generalize hun : h3.unlink top = r at hp
        cases r with
        | error e => cases hp
        | ok h4 =>
          obtain ⟨_, rfl⟩ := Prod.mk.inj (Except.ok.inj hp)
          have a := modifyPoint_heap hm
          have b := siftDown_length hsd
          have c := unlink_length hun
          rw [heq, c.1, b.1, a.1, c.2, b.2, a.2]
          simp

theorem reweighT_rounds (m : Build) (h : PointHeap) (j : Nat) (b : SPoint) (weight : R Nat) :
    (h.reweighT m j b weight).rounds ≤ h.heap.length.log2 + 1 := by
  unfold PointHeap.reweighT
  refine rounds_lift_bind fun w _ => ?_
  by_cases h1 : w < b.weight
  · rw [if_pos h1]
    refine rounds_lift_bind fun h1 hm => ?_
    rw [← (modifyPoint_heap hm).1]
    exact siftUpT_rounds _ _ _
  · rw [if_neg h1]
    by_cases h2 : w > b.weight
    · rw [if_pos h2]
      refine rounds_lift_bind fun h1 hm => ?_
      rw [← (modifyPoint_heap hm).1]
      by_cases h3 : h1.heap.length = 0
      · rw [if_pos h3]; exact Nat.zero_le _
      · rw [if_neg h3]
        refine Nat.le_trans (siftDownT_rounds' _ _ _ _ _) (Nat.succ_le_succ (log2_mono ?_))
        omega
    · rw [if_neg h2]; exact Nat.zero_le _

theorem recalculateT_rounds (m : Build) (h : PointHeap) (j : Nat) : (h.recalculateT m j).rounds ≤ h.heap.length.log2 + 1 := by
  unfold PointHeap.recalculateT
  split
  · exact Nat.zero_le _
  split
  · split
    · exact reweighT_rounds ..
    · exact Nat.zero_le _
  · exact Nat.zero_le _

theorem recalculate_length {m : Build} {h h' : PointHeap} {j : Nat} (hr : h.recalculate m j = .ok h') :
    h'.heap.length = h.heap.length ∧ h'.points.length = h.points.length := by
  unfold PointHeap.recalculate at hr
  split at hr
  · cases hr
  rename_i b _
  split at hr
  · split at hr
    · rename_i a c _ _
      cases hw : triWeight m a.geo b.geo c.geo with
      | error e => rw [hw] at hr; cases hr
      | ok w =>
        rw [hw] at hr
        simp only [ok_bind'] at hr
        split at hr
        · generalize hm : PointHeap.modifyPoint _ _ _ = r at hr
          cases r with
          | error e => cases hr
          | ok h1 =>
            have a := modifyPoint_heap hm
            have b := siftUp_length hr
            rw [b.1, b.2, a.1, a.2]; simp
        split at hr
        · generalize hm : PointHeap.modifyPoint _ _ _ = r at hr
          cases r with
          | error e => cases hr
          | ok h1 =>
            simp only [ok_bind'] at hr
            split at hr
            · cases hr
            · have a := modifyPoint_heap hm
              have b := siftDown_length hr
              rw [b.1, b.2, a.1, a.2]; simp
        · injection hr with hr; subst hr; simp
    · cases hr
  · injection hr with hr; subst hr; simp

theorem recalculateOptT_rounds (m : Build) (h : PointHeap) (j : Option Nat) :
    (h.recalculateOptT m j).rounds ≤ h.heap.length.log2 + 1 := by
  cases j with
  | none => exact Nat.zero_le _
  | some j => exact recalculateT_rounds m h j

theorem recalculateOpt_length {m : Build} {h h' : PointHeap} {j : Option Nat} (hr : h.recalculateOpt m j = .ok h') :
    h'.heap.length = h.heap.length ∧ h'.points.length = h.points.length := by
  cases j with
  | none => injection hr with hr; subst hr; simp
  | some j => exact recalculate_length hr

theorem recalculate_both {m : Build} {n : Nat} {h : PointHeap} (hn : h.heap.length ≤ n) (a c : Option Nat)
    {f : PointHeap → Timed PointHeap} {l : Nat}
    (hf : ∀ h', h'.heap.length = h.heap.length → h'.points.length = h.points.length → (f h').rounds ≤ l) :
    ((do let h3 ← h.recalculateOptT m a; let h4 ← h3.recalculateOptT m c; f h4) : Timed PointHeap).rounds ≤
      (n.log2 + 1) + ((n.log2 + 1) + l) := by
  refine rounds_bind (Nat.le_trans (recalculateOptT_rounds _ _ _) (Nat.succ_le_succ (log2_mono hn))) fun h3 e3 => ?_
  rw [recalculateOptT_result] at e3
  have l3 := recalculateOpt_length e3
  refine rounds_bind (Nat.le_trans (recalculateOptT_rounds _ _ _) (Nat.succ_le_succ (log2_mono (by omega)))) fun h4 e4 => ?_
  rw [recalculateOptT_result] at e4
  have l4 := recalculateOpt_length e4
  exact hf h4 (by omega) (by omega)

theorem vwLoopT_rounds (m : Build) (s : Nat) {n : Nat} (fuel lw : Nat) {h : PointHeap} (hn : h.heap.length ≤ n) :
    (h.vwLoopT m s fuel lw).rounds ≤ fuel * (3 * n.log2 + 4) := by
  induction fuel generalizing h lw with
  | zero =>
    rw [PointHeap.vwLoopT]
    split <;> exact Nat.zero_le _
  | succ fuel ih =>
    rw [PointHeap.vwLoopT]
    split
    · have hb : (fuel + 1) * (3 * n.log2 + 4) =
          ((n.log2 + 1) + ((n.log2 + 1) + ((n.log2 + 1) + fuel * (3 * n.log2 + 4)))) + 1 := by
        rw [Nat.succ_mul]; omega
      rw [hb]
      apply rounds_tick_bind
      refine rounds_bind (Nat.le_trans (popT_rounds _) (Nat.succ_le_succ (log2_mono hn))) fun x ex => ?_
      obtain ⟨i, h1⟩ := x
      rw [popT_result] at ex
      have l1 := pop_length ex
      simp only
      split
      · exact Nat.zero_le _
      split
      · refine rounds_lift_bind fun h2 hm => ?_
        have l2 := modifyPoint_heap hm
        have l2' : h2.heap.length = h1.heap.length := by rw [l2.1]
        exact recalculate_both (by omega) _ _ fun h' hl _ => ih _ (by omega)
      split
      · exact Nat.zero_le _
      · exact recalculate_both (by omega) _ _ fun h' hl _ => ih _ (by omega)
    · exact Nat.zero_le _

theorem vwLoop_length {m : Build} {s fuel lw : Nat} {h h' : PointHeap} (hv : h.vwLoop m s fuel lw = .ok h') :
    h'.points.length = h.points.length := by
  induction fuel generalizing h lw with
  | zero =>
    rw [PointHeap.vwLoop] at hv
    split at hv
    · cases hv
    · injection hv with hv; subst hv; rfl
  | succ fuel ih =>
    rw [PointHeap.vwLoop] at hv
    split at hv
    · simp only at hv
      cases hp : h.pop with
      | error e => rw [hp] at hv; cases hv
      | ok x =>
        obtain ⟨i, h1⟩ := x
        rw [hp] at hv
        have l1 := pop_length hp
        simp only [ok_bind'] at hv
        split at hv
        · cases hv
        rename_i p _
        have both : ∀ {h2 : PointHeap} {lw' : Nat}, (do
            let h3 ← h2.recalculateOpt m p.previous
            let h4 ← h3.recalculateOpt m p.next
            h4.vwLoop m s fuel lw') = Except.ok h' → h'.points.length = h2.points.length := by
          intro h2 lw' hv
          cases h3 : h2.recalculateOpt m p.previous with
          | error e => rw [h3] at hv; cases hv
          | ok h3' =>
            rw [h3] at hv
            simp only [ok_bind'] at hv
            cases h4 : h3'.recalculateOpt m p.next with
            | error e => rw [h4] at hv; cases hv
            | ok h4' =>
              rw [h4] at hv
              have a := recalculateOpt_length h3
              have b := recalculateOpt_length h4
              have c := ih hv
              omega
        split at hv
        · generalize hm : PointHeap.modifyPoint _ _ _ = r at hv
          cases r with
          | error e => cases hv
          | ok h2 =>
            have a := modifyPoint_heap hm
            have b := both hv
            omega
        split at hv
        · injection hv with hv; subst hv; exact l1.2
        · have b := both hv
          omega
    · injection hv with hv; subst hv; rfl

theorem visvalingamWhyattT_rounds (m : Build) (h : PointHeap) (s : Nat) :
    (h.visvalingamWhyattT m s).rounds ≤ h.heap.length * (3 * h.heap.length.log2 + 4) + 2 * h.points.length := by
  unfold PointHeap.visvalingamWhyattT
  refine rounds_bind (vwLoopT_rounds m s _ _ (Nat.le_refl _)) fun h' e => ?_
  rw [vwLoopT_result] at e
  rw [← vwLoop_length e, Nat.two_mul]
  refine rounds_ticks_bind ?_
  simp only
  split
  · split
    · exact rounds_ticks_bind (l := 0) (by simp)
    · exact Nat.zero_le _
  · exact Nat.zero_le _

theorem simplifyEdgeT_rounds (m : Build) (ps : List Point) (s : Nat) :
    (simplifyEdgeT m ps s).rounds ≤ ps.length * (4 * ps.length.log2 + 12) := by
  have hb : ps.length * (4 * ps.length.log2 + 12) = ps.length + ((3 * ps.length + ps.length * (ps.length.log2 + 2)) +
      (ps.length * (3 * ps.length.log2 + 4) + 2 * ps.length)) := by
    simp only [Nat.mul_add, Nat.mul_left_comm _ 4, Nat.mul_left_comm _ 3]
    omega
  rw [hb]
  unfold simplifyEdgeT
  refine rounds_ticks_bind (rounds_bind (fromT_rounds m ps) fun h e => ?_)
  rw [fromT_result] at e
  have l := from_length e
  refine Nat.le_trans (visvalingamWhyattT_rounds m h s) ?_
  rw [l.1, l.2]
  have h1 : (ps.length - 2).log2 ≤ ps.length.log2 := log2_mono (by omega)
  exact Nat.add_le_add_right (Nat.mul_le_mul (by omega) (by omega)) _

theorem simplifyEdgesT_rounds (m : Build) (s : Nat) {n : Nat} (es : List TopoEdge)
    (hn : ∀ e ∈ es, e.points.length ≤ n) :
    (simplifyEdgesT m s es).rounds ≤ es.length + (es.map (·.points.length)).sum * (4 * n.log2 + 12) := by
  induction es with
  | nil => exact Nat.zero_le _
  | cons e es ih =>
    have hb : (e :: es).length + ((e :: es).map (·.points.length)).sum * (4 * n.log2 + 12) =
        (e.points.length * (4 * n.log2 + 12) + ((es.length + (es.map (·.points.length)).sum * (4 * n.log2 + 12)) + 0)) + 1 := by
      simp only [List.length_cons, List.map_cons, List.sum_cons, Nat.add_mul]; omega
    rw [hb]
    refine rounds_tick_bind (rounds_bind (Nat.le_trans (simplifyEdgeT_rounds m e.points s) ?_) fun ps _ => ?_)
    · have := log2_mono (hn e (by simp))
      exact Nat.mul_le_mul_left _ (by omega)
    · exact rounds_bind (ih fun x hx => hn x (by simp [hx])) fun _ _ => Nat.le_refl 0

end TopoGeo
