import Verif.Spec.SimplifyRun
import Verif.Proofs.SimplifyHeap
/-!
# Simplifying an edge is a run of eliminations
-/

namespace TopoGeo

open Spec

/-! ## The machine -/

theorem Spec.Weighs.inner {ps : List Point} {left : List Nat} {j w : Nat} (h : Weighs ps left j w) :
    j ∈ left ∧ 0 < j ∧ j + 1 < ps.length := by
  obtain ⟨i, k, a, b, c, ⟨_, h1, _, h2, h3, _⟩, _, _, h4, _⟩ := h
  have := (List.getElem?_eq_some_iff.mp h4).1
  exact ⟨h1, by omega, by omega⟩

theorem Spec.Weighs.unique {ps : List Point} {left : List Nat} {j v w : Nat} (h : Weighs ps left j v)
    (h' : Weighs ps left j w) : v = w := by
  obtain ⟨i, k, a, b, c, ⟨h1, h2, h3, h4, h5, h6⟩, ha, hb, hc, rfl⟩ := h
  obtain ⟨i', k', a', b', c', ⟨h1', h2', h3', h4', h5', h6'⟩, ha', hb', hc', rfl⟩ := h'
  have hi : i = i' := by
    have := (h6 i' h1').1
    have := (h6' i h1).1
    omega
  have hk : k = k' := by
    have := (h6 k' h3').2
    have := (h6' k h3).2
    omega
  subst hi hk
  rw [ha] at ha'; rw [hb] at hb'; rw [hc] at hc'
  rw [Option.some.inj ha', Option.some.inj hb', Option.some.inj hc']

theorem Spec.Run.nodup {ps : List Point} {s : Nat} {left : List Nat} {gone : List (Nat × Nat)} (h : Run ps s left gone) :
    left.Nodup := by
  induction h with
  | start => exact List.nodup_range
  | step _ _ _ ih => exact ih.erase _

theorem Spec.Run.last_lt {ps : List Point} {s : Nat} {left : List Nat} {gone : List (Nat × Nat)} (h : Run ps s left gone) :
    lastGone gone = 0 ∨ lastGone gone < s := by
  induction h with
  | start => exact Or.inl rfl
  | step _ _ _ ih => rw [lastGone]; omega

theorem Spec.Run.gone_lt {ps : List Point} {s : Nat} {left : List Nat} {gone : List (Nat × Nat)} (h : Run ps s left gone) :
    ∀ x ∈ gone, x.2 < s := by
  induction h with
  | start => simp
  | step h1 _ _ ih =>
    intro x hx
    have := h1.last_lt
    rcases List.mem_cons.mp hx with rfl | hx
    · simp only; omega
    · exact ih x hx

theorem Spec.Run.part {ps : List Point} {s : Nat} {left : List Nat} {gone : List (Nat × Nat)} (h : Run ps s left gone) :
    ∀ x, x < ps.length ↔ x ∈ left ∨ x ∈ gone.map (·.1) := by
  induction h with
  | start => simp
  | step h1 hw _ ih =>
    rename_i j w _
    intro x
    rw [ih x, h1.nodup.mem_erase_iff, List.map_cons, List.mem_cons]
    have := hw.inner.1
    by_cases hx : x = j
    · subst hx; simp [this]
    · simp [hx]

theorem Spec.Run.gone_not {ps : List Point} {s : Nat} {left : List Nat} {gone : List (Nat × Nat)} (h : Run ps s left gone) :
    ∀ x ∈ gone, x.1 ∉ left := by
  induction h with
  | start => simp
  | step h1 hw _ ih =>
    intro x hx
    rw [h1.nodup.mem_erase_iff]
    rcases List.mem_cons.mp hx with rfl | hx
    · simp
    · exact fun h => ih x hx h.2

/-- The first point that goes counts for what it weighs at first. -/
theorem Spec.Run.first {ps : List Point} {s : Nat} {left : List Nat} {gone : List (Nat × Nat)} (h : Run ps s left gone)
    {x : Nat × Nat} (hx : gone.getLast? = some x) : Weighs ps (List.range ps.length) x.1 x.2 := by
  induction h with
  | start => cases hx
  | @step left gone j w h1 hw _ ih =>
    cases gone with
    | nil =>
      cases h1
      simp only [List.getLast?_singleton, Option.some.injEq] at hx
      subst hx
      simpa [lastGone] using hw
    | cons y rest => exact ih (by rw [List.getLast?_cons_cons] at hx; exact hx)

/-! ## Weighing again -/

/-- What weighing the point at `j` again does. -/
def Reweighed (ps : List Point) (j : Nat) (h h' : PointHeap) : Prop :=
  ∀ (x : Nat) (p : SPoint), h'.points[x]? = some p → ∃ q, h.points[x]? = some q ∧ p.previous = q.previous ∧
    p.next = q.next ∧ (x ≠ j → p.weight = q.weight) ∧
    (x = j → (∀ ia ic, q.previous = some ia → q.next = some ic → ∃ a b c, ps[ia]? = some a ∧ ps[j]? = some b ∧
      ps[ic]? = some c ∧ p.weight = weightOf a b c) ∧
      (q.previous = none ∨ q.next = none → p.weight = q.weight))

theorem recalculate_reweighs {m : Build} {ps : List Point} {s : Nat} {h : PointHeap} (hi : Inv ps s h)
    (hn : 2 ≤ ps.length) {j : Nat} (hj : j = 0 ∨ j + 1 = ps.length ∨ j ∈ h.heap) :
    Safe (Overflows m ps) (h.recalculate m j) (Reweighed ps j h) := by
  have hlen := points_length hi.weights
  have hjl : j < h.points.length := by
    rcases hj with h1 | h1 | h1
    · omega
    · omega
    · exact hi.ok.bound j h1
  have hget := List.getElem?_eq_getElem hjl
  have hsame : (h.points[j].previous = none ∨ h.points[j].next = none) → Reweighed ps j h h := by
    intro hnone x p hp
    refine ⟨p, hp, rfl, rfl, fun _ => rfl, fun hx => ⟨fun ia ic h1 h2 => ?_, fun _ => rfl⟩⟩
    rw [hx, hget] at hp
    rw [Option.some.inj hp, h1, h2] at hnone
    simp at hnone
  unfold PointHeap.recalculate
  rw [hget]
  simp only
  rcases hj with rfl | h1 | hmem
  · have := hi.links.first _ hget
    rw [this]
    exact Safe.ok (hsame (Or.inl this))
  · have : h.points[ps.length - 1]? = some h.points[j] := by
      rw [show ps.length - 1 = j by omega]; exact hget
    have := hi.links.last _ this
    rw [this]
    split
    · rename_i heq; simp at heq
    · exact Safe.ok (hsame (Or.inr this))
  · obtain ⟨a, ha, hat, haL, _⟩ := hi.links.prev j hmem _ hget
    obtain ⟨c, hc, htc, hcL, _⟩ := hi.links.next j hmem _ hget
    have hr := hi.range j hmem
    have hal : a < h.points.length := by omega
    have hcl : c < h.points.length := by
      rcases hcL with h1 | h1
      · omega
      · exact hi.ok.bound c h1
    have hga := List.getElem?_eq_getElem hal
    have hgc := List.getElem?_eq_getElem hcl
    rw [ha, hc]
    simp only [hga, hgc]
    refine (triWeight_safe (List.mem_of_getElem? (geo_get hi.weights hga)) (List.mem_of_getElem? (geo_get hi.weights hget))
      (List.mem_of_getElem? (geo_get hi.weights hgc))).bind fun w hw => ?_
    have hhas : HasWeight ps j (· = w) :=
      ⟨a, c, _, _, _, hat, htc, geo_get hi.weights hga, geo_get hi.weights hget, geo_get hi.weights hgc, hw.symm⟩
    have hhas' : HasWeight ps j (· ≤ w) := by
      obtain ⟨i, k, x, y, z, h1, h2, h3, h4, h5, h6⟩ := hhas
      exact ⟨i, k, x, y, z, h1, h2, h3, h4, h5, Nat.le_of_eq h6⟩
    have hinv := setWeight_inv hi hget hr (w := w) ⟨hhas', fun _ => hhas⟩
    obtain ⟨k, hk, hkj⟩ := List.mem_iff_getElem.mp hmem
    have hidx := hi.ok.index k j _ (by rw [List.getElem?_eq_getElem hk, hkj]) hget
    have hwx : ∀ p : SPoint, p.weight = w → ∀ ia ic, h.points[j].previous = some ia → h.points[j].next = some ic →
        ∃ a b c, ps[ia]? = some a ∧ ps[j]? = some b ∧ ps[ic]? = some c ∧ p.weight = weightOf a b c := by
      intro p hp ia ic h1 h2
      rw [ha] at h1
      rw [hc] at h2
      obtain rfl := Option.some.inj h1
      obtain rfl := Option.some.inj h2
      exact ⟨_, _, _, geo_get hi.weights hga, geo_get hi.weights hget, geo_get hi.weights hgc, by rw [hp, hw]⟩
    have hun : ∀ h' : PointHeap,
        Shuffled { h with points := h.points.set j { h.points[j] with weight := w } } h' → Reweighed ps j h h' := by
      intro h' hsh x p hp
      obtain ⟨q, hq, hst⟩ := strip_get hsh.points hp
      obtain ⟨_, e1, e2, e3⟩ := strip_eq hst
      rcases get_set (f := fun q => { q with weight := w }) hget hq with ⟨rfl, rfl⟩ | ⟨hne, hq⟩
      · refine ⟨_, hget, e3.symm, e2.symm, fun h => absurd rfl h, fun _ => ⟨hwx p e1.symm, ?_⟩⟩
        rw [ha, hc]; simp
      · exact ⟨q, hq, e3.symm, e2.symm, fun _ => e1.symm, fun h => absurd h hne⟩
    simp only [PointHeap.modifyPoint, hget, ok_bind]
    split
    · exact (siftUp_safe hinv.ok (by simp only; omega) (by omega)).imp fun h' hh' => hun _ hh'.2
    · split
      · have hpos : h.heap.length ≠ 0 := by omega
        rw [if_neg hpos]
        exact (siftDown_safe hinv.ok (Nat.le_refl _) (by simp only; omega) (by omega) (by omega)).imp
          fun h' hh' => hun _ hh'.2
      · refine Safe.ok ?_
        intro x p hp
        refine ⟨p, hp, rfl, rfl, fun _ => rfl, fun hx => ?_⟩
        subst hx
        rw [hget] at hp
        obtain rfl := Option.some.inj hp
        refine ⟨hwx _ (by omega), fun _ => rfl⟩

/-! ## The loop -/

/-- The state of the code at a state of the machine. -/
structure At (ps : List Point) (s : Nat) (h : PointHeap) (lw : Nat) (left : List Nat) (gone : List (Nat × Nat)) : Prop where
  inv : Inv ps s h
  run : Run ps s left gone
  last : lw = lastGone gone
  mem : ∀ x, x ∈ left ↔ x = 0 ∨ x + 1 = ps.length ∨ x ∈ h.heap
  now : ∀ j ∈ h.heap, ∀ p, h.points[j]? = some p → Weighs ps left j p.weight
  gone : ∀ x ∈ gone, ∀ p, h.points[x.1]? = some p → p.weight = x.2

/-- The weights at the end of a run. -/
structure Ended (ps : List Point) (s : Nat) (pts : List SPoint) (left : List Nat) (gone : List (Nat × Nat)) : Prop where
  run : Run ps s left gone
  stops : Stops ps s left
  now : ∀ j ∈ left, 0 < j → j + 1 < ps.length → ∀ p, pts[j]? = some p → Weighs ps left j p.weight
  gone : ∀ x ∈ gone, ∀ p, pts[x.1]? = some p → p.weight = x.2

theorem weighs_of_links {ps : List Point} {s : Nat} {h : PointHeap} {left : List Nat} (hi : Inv ps s h)
    (hm : ∀ x, x ∈ left ↔ x = 0 ∨ x + 1 = ps.length ∨ x ∈ h.heap) {j : Nat} {p : SPoint} (hj : j ∈ h.heap)
    (hp : h.points[j]? = some p)
    (hw : ∀ ia ic, p.previous = some ia → p.next = some ic → ∃ a b c, ps[ia]? = some a ∧ ps[j]? = some b ∧
      ps[ic]? = some c ∧ p.weight = weightOf a b c) : Weighs ps left j p.weight := by
  obtain ⟨ia, h1, h2, h3, h4⟩ := hi.links.prev j hj p hp
  obtain ⟨ic, k1, k2, k3, k4⟩ := hi.links.next j hj p hp
  obtain ⟨a, b, c, e1, e2, e3, e4⟩ := hw ia ic h1 k1
  have hr := hi.range j hj
  have hic := (List.getElem?_eq_some_iff.mp e3).1
  refine ⟨ia, ic, a, b, c, ⟨(hm ia).mpr (h3.imp_right Or.inr), (hm j).mpr (Or.inr (Or.inr hj)),
    (hm ic).mpr (Or.inr k3), h2, k2, fun x hx => ?_⟩, e1, e2, e3, e4⟩
  rcases (hm x).mp hx with rfl | h5 | h5
  · omega
  · omega
  · exact ⟨h4 x h5, k4 x h5⟩

/-- Weights that do not depend on a point stay when it goes. -/
theorem Spec.Weighs.erase {ps : List Point} {left : List Nat} {j w i a c : Nat} (hn : left.Nodup) (h : Weighs ps left j w)
    (hi : i ∈ left) (ha : a ∈ left) (hc : c ∈ left) (hai : a < i) (hic : i < c)
    (hbet : ∀ x ∈ left, ¬ (a < x ∧ x < i) ∧ ¬ (i < x ∧ x < c)) (hji : j ≠ i) (hja : j ≠ a) (hjc : j ≠ c) :
    Weighs ps (left.erase i) j w := by
  obtain ⟨x, y, p, q, r, ⟨h1, h2, h3, h4, h5, h6⟩, e1, e2, e3, e4⟩ := h
  have hx : x ≠ i := by
    rintro rfl
    have := (hbet j h2).2
    have := (h6 c hc).1
    omega
  have hy : y ≠ i := by
    rintro rfl
    have := (hbet j h2).1
    have := (h6 a ha).2
    omega
  exact ⟨x, y, p, q, r, ⟨hn.mem_erase_iff.mpr ⟨hx, h1⟩, hn.mem_erase_iff.mpr ⟨hji, h2⟩, hn.mem_erase_iff.mpr ⟨hy, h3⟩,
    h4, h5, fun z hz => h6 z (List.mem_of_mem_erase hz)⟩, e1, e2, e3, e4⟩

theorem At.step {ps : List Point} {s lw : Nat} {h h1 h2 h3 h4 : PointHeap} {left : List Nat} {gone : List (Nat × Nat)}
    {i a c : Nat} {t : SPoint} (hn : 2 ≤ ps.length) (hat : At ps s h lw left gone) (hp : Popped ps s h (i, h1))
    (ht : h1.points[i]? = some t) (ha : t.previous = some a) (hc : t.next = some c) (hs : t.weight < s)
    (hh2 : h2.heap = h1.heap)
    (h2w : ∀ (x : Nat) (p : SPoint), h2.points[x]? = some p → ∃ q, h1.points[x]? = some q ∧
      (x ≠ i → p.weight = q.weight) ∧ (x = i → p.weight = max t.weight lw))
    (hh3 : h3.heap.Perm h2.heap) (hr3 : Reweighed ps a h2 h3) (hi4 : Inv ps s h4) (hh4 : h4.heap.Perm h3.heap)
    (hr4 : Reweighed ps c h3 h4) :
    At ps s h4 (max t.weight lw) (left.erase i) ((i, max t.weight lw) :: gone) := by
  obtain ⟨t', a', c', e1, e2, e3, haL, hcL⟩ := hp.point
  simp only at e1 haL hcL
  rw [ht] at e1
  obtain rfl := Option.some.inj e1
  rw [ha] at e2
  rw [hc] at e3
  obtain rfl := Option.some.inj e2
  obtain rfl := Option.some.inj e3
  obtain ⟨hai, hic, hbet⟩ := hp.near t a c ht ha hc
  simp only at hai hic hbet
  have hrange := hp.range
  simp only at hrange
  have hmem : ∀ x, x ∈ h4.heap ↔ x ∈ h.heap ∧ x ≠ i := fun x => by
    rw [hh4.mem_iff, hh3.mem_iff, hh2]; exact hp.mem x
  have hnd := hat.run.nodup
  have hiH : i ∈ h.heap := List.mem_of_mem_head? hp.top
  have hiL : i ∈ left := (hat.mem i).mpr (Or.inr (Or.inr hiH))
  have haL' : a ∈ left := (hat.mem a).mpr (haL.imp_right fun h => Or.inr (hp.sub h))
  have hcL' : c ∈ left := (hat.mem c).mpr (Or.inr (hcL.imp_right fun h => hp.sub h))
  have hcn : c + 1 ≤ ps.length := by
    rcases hcL with h | h
    · omega
    · have := hp.inv.range c h; omega
  have hbetL : ∀ x ∈ left, ¬ (a < x ∧ x < i) ∧ ¬ (i < x ∧ x < c) := by
    intro x hx
    rcases (hat.mem x).mp hx with rfl | h5 | h5
    · omega
    · omega
    · by_cases hxi : x = i
      · omega
      · exact hbet x ((hp.mem x).mpr ⟨h5, hxi⟩)
  have hmem' : ∀ x, x ∈ left.erase i ↔ x = 0 ∨ x + 1 = ps.length ∨ x ∈ h4.heap := by
    intro x
    rw [hnd.mem_erase_iff, hat.mem, hmem]
    constructor
    · rintro ⟨h5, h6 | h6 | h6⟩
      · exact Or.inl h6
      · exact Or.inr (Or.inl h6)
      · exact Or.inr (Or.inr ⟨h6, h5⟩)
    · rintro (h6 | h6 | h6)
      · exact ⟨by omega, Or.inl h6⟩
      · exact ⟨by omega, Or.inr (Or.inl h6)⟩
      · exact ⟨h6.2, Or.inr (Or.inr h6.1)⟩
  have hwt : Weighs ps left i t.weight := by
    obtain ⟨q, hq, he⟩ := hp.weights i t ht
    rw [he]
    exact hat.now i hiH q hq
  refine ⟨hi4, ?_, rfl, hmem', ?_, ?_⟩
  · rw [hat.last]
    exact hat.run.step hwt hs
  · intro j hj p4 hp4
    obtain ⟨p3, hp3, l1, l2, l3, l4⟩ := hr4 j p4 hp4
    obtain ⟨p2, hp2, n1, n2, n3, n4⟩ := hr3 j p3 hp3
    by_cases hjc : j = c
    · subst hjc
      refine weighs_of_links hi4 hmem' hj hp4 fun ia ic k1 k2 => ?_
      exact (l4 rfl).1 ia ic (by rw [← l1]; exact k1) (by rw [← l2]; exact k2)
    · by_cases hja : j = a
      · subst hja
        refine weighs_of_links hi4 hmem' hj hp4 fun ia ic k1 k2 => ?_
        rw [l3 hjc]
        exact (n4 rfl).1 ia ic (by rw [← n1, ← l1]; exact k1) (by rw [← n2, ← l2]; exact k2)
      · have hji := ((hmem j).mp hj).2
        obtain ⟨p1, hp1, m1, _⟩ := h2w j p2 hp2
        obtain ⟨q, hq, he⟩ := hp.weights j p1 hp1
        rw [l3 hjc, n3 hja, m1 hji, he]
        exact (hat.now j ((hmem j).mp hj).1 q hq).erase hnd hiL haL' hcL' hai hic hbetL hji hja hjc
  · intro x hx p4 hp4
    obtain ⟨p3, hp3, l1, l2, l3, l4⟩ := hr4 _ p4 hp4
    obtain ⟨p2, hp2, n1, n2, n3, n4⟩ := hr3 _ p3 hp3
    obtain ⟨p1, hp1, m1, m2⟩ := h2w _ p2 hp2
    rcases List.mem_cons.mp hx with rfl | hx
    · simp only at l3 n3 m2
      rw [l3 (by omega), n3 (by omega), m2 trivial]
    · have hnot := hat.run.gone_not x hx
      have h5 : x.1 ≠ c := fun h => hnot (h ▸ hcL')
      have h6 : x.1 ≠ a := fun h => hnot (h ▸ haL')
      have h7 : x.1 ≠ i := fun h => hnot (h ▸ hiL)
      obtain ⟨q, hq, he⟩ := hp.weights _ p1 hp1
      rw [l3 h5, n3 h6, m1 h7, he]
      exact hat.gone x hx q hq

/-- How a run goes on from a heap: it ends as the point on top is heavy or there is none,
or that point goes next. -/
def Begins (s : Nat) (h : PointHeap) (gone gone' : List (Nat × Nat)) : Prop :=
  (gone' = gone ∧ ∀ i, h.heap.head? = some i → ∀ q, h.points[i]? = some q → s ≤ q.weight) ∨
    ∃ i v, h.heap.head? = some i ∧ ((i, v) :: gone) <:+ gone'

theorem Begins.suffix {s : Nat} {h : PointHeap} {gone gone' : List (Nat × Nat)} (hb : Begins s h gone gone') :
    gone <:+ gone' := by
  rcases hb with ⟨rfl, _⟩ | ⟨i, v, _, hs⟩
  · exact List.suffix_rfl
  · exact (List.suffix_cons _ _).trans hs

theorem vwLoop_ended {m : Build} {ps : List Point} {s : Nat} (hn : 2 ≤ ps.length) {fuel lw : Nat} {h h' : PointHeap}
    {left : List Nat} {gone : List (Nat × Nat)} (hat : At ps s h lw left gone) (hh : h.vwLoop m s fuel lw = .ok h') :
    ∃ left' gone', Ended ps s h'.points left' gone' ∧ Begins s h gone gone' := by
  have hempty : ¬ h.heap.length > 0 → ∃ left' gone', Ended ps s h.points left' gone' ∧ Begins s h gone gone' := by
    intro h0
    have hnil : h.heap = [] := List.eq_nil_of_length_eq_zero (by omega)
    have hno : ∀ j ∈ left, j = 0 ∨ j + 1 = ps.length := fun j hj => by
      have := (hat.mem j).mp hj
      rw [hnil] at this
      simpa using this
    exact ⟨left, gone, ⟨hat.run, Or.inl hno, fun j hj h1 h2 => by have := hno j hj; omega, hat.gone⟩,
      Or.inl ⟨rfl, fun i hi => by simp [hnil] at hi⟩⟩
  induction fuel generalizing h lw left gone with
  | zero =>
    unfold PointHeap.vwLoop at hh
    split at hh
    · simp at hh
    · rename_i h0
      obtain rfl := Except.ok.inj hh
      exact hempty h0
  | succ fuel ih =>
    unfold PointHeap.vwLoop at hh
    split at hh
    · rename_i hpos
      simp only [bind_ok] at hh
      obtain ⟨r, hr, hh⟩ := hh
      have hpop := (pop_safe (E := True) hat.inv (by intro h0; rw [h0] at hpos; simp at hpos)).of_ok hr
      obtain ⟨i, h1⟩ := r
      obtain ⟨t, a, c, ht, ha, hc, haL, hcL⟩ := hpop.point
      simp only at ht haL hcL hh
      rw [ht] at hh
      simp only at hh
      have hlast := hat.run.last_lt
      rw [← hat.last] at hlast
      -- the two neighbours are weighed again
      have hrec : ∀ (h2 : PointHeap) (lw' : Nat), Inv ps s h2 → h2.heap = h1.heap → lw' = max t.weight lw → t.weight < s →
          (∀ (x : Nat) (p : SPoint), h2.points[x]? = some p → ∃ q, h1.points[x]? = some q ∧
            (x ≠ i → p.weight = q.weight) ∧ (x = i → p.weight = max t.weight lw)) →
          (do
            let h3 ← h2.recalculateOpt m t.previous
            let h4 ← h3.recalculateOpt m t.next
            PointHeap.vwLoop m s fuel lw' h4) = .ok h' → ∃ left' gone', Ended ps s h'.points left' gone' ∧ Begins s h gone gone' := by
        intro h2 lw' hi2 hh2 hlw hts h2w hh
        rw [ha, hc] at hh
        simp only [bind_ok, PointHeap.recalculateOpt] at hh
        obtain ⟨h3, k3, h4, k4, hh⟩ := hh
        have hja : a = 0 ∨ a + 1 = ps.length ∨ a ∈ h2.heap := by rw [hh2]; exact haL.imp_right Or.inr
        obtain ⟨i3, p3, _⟩ := (recalculate_safe hi2 hn hja).of_ok k3
        have r3 := (recalculate_reweighs hi2 hn hja).of_ok k3
        have hjc : c = 0 ∨ c + 1 = ps.length ∨ c ∈ h3.heap := by rw [p3.mem_iff, hh2]; exact Or.inr hcL
        obtain ⟨i4, p4, _⟩ := (recalculate_safe i3 hn hjc).of_ok k4
        have r4 := (recalculate_reweighs i3 hn hjc).of_ok k4
        have hat' := hat.step hn hpop ht ha hc hts hh2 h2w p3 r3 i4 p4 r4
        rw [hlw] at hh
        suffices hs : ∃ left' gone', Ended ps s h'.points left' gone' ∧ Begins s h4 ((i, max t.weight lw) :: gone) gone' by
          obtain ⟨left', gone', he, hb⟩ := hs
          exact ⟨left', gone', he, Or.inr ⟨i, _, hpop.top, hb.suffix⟩⟩
        refine ih hat' hh fun h0 => ?_
        have hnil : h4.heap = [] := List.eq_nil_of_length_eq_zero (by omega)
        have hno : ∀ j ∈ left.erase i, j = 0 ∨ j + 1 = ps.length := fun j hj => by
          have := (hat'.mem j).mp hj
          rw [hnil] at this
          simpa using this
        exact ⟨_, _, ⟨hat'.run, Or.inl hno, fun j hj h1 h2 => by have := hno j hj; omega, hat'.gone⟩,
          Or.inl ⟨rfl, fun i hi => by simp [hnil] at hi⟩⟩
      split at hh
      · rename_i hlt
        simp only [PointHeap.modifyPoint, ht, ok_bind] at hh
        refine hrec _ _ (setWeight_inv hpop.inv ht hpop.range ⟨?_, ?_⟩) rfl (by omega) (by omega) ?_ hh
        · obtain ⟨x1, x2, x3, x4, x5, k1, k2, k3, k4, k5, k6⟩ :=
            (hpop.inv.weights.interior i t ht hpop.range.1 hpop.range.2).1
          exact ⟨x1, x2, x3, x4, x5, k1, k2, k3, k4, k5, by omega⟩
        · intro hs; omega
        · intro x p hp
          rcases get_set (f := fun q => { q with weight := lw }) ht hp with ⟨rfl, rfl⟩ | ⟨hne, hp⟩
          · exact ⟨t, ht, fun h => absurd rfl h, fun _ => by simp only; omega⟩
          · exact ⟨p, hp, fun _ => rfl, fun h => absurd h hne⟩
      · split at hh
        · rename_i hge
          obtain rfl := Except.ok.inj hh
          have hiH : i ∈ h.heap := List.mem_of_mem_head? hpop.top
          refine ⟨left, gone, ⟨hat.run, Or.inr ⟨i, t.weight, ?_, hge⟩, ?_, ?_⟩, Or.inl ⟨rfl, fun j hj q hq => ?_⟩⟩
          · obtain ⟨q, hq, he⟩ := hpop.weights i t ht
            rw [he]
            exact hat.now i hiH q hq
          · intro j hj h1 h2 p hp
            obtain ⟨q, hq, he⟩ := hpop.weights j p hp
            rw [he]
            refine hat.now j ?_ q hq
            have := (hat.mem j).mp hj
            rcases this with h | h | h
            · omega
            · omega
            · exact h
          · intro x hx p hp
            obtain ⟨q, hq, he⟩ := hpop.weights _ p hp
            rw [he]
            exact hat.gone x hx q hq
          · have hji : j = i := Option.some.inj (hj.symm.trans hpop.top)
            subst hji
            obtain ⟨q', hq', he⟩ := hpop.weights j t ht
            rw [hq] at hq'
            rw [Option.some.inj hq', ← he]
            exact hge
        · rename_i hnl hns
          refine hrec h1 _ hpop.inv rfl (by omega) (by omega) ?_ hh
          intro x p hp
          refine ⟨p, hp, fun _ => rfl, fun h => ?_⟩
          rw [h, ht] at hp
          rw [← Option.some.inj hp]
          omega
    · rename_i h0
      obtain rfl := Except.ok.inj hh
      exact hempty h0

/-! ## What is returned -/

theorem finish_eliminated {ps out : List Point} {s : Nat} {pts : List SPoint} {left : List Nat} {gone : List (Nat × Nat)}
    (hs : s ≤ u64Max) (hp : Simplifiable ps) (hw : Weights ps s pts) (he : Ended ps s pts left gone)
    (hh : (match ((pts.filter fun p => p.weight ≥ s).map (·.geo)).head?,
          ((pts.filter fun p => p.weight ≥ s).map (·.geo)).getLast? with
        | some a, some z =>
          if a = z ∧ ((pts.filter fun p => p.weight ≥ s).map (·.geo)).length < 4 then ringFallback pts
          else .ok ((pts.filter fun p => p.weight ≥ s).map (·.geo))
        | _, _ => .error .index) = Except.ok out) : Eliminated ps s left gone out := by
  have hlen := points_length hw
  have hn := hp.1
  have hne : ps ≠ [] := by intro h; rw [h] at hn; simp at hn
  have hpicks := heavy_picks hw
  generalize hout : (pts.filter fun p => decide (p.weight ≥ s)).map (·.geo) = ret at hpicks hh
  have hget0 := List.getElem?_eq_getElem (l := pts) (i := 0) (by omega)
  have hgetn := List.getElem?_eq_getElem (l := pts) (i := ps.length - 1) (by omega)
  have hmem0 : 0 ∈ heavy s pts := mem_heavy.mpr ⟨_, hget0, by rw [hw.ends 0 _ hget0 (Or.inl rfl)]; exact hs⟩
  have hmemn : ps.length - 1 ∈ heavy s pts :=
    mem_heavy.mpr ⟨_, hgetn, by rw [hw.ends _ _ hgetn (Or.inr (by omega))]; exact hs⟩
  have hlt : ∀ j ∈ heavy s pts, j < ps.length := by
    intro j hj
    obtain ⟨p, hp, _⟩ := mem_heavy.mp hj
    have := (List.getElem?_eq_some_iff.mp hp).1
    omega
  have hfirst := head?_of_least hpicks.1 hmem0 (fun _ _ => Nat.zero_le _)
  have hlast := getLast?_of_greatest hpicks.1 hmemn (fun x hx => by have := hlt x hx; omega)
  have hhd := picks_head hpicks hfirst hne
  have hl := picks_last hpicks hlast hne
  have hkl := picks_length hpicks
  have hkeeps : Keeps ps s left (heavy s pts) := by
    intro j
    rw [mem_heavy]
    constructor
    · rintro ⟨p, h1, h2⟩
      have hj := (List.getElem?_eq_some_iff.mp h1).1
      refine ⟨by omega, ?_⟩
      by_cases h3 : j = 0
      · exact Or.inl h3
      · by_cases h4 : j + 1 = ps.length
        · exact Or.inr (Or.inl h4)
        · refine Or.inr (Or.inr ⟨p.weight, ?_, h2⟩)
          rcases (he.run.part j).mp (by omega) with h5 | h5
          · exact he.now j h5 (by omega) (by omega) p h1
          · obtain ⟨x, hx, rfl⟩ := List.mem_map.mp h5
            have := he.run.gone_lt x hx
            have := he.gone x hx p h1
            omega
    · rintro ⟨h1, h2⟩
      have hg := List.getElem?_eq_getElem (l := pts) (i := j) (by omega)
      refine ⟨_, hg, ?_⟩
      rcases h2 with h2 | h2 | ⟨w, h2, h3⟩
      · rw [hw.ends j _ hg (Or.inl h2)]; exact hs
      · rw [hw.ends j _ hg (Or.inr h2)]; exact hs
      · have h4 := h2.inner
        rw [(he.now j h4.1 h4.2.1 h4.2.2 _ hg).unique h2]
        exact h3
  have hcount : ∀ x p, 0 < x → x + 1 < ps.length → pts[x]? = some p → Counts ps left gone x p.weight := by
    intro x p h1 h2 h3
    rcases (he.run.part x).mp (by omega) with h4 | h4
    · exact Or.inl (he.now x h4 h1 h2 p h3)
    · obtain ⟨y, hy, rfl⟩ := List.mem_map.mp h4
      rw [he.gone y hy p h3]
      exact Or.inr hy
  obtain ⟨a, ha⟩ : ∃ a, ps.head? = some a := ⟨_, List.head?_eq_some_head hne⟩
  obtain ⟨z, hz⟩ : ∃ z, ps.getLast? = some z := ⟨_, List.getLast?_eq_getLast_of_ne_nil hne⟩
  rw [hhd, hl, ha, hz] at hh
  simp only at hh
  refine ⟨heavy s pts, hpicks.1, hkeeps, ?_⟩
  rw [ha, hz, hkl]
  split at hh
  · rename_i hring
    obtain ⟨rfl, hshort⟩ := hring
    have h4 := hp.2 (by rw [ha, hz])
    obtain ⟨i, j, p, q, b, c, f1, f2, f3, f4, f5, f6, f7, f8, f9⟩ := ringFallback_spec (pts := pts) (by omega)
    rw [f8] at hh
    obtain rfl := Except.ok.inj hh
    refine Or.inr ⟨⟨rfl, hshort⟩, i, j, f1, f2, by omega, ⟨?_, ?_⟩, ?_⟩
    · simp only [List.pairwise_cons, List.mem_cons, List.not_mem_nil, or_false, List.Pairwise.nil, and_true, forall_eq_or_imp,
        forall_eq, false_imp_iff, implies_true]
      omega
    · rw [← hlen]
      simp only [List.map_cons, List.map_nil]
      rw [geo_get hw f4, geo_get hw f5, geo_get hw f6, geo_get hw f7]
    · intro x h1 h2 h3 h5
      have hg := List.getElem?_eq_getElem (l := pts) (i := x) (by omega)
      obtain ⟨w1, w2⟩ := f9 x _ h1 (by omega) h3 h5 hg
      have hx := hcount x _ h1 h2 hg
      exact ⟨⟨_, _, hcount i b f1 (by omega) f6, hx, w1⟩, ⟨_, _, hcount j c (by omega) (by omega) f7, hx, w2⟩⟩
  · rename_i hring
    obtain rfl := Except.ok.inj hh
    exact Or.inl ⟨fun h => hring ⟨Option.some.inj h.1, h.2⟩, hpicks⟩

theorem simplifyEdge_eliminated {m : Build} {ps out : List Point} {s : Nat} (hs : s ≤ u64Max)
    (h : simplifyEdge m ps s = .ok out) :
    ∃ left gone, Run ps s left gone ∧ Stops ps s left ∧ Eliminated ps s left gone out ∧
      (gone = [] → ∀ j w, Weighs ps (List.range ps.length) j w → s ≤ w) ∧
      ∀ x, gone.getLast? = some x → ∀ j w, Weighs ps (List.range ps.length) j w → x.2 ≤ w := by
  have hp : Simplifiable ps := by
    by_contra hp
    rw [simplifyEdge_not hp] at h
    simp at h
  simp only [simplifyEdge, PointHeap.visvalingamWhyatt, bind_ok] at h
  obtain ⟨h0, h1, h2, h3, h⟩ := h
  obtain ⟨hi, hf, hall, h00, hheap, hl00⟩ := (from_safe s hp).of_ok h1
  have hlen := points_length hi.weights
  have hn := hp.1
  have hm : ∀ x, x ∈ List.range ps.length ↔ x = 0 ∨ x + 1 = ps.length ∨ x ∈ h0.heap := by
    intro x
    rw [List.mem_range]
    constructor
    · intro hx
      by_cases h3 : x = 0
      · exact Or.inl h3
      · by_cases h4 : x + 1 = ps.length
        · exact Or.inr (Or.inl h4)
        · exact Or.inr (Or.inr (hall x (by omega) (by omega)))
    · rintro (h4 | h4 | h4)
      · omega
      · omega
      · have := hi.range x h4; omega
  have hat : At ps s h0 0 (List.range ps.length) [] := by
    refine ⟨hi, .start, rfl, hm, ?_, by simp⟩
    intro j hj p hp
    have hr := hi.range j hj
    obtain ⟨a, b, c, k1, k2, k3, k4⟩ := hf j p hp hr.1 hr.2
    refine ⟨j - 1, j + 1, a, b, c, ⟨?_, ?_, ?_, by omega, by omega, fun x _ => by omega⟩, k1, k2, k3, k4⟩ <;>
      rw [List.mem_range] <;> omega
  obtain ⟨left, gone, he, hb⟩ := vwLoop_ended hn hat h3
  have hw := ((vwLoop_safe hn hi (Nat.le_refl _) (Or.inl rfl)).of_ok h3).1
  -- the point on top of a fresh heap is a lightest one
  have htop : ∀ i q, h0.heap.head? = some i → h0.points[i]? = some q → ∀ j w, Weighs ps (List.range ps.length) j w →
      q.weight ≤ w := by
    intro i q hi0 hq j w hw
    have hin := hw.inner
    have hjm := hall j (by omega) (by omega)
    obtain ⟨u, hu⟩ := List.mem_iff_getElem?.mp hjm
    have hjp := List.getElem?_eq_getElem (hi.ok.bound _ hjm)
    rw [hw.unique (hat.now j hjm _ hjp)]
    refine heapify_min hheap (u := u) ?_ ?_ ?_
    · rw [hl00]; exact (List.getElem?_eq_some_iff.mp hu).1
    · rw [List.head?_eq_getElem?] at hi0
      simp [PointHeap.w, hi0, hq]
    · simp [PointHeap.w, hu, hjp]
  refine ⟨left, gone, he.run, he.stops, finish_eliminated hs hp hw he h, ?_, ?_⟩
  · intro hg j w hjw
    rcases hb with ⟨_, hb⟩ | ⟨i, v, _, hb⟩
    · have hin := hjw.inner
      have hjm := hall j (by omega) (by omega)
      cases hh : h0.heap with
      | nil => rw [hh] at hjm; cases hjm
      | cons i rest =>
        have him : i ∈ h0.heap := by rw [hh]; exact List.mem_cons_self
        have hip := List.getElem?_eq_getElem (hi.ok.bound _ him)
        exact Nat.le_trans (hb i (by rw [hh]; rfl) _ hip) (htop i _ (by rw [hh]; rfl) hip j w hjw)
    · rw [hg] at hb
      have := hb.length_le
      simp at this
  · intro x hx j w hjw
    rcases hb with ⟨hb, _⟩ | ⟨i, v, hi0, hb⟩
    · rw [hb] at hx; cases hx
    · obtain ⟨pre, hpre⟩ := hb
      rw [← hpre, List.getLast?_append] at hx
      simp only [List.getLast?_singleton, Option.some_or, Option.some.injEq] at hx
      subst hx
      have him : i ∈ h0.heap := List.mem_of_mem_head? hi0
      have hip := List.getElem?_eq_getElem (hi.ok.bound _ him)
      have hfirst := he.run.first (x := (i, v)) (by rw [← hpre]; simp)
      rw [hfirst.unique (hat.now i him _ hip)]
      exact htop i _ hi0 hip j w hjw

end TopoGeo
