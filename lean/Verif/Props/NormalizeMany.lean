import Verif.Proofs.NormalizeMany
import Verif.Props.NormalizeTwice
/-!
# C119: normalizing again and again comes to rest
-/

namespace TopoGeo

open Spec

/-- C119: normalizing leaves at most as many edges for the rings to pass, counted
each time they are passed. If it leaves as many, then no edge had the same region
on both sides, and no neighbouring edges of a ring separated the same regions. -/
theorem C119_count {δ : Type} (m : Build) (t t' : Topology δ) (hw : WellFormed t) (h : normalize m t = .ok t') :
    (allDirectedEdges t').length ≤ (allDirectedEdges t).length ∧
    ((allDirectedEdges t').length = (allDirectedEdges t).length → NoSelfEdges t (allRings t) ∧
      ∀ ring ∈ allRings t, CyclicallyDistinct (ring.directedEdges.map fun de => sides t de.edge)) :=
  normalize_count hw h

/-- Two passes leave fewer edges to pass, unless the first leaves nothing to do. -/
theorem normal_or_fewer {δ : Type} {m m' : Build} {t t1 t2 : Topology δ} (hw : WellFormed t) (hb : AreasBounded t)
    (h1 : normalize m t = .ok t1) (h2 : normalize m' t1 = .ok t2) :
    Normal t1 ∨ (allDirectedEdges t2).length < (allDirectedEdges t).length := by
  obtain ⟨c1, f1⟩ := normalize_count hw h1
  have hw1 := wellFormed_normalize hw h1
  obtain ⟨c2, f2⟩ := normalize_count hw1 h2
  by_cases hlt : (allDirectedEdges t2).length < (allDirectedEdges t).length
  · exact Or.inr hlt
  left
  have hf := f1 (by omega)
  have hf1 := f2 (by omega)
  have ho := C16_topology_partial m t t1 hw hf.1 hb h1
  have h17 := C17_first m t t1 hw h1
  refine ⟨hw1, hf1.1, hf1.2, fun r hr => (ho r hr).1, fun r hr => (ho r hr).2, ?_, fun r hr => (h17 r hr).2⟩
  intro ring hring
  obtain ⟨r, hr, hring⟩ := List.mem_flatMap.mp hring
  exact (h17 r hr).1 ring hring

theorem normalizedTimes_cons {δ : Type} {k : Nat} {m : Build} {t t' t'' : Topology δ} (h : normalize m t = .ok t')
    (hk : NormalizedTimes k t' t'') : NormalizedTimes (k + 1) t t'' := by
  induction hk with
  | zero => exact .succ m (.zero _) h
  | succ m' _ h' ih => exact .succ m' (ih h) h'

theorem fixed_times {δ : Type} {k : Nat} {t t' : Topology δ} (hfix : ∀ m t'', normalize m t = .ok t'' → t'' = t)
    (h : NormalizedTimes k t t') : t' = t := by
  induction h with
  | zero => rfl
  | succ m _ h4 ih => rw [ih hfix] at h4; exact hfix m _ h4

/-- C119: however a well-formed topology is normalized again and again, by
whichever builds, after twice as many passes as its rings pass edges and two more
it follows all rules, and no further pass changes it; as long as no pass panics
and no ring on the way has an area whose sign 64-bit arithmetic cannot change. -/
theorem C119_rest {δ : Type} (t t' : Topology δ) (k : Nat) (hw : WellFormed t)
    (hb : ∀ j tj, NormalizedTimes j t tj → AreasBounded tj) (h : NormalizedTimes k t t')
    (hk : 2 * (allDirectedEdges t).length + 2 ≤ k) :
    Normal t' ∧ (∀ m t'', normalize m t' = .ok t'' → t'' = t') ∧ normalize .release t' = .ok t' := by
  have main : ∀ (n k : Nat) (t : Topology δ), WellFormed t → (∀ j tj, NormalizedTimes j t tj → AreasBounded tj) →
      NormalizedTimes k t t' → (allDirectedEdges t).length ≤ n → 2 * n + 2 ≤ k →
      ∃ m rs, buildTopology m rs = .ok t' ∧ Normal t' := by
    intro n
    induction n using Nat.strongRecOn with
    | ind n ih =>
    intro k t hw hb h hn hk
    obtain ⟨k, rfl⟩ : ∃ i, k = i + 1 + 1 := ⟨k - 2, by omega⟩
    obtain ⟨m, t1, h1, h⟩ := normalizedTimes_split h
    have h0 := h
    obtain ⟨m', t2, h2, h⟩ := normalizedTimes_split h
    rcases normal_or_fewer hw (hb 0 t (.zero _)) h1 h2 with hnorm | hlt
    · obtain ⟨rs, _, hbuilt⟩ := normalize_ok.mp h1
      have hfix := (C20_fixpoint_partial m rs t1 hbuilt hnorm).1
      obtain rfl := fixed_times hfix h0
      exact ⟨m, rs, hbuilt, hnorm⟩
    · exact ih (n - 1) (by omega) k t2 (wellFormed_normalize (wellFormed_normalize hw h1) h2)
        (fun j tj hj => hb _ tj (normalizedTimes_cons h1 (normalizedTimes_cons h2 hj))) h (by omega) (by omega)
  obtain ⟨m, rs, hbuilt, hn⟩ := main _ k t hw hb h (Nat.le_refl _) hk
  exact ⟨hn, C20_fixpoint_partial m rs t' hbuilt hn⟩

/-- C119: it is enough that the cross products of the segments are not too large
together. -/
theorem C119_size {δ : Type} (t : Topology δ) (hw : WellFormed t) (hs : crossSize t < 2 ^ 63) :
    ∀ j tj, NormalizedTimes j t tj → AreasBounded tj := by
  intro j tj h
  suffices hx : WellFormed tj ∧ crossSize tj < 2 ^ 63 from areasBounded_of_size hx.2
  induction h with
  | zero => exact ⟨hw, hs⟩
  | succ m _ h ih =>
    obtain ⟨i1, i2⟩ := ih hw hs
    exact ⟨wellFormed_normalize i1 h, Nat.lt_of_le_of_lt (crossSize_le i1 h) i2⟩

/-- C119: both together. -/
theorem C119_small {δ : Type} (t t' : Topology δ) (k : Nat) (hw : WellFormed t) (hs : crossSize t < 2 ^ 63)
    (h : NormalizedTimes k t t') (hk : 2 * (allDirectedEdges t).length + 2 ≤ k) :
    Normal t' ∧ (∀ m t'', normalize m t' = .ok t'' → t'' = t') ∧ normalize .release t' = .ok t' :=
  C119_rest t t' k hw (C119_size t hw hs) h hk

-- the regions cut into edges differently, which need a third pass
example : WellFormed (exCut 0) ∧ crossSize (exCut 0) < 2 ^ 63 ∧ (allDirectedEdges (exCut 0)).length = 9 ∧
    NormalizedTimes 4 (exCut 0) (exCut 4) ∧ exCut 4 = exCut 3 ∧ exCut 3 ≠ exCut 2 := by
  have hb : buildTopology .debug exCutRegions = .ok (exCut 0) := by decide +kernel
  have h1 : normalize .debug (exCut 0) = .ok (exCut 1) := by decide +kernel
  have h2 : normalize .debug (exCut 1) = .ok (exCut 2) := by decide +kernel
  have h3 : normalize .debug (exCut 2) = .ok (exCut 3) := by decide +kernel
  have h4 : normalize .debug (exCut 3) = .ok (exCut 4) := by decide +kernel
  exact ⟨(wellFormed_of_built hb (by decide +kernel)).1, by decide +kernel, by decide +kernel,
    .succ _ (.succ _ (.succ _ (.succ _ (.zero _) h1) h2) h3) h4, by decide +kernel, by decide +kernel⟩

/-! ## Without its conditions -/

/-- C119, the condition on areas: without it there may be no rest. -/
theorem C119_huge : ∃ t : Topology String, WellFormed t ∧ (∀ k, ∃ t', NormalizedTimes k t t') ∧
    ∀ k t' t'', NormalizedTimes (k + 1) t t' → ∀ m, normalize m t' = .ok t'' → t'' ≠ t' := by
  have hall : ∀ k, NormalizedTimes (k + 1) exHuge (if k % 2 = 0 then exHuge1 else exHuge2) := by
    intro k
    induction k with
    | zero => exact .succ .release (.zero _) exHuge_1
    | succ k ih =>
      refine .succ .release ih ?_
      by_cases hk : k % 2 = 0
      · rw [if_pos hk, if_neg (by omega)]; exact exHuge_2
      · rw [if_neg hk, if_pos (by omega)]; exact exHuge_3
  obtain ⟨hb, hne, hk⟩ := C118_huge
  refine ⟨exHuge, (wellFormed_of_built hb (by decide +kernel)).1, ?_, ?_⟩
  · intro k
    cases k with
    | zero => exact ⟨_, .zero _⟩
    | succ k => exact ⟨_, hall k⟩
  · intro k t' t'' h m h' heq
    have e1 := hk k t' h
    have e2 := hk (k + 1) t'' (.succ m h h')
    rw [heq] at e2
    by_cases hp : k % 2 = 0
    · rw [if_pos hp] at e1
      rw [if_neg (by omega)] at e2
      exact hne (e1.symm.trans e2)
    · rw [if_neg hp] at e1
      rw [if_pos (by omega)] at e2
      exact hne (e2.symm.trans e1)

/-- A region that covers another one twice, cut into edges differently. -/
def exThirdRegions : List (Region String) :=
  [⟨"a", [.edges [[⟨4, 1⟩, ⟨4, 2⟩, ⟨4, 3⟩],
      [⟨4, 3⟩, ⟨3, 3⟩],
      [⟨3, 3⟩, ⟨3, 2⟩],
      [⟨3, 2⟩, ⟨3, 1⟩],
      [⟨3, 1⟩, ⟨3, 0⟩],
      [⟨3, 0⟩, ⟨4, 0⟩, ⟨4, 1⟩]]], []⟩,
   ⟨"b", [.edges [[⟨4, 1⟩, ⟨4, 2⟩, ⟨4, 3⟩],
      [⟨4, 3⟩, ⟨3, 3⟩, ⟨3, 2⟩],
      [⟨3, 2⟩, ⟨3, 1⟩],
      [⟨3, 1⟩, ⟨3, 0⟩, ⟨4, 0⟩, ⟨4, 1⟩]],
     .edges [[⟨3, 0⟩, ⟨4, 0⟩, ⟨4, 1⟩],
      [⟨4, 1⟩, ⟨4, 2⟩],
      [⟨4, 2⟩, ⟨4, 3⟩, ⟨3, 3⟩, ⟨3, 2⟩, ⟨3, 1⟩, ⟨3, 0⟩]]], []⟩]

/-- Their topology, and the topologies that normalizing it gives. -/
def exThird : Nat → Topology String
  | 0 => ((buildTopology .debug exThirdRegions).toOption.getD ⟨[], []⟩)
  | k + 1 => ((normalize .debug (exThird k)).toOption.getD ⟨[], []⟩)

/-- C119, the condition on panics: a later pass may panic, in both builds,
although two passes before it did not. -/
theorem C119_panics : ∃ t t2 : Topology String, WellFormed t ∧ crossSize t < 2 ^ 63 ∧ NormalizedTimes 2 t t2 ∧
    ∀ m, normalize m t2 = .error .assert := by
  have hb : buildTopology .debug exThirdRegions = .ok (exThird 0) := by decide +kernel
  have h1 : normalize .debug (exThird 0) = .ok (exThird 1) := by decide +kernel
  have h2 : normalize .debug (exThird 1) = .ok (exThird 2) := by decide +kernel
  refine ⟨exThird 0, exThird 2, (wellFormed_of_built hb (by decide +kernel)).1, by decide +kernel,
    .succ _ (.succ _ (.zero _) h1) h2, ?_⟩
  intro m
  cases m <;> decide +kernel

end TopoGeo
