import Verif.Proofs.SimplifyTime
/-!
# Property C87: how long simplifying takes
-/

namespace TopoGeo

/-- C87: counting the rounds of the loops does not change what is computed, so
that the bounds below are about `simplify`. -/
theorem C87_same {δ : Type} (m : Build) (t : Topology δ) (s : Nat) : (simplifyT m t s).result = simplify m t s :=
  simplifyT_result m t s

/-- C87: simplifying an edge of `n` points takes at most `n (4 log₂ n + 12)`
rounds, whether it succeeds or panics, in both builds. -/
theorem C87_edge (m : Build) (ps : List Point) (s : Nat) :
    (simplifyEdgeT m ps s).result = simplifyEdge m ps s ∧
    (simplifyEdgeT m ps s).rounds ≤ ps.length * (4 * ps.length.log2 + 12) :=
  ⟨simplifyEdgeT_result m ps s, simplifyEdgeT_rounds m ps s⟩

/-- C87: simplifying a topology takes a round per edge and a logarithmic number
of rounds per point, in the size of the largest edge. -/
theorem C87_topology {δ : Type} (m : Build) (t : Topology δ) (s n : Nat) (hn : ∀ e ∈ t.edges, e.points.length ≤ n) :
    (simplifyT m t s).rounds ≤ t.edges.length + (t.edges.map (·.points.length)).sum * (4 * n.log2 + 12) :=
  rounds_bind (l := 0) (simplifyEdgesT_rounds m s t.edges hn) fun _ _ => Nat.le_refl 0

/-- C87: restoring the heap after a change at `root` takes no more rounds than
the part of the heap below `root` has levels. -/
theorem C87_sift (start stop fuel : Nat) (h : PointHeap) (root : Nat) :
    (h.siftDownT start stop fuel root).rounds ≤ ((stop + 1) / (root + 1)).log2 + 1 :=
  siftDownT_rounds start stop fuel h root

/-! Nine points, of which seven go: 81 rounds, of at most 216. -/

example : (simplifyEdgeT .debug [⟨1, 1⟩, ⟨2, 9⟩, ⟨3, 1⟩, ⟨4, 8⟩, ⟨5, 2⟩, ⟨6, 7⟩, ⟨7, 3⟩, ⟨8, 6⟩, ⟨9, 4⟩] 1000).result =
    .ok [⟨1, 1⟩, ⟨9, 4⟩] := by decide +kernel

example : (simplifyEdgeT .debug [⟨1, 1⟩, ⟨2, 9⟩, ⟨3, 1⟩, ⟨4, 8⟩, ⟨5, 2⟩, ⟨6, 7⟩, ⟨7, 3⟩, ⟨8, 6⟩, ⟨9, 4⟩] 1000).rounds =
    81 := by decide +kernel

/-! An edge that panics: the rounds until then. -/

example : (simplifyEdgeT .debug [⟨2097152, 0⟩, ⟨2097152, 1⟩, ⟨1, 2097152⟩] 1).result = .error .overflow ∧
    (simplifyEdgeT .debug [⟨2097152, 0⟩, ⟨2097152, 1⟩, ⟨1, 2097152⟩] 1).rounds = 8 := by decide +kernel

end TopoGeo
