import Verif.Proofs.LocalNormalize
/-!
# C109: each region goes through on its own
-/

namespace TopoGeo

open Spec

variable {δ : Type}

/-! ## What becomes of one region -/

/-- C109: what a region looks like in a new topology depends on that region only: not on
the other regions, not on the build. -/
theorem C109_build : ∃ f : Region δ → Option (Drawn δ), ∀ (m : Build) (rs : List (Region δ)) (t : Topology δ),
    buildTopology m rs = .ok t → drawn t = rs.filterMap f :=
  ⟨builtDrawn, fun _ _ _ h => drawn_build h⟩

/-- C109: what a region looks like after clipping depends on the mask and on what that
region looked like. -/
theorem C109_clip (mask : ClipMask) : ∃ f : Drawn δ → Option (Drawn δ), ∀ (m : Build) (t t' : Topology δ),
    clipTopology m t mask = .ok t' → drawn t' = (drawn t).filterMap f :=
  ⟨clippedDrawn mask, fun _ _ _ h => drawn_clip h⟩

/-- C109: what a region looks like after simplifying depends on the area and on what that
region looked like; no region disappears. -/
theorem C109_simplify (s : Nat) : ∃ f : Drawn δ → Drawn δ, ∀ (m : Build) (t t' : Topology δ),
    simplify m t s = .ok t' → drawn t' = (drawn t).map f :=
  ⟨simplifiedDrawn s, fun _ _ _ h => drawn_simplify h⟩

/-- C109: what a region looks like after normalizing depends on what that region looked
like and on which of its edges have the same neighbours: the shapes of the neighbours, and
their numbers, do not matter. -/
theorem C109_normalize : ∃ f : Surrounded δ → Option (Drawn δ),
    (∀ (g : Nat → Nat) (r : Surrounded δ), Function.Injective g → f (r.rename g) = f r) ∧
    ∀ (m : Build) (t t' : Topology δ), BackPointersExact t → normalize m t = .ok t' → drawn t' = (surrounded t).filterMap f :=
  ⟨normalizedDrawn, fun _ r hg => normalizedDrawn_rename hg r, fun _ _ _ ht h => drawn_normalize ht h⟩

/-- Two squares that share a side. -/
def exNeighbours : List (Region Nat) :=
  [⟨1, [.points [⟨0, 0⟩, ⟨10, 0⟩, ⟨10, 10⟩, ⟨0, 10⟩, ⟨0, 0⟩]], []⟩,
   ⟨2, [.points [⟨10, 0⟩, ⟨20, 0⟩, ⟨20, 10⟩, ⟨10, 10⟩, ⟨10, 0⟩]], []⟩]

/-- C109: what a region looks like after normalizing does depend on whether it has
neighbours. -/
theorem C109_normalize_refuted : ¬ ∃ f : Drawn Nat → Option (Drawn Nat), ∀ (m : Build) (t t' : Topology Nat),
    BackPointersExact t → normalize m t = .ok t' → drawn t' = (drawn t).filterMap f := by
  rintro ⟨f, hf⟩
  let t1 := (buildTopology .debug (exNeighbours.take 1)).toOption.getD ⟨[], []⟩
  let t2 := (buildTopology .debug exNeighbours).toOption.getD ⟨[], []⟩
  let u1 := (normalize .debug t1).toOption.getD ⟨[], []⟩
  let u2 := (normalize .debug t2).toOption.getD ⟨[], []⟩
  have b1 : buildTopology .debug (exNeighbours.take 1) = .ok t1 := by decide +kernel
  have b2 : buildTopology .debug exNeighbours = .ok t2 := by decide +kernel
  have h1 := hf .debug t1 u1 (buildTopology_facts b1).1 (by decide +kernel)
  have h2 := hf .debug t2 u2 (buildTopology_facts b2).1 (by decide +kernel)
  have e1 : drawn t2 = drawn t1 ++ drawn { t2 with regions := t2.regions.drop 1 } := by decide +kernel
  rw [e1, List.filterMap_append, ← h1] at h2
  have h3 := congrArg (List.take 1) h2
  have h4 : (drawn u1).length = 1 := by decide +kernel
  rw [List.take_append_of_le_length (Nat.le_of_eq h4.symm), List.take_of_length_le (Nat.le_of_eq h4)] at h3
  exact absurd h3 (by decide +kernel)

/-! ## Parts of a map -/

/-- C109: regions can be left out before or after: a part of the regions goes through
building, clipping and simplifying wherever all of them do, and gives that part of the
topology. -/
theorem C109_parts (m : Build) (rs qs : List (Region δ)) (h : qs.Sublist rs) (ops : List Operation) (hops : ∀ op ∈ ops, op ≠ .normalize)
    (t : Topology δ) (ht : (ops.foldlM (Operation.apply m) =<< buildTopology m rs) = .ok t) :
    ∃ u f g, (ops.foldlM (Operation.apply m) =<< buildTopology m qs) = .ok u ∧ PartOf f g u t := by
  have key : ∀ (ops : List Operation) (t u t' : Topology δ) (f g : Nat → Nat), (∀ op ∈ ops, op ≠ .normalize) → PartOf f g u t →
      BackPointersExact t → BackPointersExact u → ops.foldlM (Operation.apply m) t = .ok t' →
      ∃ u' f' g', ops.foldlM (Operation.apply m) u = .ok u' ∧ PartOf f' g' u' t' := by
    intro ops
    induction ops with
    | nil =>
      intro t u t' f g _ h _ _ ht
      obtain rfl := Except.ok.inj ht
      exact ⟨u, f, g, rfl, h⟩
    | cons op ops ih =>
      intro t u t' f g hops h ht hu hrun
      rw [List.foldlM_cons, bind_ok] at hrun
      obtain ⟨t1, h1, h2⟩ := hrun
      have : ∃ u1 f1 g1, op.apply m u = .ok u1 ∧ PartOf f1 g1 u1 t1 := by
        cases op with
        | normalize => exact absurd rfl (hops _ (by simp))
        | clip mask => exact clipPart h ht hu h1
        | simplify s =>
          obtain ⟨u1, h3, h4⟩ := simplify_part h h1
          exact ⟨u1, f, g, h3, h4⟩
      obtain ⟨u1, f1, g1, h3, h4⟩ := this
      rw [List.foldlM_cons, h3, ok_bind]
      exact ih t1 u1 t' f1 g1 (fun o ho => hops o (by simp [ho])) h4 (apply_backPointers op ht h1) (apply_backPointers op hu h3) h2
  simp only [Bind.bindLeft, bind_ok] at ht
  obtain ⟨t0, h1, h2⟩ := ht
  obtain ⟨u0, f, g, h3, h4⟩ := build_part h h1
  simp only [Bind.bindLeft]
  rw [h3, ok_bind]
  exact key ops t0 u0 t f g hops h4 (buildTopology_facts h1).1 (buildTopology_facts h3).1 h2

/-- C109: a part that shares no edge with other regions goes through normalizing wherever
all of the map does, and gives that part of the topology. -/
theorem C109_apart (m : Build) (t u t' : Topology δ) (f g : Nat → Nat) (h : PartOf f g u t) (ht : BackPointersExact t)
    (hu : BackPointersExact u) (hs : Separate f g u t) (hn : normalize m t = .ok t') :
    ∃ u' f' g', normalize m u = .ok u' ∧ PartOf f' g' u' t' :=
  normalize_part h ht hu hs hn

/-- Two regions along the line from (0,0) to (4,0), one that stops half way along it, its
neighbour on another side, and one along the first half. -/
def exHalfWay : List (Region Nat) :=
  [⟨1, [.edges [[⟨0, 0⟩, ⟨2, 0⟩, ⟨4, 0⟩], [⟨4, 0⟩, ⟨2, 2⟩, ⟨0, 0⟩]]], []⟩,
   ⟨2, [.edges [[⟨0, 0⟩, ⟨2, 0⟩, ⟨4, 0⟩], [⟨4, 0⟩, ⟨2, 3⟩, ⟨0, 0⟩]]], []⟩,
   ⟨3, [.edges [[⟨0, 0⟩, ⟨2, 0⟩], [⟨2, 0⟩, ⟨4, 0⟩], [⟨4, 0⟩, ⟨2, 4⟩, ⟨0, 0⟩]]], []⟩,
   ⟨4, [.edges [[⟨4, 0⟩, ⟨2, 4⟩, ⟨0, 0⟩], [⟨0, 0⟩, ⟨2, 9⟩, ⟨4, 0⟩]]], []⟩,
   ⟨5, [.edges [[⟨0, 0⟩, ⟨2, 0⟩], [⟨2, 0⟩, ⟨1, 5⟩, ⟨0, 0⟩]]], []⟩]

/-- C109: a part that shares edges with others may not go through normalizing where all of
the map does. -/
theorem C109_part_refuted : ¬ ∀ (m : Build) (rs qs : List (Region Nat)) (t t' : Topology Nat), qs.Sublist rs →
    buildTopology m rs = .ok t → normalize m t = .ok t' → ∃ u u', buildTopology m qs = .ok u ∧ normalize m u = .ok u' := by
  intro h
  obtain ⟨u, u', h1, h2⟩ := h .debug exHalfWay (exHalfWay.take 4)
    ((buildTopology .debug exHalfWay).toOption.getD ⟨[], []⟩)
    (((buildTopology .debug exHalfWay) >>= normalize .debug).toOption.getD ⟨[], []⟩)
    (List.take_sublist _ _) (by decide +kernel) (by decide +kernel)
  have h3 : (buildTopology .debug (exHalfWay.take 4) >>= normalize .debug).toOption = none := by decide +kernel
  rw [h1, ok_bind, h2] at h3
  cases h3

/-! ## Examples -/

-- non-vacuity: a map that goes through building, clipping and simplifying, and a part of it
example : [exThree[0], exThree[2]].Sublist exThree ∧
    ∃ t, ([Operation.clip (.minX 5), .simplify 3].foldlM (Operation.apply .debug) =<< buildTopology .debug exThree) = .ok t ∧
      t.regions.length = 3 := by
  refine ⟨by decide, ?_⟩
  let t := ([Operation.clip (.minX 5), .simplify 3].foldlM (Operation.apply .debug) =<< buildTopology .debug exThree).toOption.getD ⟨[], []⟩
  exact ⟨t, by decide +kernel, by decide +kernel⟩

-- non-vacuity: a mask that drops some regions and cuts others
example : ∃ t t', buildTopology .debug exThree = .ok t ∧ clipTopology .debug t (.minX 12) = .ok t' ∧
    (drawn t).map (·.data) = [1, 2, 3] ∧ (drawn t').map (·.data) = [2, 3] := by
  let t := (buildTopology .debug exThree).toOption.getD ⟨[], []⟩
  let t' := (clipTopology .debug t (.minX 12)).toOption.getD ⟨[], []⟩
  exact ⟨t, t', by decide +kernel, by decide +kernel, by decide +kernel, by decide +kernel⟩

-- non-vacuity: the third square shares no edge with the others
example : ∃ t u t', buildTopology .debug exThree = .ok t ∧ buildTopology .debug [exThree[2]] = .ok u ∧
    PartOf (· + 7) (· + 2) u t ∧ BackPointersExact t ∧ BackPointersExact u ∧ Separate (· + 7) (· + 2) u t ∧
    normalize .debug t = .ok t' := by
  let t := (buildTopology .debug exThree).toOption.getD ⟨[], []⟩
  let u := (buildTopology .debug [exThree[2]]).toOption.getD ⟨[], []⟩
  let t' := (normalize .debug t).toOption.getD ⟨[], []⟩
  have ht : buildTopology .debug exThree = .ok t := by decide +kernel
  have hu : buildTopology .debug [exThree[2]] = .ok u := by decide +kernel
  refine ⟨t, u, t', ht, hu, ⟨fun i _ j _ h => by simpa using h, fun i j h => by simpa using h, ?_, ?_⟩, (buildTopology_facts ht).1,
    (buildTopology_facts hu).1, ?_, by decide +kernel⟩
  · have h1 : ∀ i < 4, (t.edges[i + 7]?.map TopoEdge.points) = u.edges[i]?.map TopoEdge.points := by decide +kernel
    have h2 : u.edges.length = 4 := by decide +kernel
    intro i e he
    have hi := (List.getElem?_eq_some_iff.mp he).1
    have := h1 i (by omega)
    rw [he, Option.map_some, Option.map_eq_some_iff] at this
    exact this
  · have h1 : t.regions[2]? = u.regions[0]?.map (renumberRegion (· + 7) (· + 2)) := by decide +kernel
    have h2 : t.regions.length = 3 := by decide +kernel
    have h3 : u.regions.length = 1 := by decide +kernel
    intro j
    cases j with
    | zero => exact h1
    | succ j =>
      rw [List.getElem?_eq_none (l := t.regions) (by simp only [h2]; omega), List.getElem?_eq_none (l := u.regions) (by omega)]
      rfl
  · have h1 : ∀ i < u.edges.length, ∀ rp ∈ ringsUsing t (i + 7), ∃ j < u.regions.length, rp.region = j + 2 := by decide +kernel
    exact h1

end TopoGeo
