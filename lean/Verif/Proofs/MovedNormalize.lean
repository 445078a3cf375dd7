import Verif.Proofs.MovedMap
/-!
# Normalizing maps that differ in the place of points
-/

namespace TopoGeo

open Spec

variable {m : Build} {P : Prop} {T : Point → Point → Prop} {φ : Point → Int} {δ ε : Type} {D : δ → ε → Prop}

/-- Edges between the same regions whose points correspond. -/
structure SameNorm (T : Point → Point → Prop) (e f : NormEdge) : Prop where
  points : SamePath T e.points f.points
  regions : e.regions = f.regions

/-- Rings made of edges that correspond. -/
abbrev SameNorms (T : Point → Point → Prop) : NormRing → NormRing → Prop := List.Forall₂ (SameNorm T)

theorem npts_same {es fs : NormRing} (h : SameNorms T es fs) : List.Forall₂ (SamePath T) (npts es) (npts fs) := by
  unfold npts
  rw [List.forall₂_map_left_iff, List.forall₂_map_right_iff]
  exact h.imp fun _ _ h => h.points

theorem ringAt_same {t : Topology δ} {u : Topology ε} (h : SameTopology T D t u) (rp : RingPtr) : t.ringAt rp = u.ringAt rp := by
  unfold Topology.ringAt
  rcases forall₂_at h.regions rp.region with ⟨a, b, h1, h2, h3⟩ | ⟨h1, h2⟩
  · rw [h1, h2]
    dsimp only
    rw [h3.outer, h3.inner]
  · rw [h1, h2]

theorem derefRegion_same {t : Topology δ} {u : Topology ε} (h : SameTopology T D t u) (o : Option RingPtr) :
    derefRegion t o = derefRegion u o := by
  cases o with
  | none => rfl
  | some rp =>
    unfold derefRegion
    dsimp only
    rw [ringAt_same h]

theorem withDirectedEdge_agree {t : Topology δ} {u : Topology ε} (h : SameTopology T D t u) (de : DirectedEdge) :
    Agree P (SameNorm T) (withDirectedEdge t de) (withDirectedEdge u de) := by
  unfold withDirectedEdge
  rcases forall₂_at h.edges de.edge with ⟨a, b, h1, h2, h3⟩ | ⟨h1, h2⟩
  · rw [h1, h2]
    dsimp only
    rw [h3.ring0, h3.ring1, derefRegion_same h, derefRegion_same h]
    refine Agree.bind (Agree.refl _) ?_
    rintro r0 _ rfl
    have hp : SamePath T (if de.direction = .backward then a.points.reverse else a.points)
        (if de.direction = .backward then b.points.reverse else b.points) := by
      split
      · exact List.forall₂_reverse_iff.mpr h3.points
      · exact h3.points
    split
    · exact ⟨hp, rfl⟩
    · refine Agree.bind (Agree.refl _) ?_
      rintro r1 _ rfl
      exact ⟨hp, rfl⟩
  · rw [h1, h2]
    exact Agree.error _

theorem withDirectedEdges_agree {t : Topology δ} {u : Topology ε} (h : SameTopology T D t u) (des : List DirectedEdge) :
    Agree P (SameNorms T) (withDirectedEdges t des) (withDirectedEdges u des) := by
  induction des with
  | nil => exact .nil
  | cons de des ih =>
    rw [withDirectedEdges, withDirectedEdges]
    refine Agree.bind (withDirectedEdge_agree h de) fun e f hef => ?_
    exact Agree.bind ih fun es fs hes => List.Forall₂.cons hef hes

theorem argMinLoop_same (hT : Rigid m P T φ) {ps qs : List Point} (h : SamePath T ps qs) {a b : Point} (hab : T a b) (k i : Nat) :
    argMinLoop a k i ps = argMinLoop b k i qs := by
  induction h generalizing a b k i with
  | nil => rfl
  | @cons c d ps qs h1 _ ih =>
    simp only [argMinLoop]
    have := hT.less h1 hab
    by_cases hc : c < a
    · rw [if_pos hc, if_pos (this.mp hc), ih h1]
    · rw [if_neg hc, if_neg (mt this.mpr hc), ih hab]

theorem argMin_same (hT : Rigid m P T φ) {ps qs : List Point} (h : SamePath T ps qs) : argMin ps = argMin qs := by
  cases h with
  | nil => rfl
  | cons h1 h2 =>
    simp only [argMin]
    rw [argMinLoop_same hT h2 h1]

theorem rotateIslandEdge_agree (hT : Rigid m P T φ) {e f : NormEdge} (h : SameNorm T e f) :
    Agree P (SameNorm T) (rotateIslandEdge e) (rotateIslandEdge f) := by
  unfold rotateIslandEdge
  rw [argMin_same hT h.points]
  split
  · exact h
  · exact h
  · by_cases he : e.points.head? = e.points.getLast?
    · rw [if_pos he, if_pos ((ends_equal hT h.points).mp he)]
      refine ⟨?_, h.regions⟩
      dsimp only
      rw [h.points.length_eq]
      exact forall₂_append (List.forall₂_drop _ (List.forall₂_take _ h.points)) (List.forall₂_take _ h.points)
    · rw [if_neg he, if_neg (mt (ends_equal hT h.points).mpr he)]
      exact Agree.error _

theorem firstPoints_agree {es fs : NormRing} (h : SameNorms T es fs) :
    Agree P (SamePath T) (firstPoints es) (firstPoints fs) := by
  induction h with
  | nil => exact .nil
  | cons h1 _ ih =>
    rw [firstPoints, firstPoints]
    rcases forall₂_head h1.points with ⟨h2, h3⟩ | ⟨a, b, h2, h3, h4⟩
    · rw [h2, h3]; exact Agree.error _
    · rw [h2, h3]
      exact Agree.bind ih fun ps qs hpq => List.Forall₂.cons h4 hpq

theorem rotateMany_agree (hT : Rigid m P T φ) {es fs : NormRing} (h : SameNorms T es fs) :
    Agree P (SameNorms T)
      (do let ps ← firstPoints es
          match argMin ps with
          | none | some 0 => .ok es
          | some index => .ok (es.drop index ++ es.take index))
      (do let ps ← firstPoints fs
          match argMin ps with
          | none | some 0 => .ok fs
          | some index => .ok (fs.drop index ++ fs.take index)) := by
  refine Agree.bind (firstPoints_agree h) fun ps qs hpq => ?_
  rw [argMin_same hT hpq]
  split
  · exact h
  · exact h
  · exact forall₂_append (List.forall₂_drop _ h) (List.forall₂_take _ h)

theorem rotateEdges_agree (hT : Rigid m P T φ) {es fs : NormRing} (h : SameNorms T es fs) :
    Agree P (SameNorms T) (rotateEdges es) (rotateEdges fs) := by
  have hm := rotateMany_agree (m := m) hT h
  cases h with
  | nil => exact hm
  | cons h1 h2 =>
    cases h2 with
    | nil => exact Agree.bind (rotateIslandEdge_agree hT h1) fun e f hef => List.Forall₂.cons hef .nil
    | cons h3 h4 => exact hm

theorem sliceFrom1_agree {ps qs : List Point} (h : SamePath T ps qs) : Agree P (SamePath T) (sliceFrom1 ps) (sliceFrom1 qs) := by
  cases h with
  | nil => exact Agree.error _
  | cons _ h => exact h

theorem joinStep_agree {es fs : NormRing} (h : SameNorms T es fs) {e f : NormEdge} (hef : SameNorm T e f) :
    Agree P (SameNorms T) (joinStep es e) (joinStep fs f) := by
  unfold joinStep
  rcases forall₂_last h with ⟨h1, h2⟩ | ⟨a, b, h1, h2, h3⟩
  · rw [h1, h2]
    exact forall₂_append h (.cons hef .nil)
  · rw [h1, h2]
    dsimp only
    rw [h3.regions, hef.regions]
    split
    · refine Agree.bind (sliceFrom1_agree hef.points) fun x y hxy => ?_
      exact forall₂_append (forall₂_dropLast h) (.cons ⟨forall₂_append h3.points hxy, rfl⟩ .nil)
    · exact forall₂_append h (.cons hef .nil)

theorem joinLoop_agree {es fs : NormRing} (h : SameNorms T es fs) {l k : NormRing} (hlk : SameNorms T l k) :
    Agree P (SameNorms T) (joinLoop es l) (joinLoop fs k) := by
  induction hlk generalizing es fs with
  | nil => exact h
  | cons h1 _ ih =>
    rw [joinLoop, joinLoop]
    exact Agree.bind (joinStep_agree h h1) fun a b hab => ih hab

theorem joinWrap_agree {es fs : NormRing} (h : SameNorms T es fs) : Agree P (SameNorms T) (joinWrap es) (joinWrap fs) := by
  cases h with
  | nil => exact .nil
  | cons h1 h2 =>
    cases h2 with
    | nil => exact .cons h1 .nil
    | @cons a b l k h3 h4 =>
      simp only [joinWrap]
      have hl := forall₂_getLast (List.Forall₂.cons h3 h4) (by simp) (by simp)
      rw [h1.regions, hl.regions]
      split
      · refine Agree.bind (sliceFrom1_agree h1.points) fun x y hxy => ?_
        refine List.Forall₂.cons ⟨forall₂_append hl.points hxy, ?_⟩ (forall₂_dropLast (.cons h3 h4))
        rfl
      · exact .cons h1 (.cons h3 h4)

theorem joinRelatedEdges_agree {es fs : NormRing} (h : SameNorms T es fs) :
    Agree P (SameNorms T) (joinRelatedEdges es) (joinRelatedEdges fs) := by
  unfold joinRelatedEdges
  exact Agree.bind (joinLoop_agree .nil h) fun a b hab => joinWrap_agree hab

theorem sameNorm_eq (hT : Fixed T) {e f : NormEdge} (h : SameNorm T e f) : e = f := by
  obtain ⟨h1, h2⟩ := h
  cases e
  cases f
  rw [NormEdge.mk.injEq]
  exact ⟨forall₂_fixed hT h1, h2⟩

theorem windEdges_agree (hT : Rigid m P T φ) {es fs : NormRing} (h : SameNorms T es fs) (hc : Fixed T ∨ ClosedRing (npts es))
    (order : WindingOrder) : Agree P (SameNorms T) (windEdges m es order) (windEdges m fs order) := by
  unfold windEdges calculateWindingOrder
  refine Agree.bind (r := (· = ·)) ?_ ?_
  · refine Agree.bind (r := (· = ·)) ?_ ?_
    · refine agree_of_ok hT (fun hT => Agree.of_eq (by rw [forall₂_fixed (fun _ _ h => sameNorm_eq hT h) h])) (fun e => normAreaLoop_onlyOverflow m es 0 e) (fun e => normAreaLoop_onlyOverflow m fs 0 e)
        fun a b ha hb => ?_
      rw [normAreaLoop_ok (by decide) ha, normAreaLoop_ok (by decide) hb]
      have := ringShoelace_rigid hT (r := .edges (npts es)) (s := .edges (npts fs)) (npts_same h) (hc.imp_right .inr)
      simp only [ringShoelace] at this
      rw [this]
    · rintro a _ rfl
      exact Agree.refl _
  · rintro w _ rfl
    split
    · exact h
    · refine List.forall₂_reverse_iff.mpr ?_
      rw [List.forall₂_map_left_iff, List.forall₂_map_right_iff]
      exact h.imp fun e f hef => ⟨List.forall₂_reverse_iff.mpr hef.points, hef.regions⟩

/-! ## Merging -/

/-- Entries of merge maps that correspond. -/
structure SameMerge (T : Point → Point → Prop) (x y : Point × NormEdge) : Prop where
  key : T x.1 y.1
  edge : SameNorm T x.2 y.2

theorem mergeInsert_agree (hT : Rigid m P T φ) {es fs : MergeMap} (h : List.Forall₂ (SameMerge T) es fs) {p q : Point} (hpq : T p q)
    {e f : NormEdge} (hef : SameNorm T e f) :
    Agree P (List.Forall₂ (SameMerge T)) (MergeMap.insert p e es) (MergeMap.insert q f fs) := by
  induction h with
  | nil => exact .cons ⟨hpq, hef⟩ .nil
  | @cons x y es fs h1 h2 ih =>
    obtain ⟨k, a⟩ := x
    obtain ⟨l, b⟩ := y
    rw [MergeMap.insert, MergeMap.insert]
    by_cases hk : p = k
    · rw [if_pos hk, if_pos ((hT.equal hpq h1.key).mp hk)]
      exact Agree.error _
    · rw [if_neg hk, if_neg (mt (hT.equal hpq h1.key).mpr hk)]
      by_cases hlt : p < k
      · rw [if_pos hlt, if_pos ((hT.less hpq h1.key).mp hlt)]
        exact .cons ⟨hpq, hef⟩ (.cons h1 h2)
      · rw [if_neg hlt, if_neg (mt (hT.less hpq h1.key).mpr hlt)]
        exact Agree.bind ih fun a b hab => List.Forall₂.cons h1 hab

theorem mergeRemove_same (hT : Rigid m P T φ) {es fs : MergeMap} (h : List.Forall₂ (SameMerge T) es fs) {p q : Point} (hpq : T p q) :
    SameSlot (fun x y => SameNorm T x.1 y.1 ∧ List.Forall₂ (SameMerge T) x.2 y.2) (MergeMap.remove p es) (MergeMap.remove q fs) := by
  induction h with
  | nil => exact .none
  | @cons x y es fs h1 h2 ih =>
    obtain ⟨k, a⟩ := x
    obtain ⟨l, b⟩ := y
    rw [MergeMap.remove, MergeMap.remove]
    by_cases hk : p = k
    · rw [if_pos hk, if_pos ((hT.equal hpq h1.key).mp hk)]
      exact .some ⟨h1.edge, h2⟩
    · rw [if_neg hk, if_neg (mt (hT.equal hpq h1.key).mpr hk)]
      cases hx : MergeMap.remove p es with
      | none =>
        cases hy : MergeMap.remove q fs with
        | none => exact .none
        | some _ => rw [hx, hy] at ih; cases ih
      | some _ =>
        cases hy : MergeMap.remove q fs with
        | none => rw [hx, hy] at ih; cases ih
        | some _ =>
          rw [hx, hy] at ih
          cases ih with
          | some ih => exact .some ⟨ih.1, .cons h1 ih.2⟩

theorem indexEdges_agree (hT : Rigid m P T φ) {map map' : MergeMap} (hm : List.Forall₂ (SameMerge T) map map') {es fs : NormRing}
    (h : SameNorms T es fs) : Agree P (List.Forall₂ (SameMerge T)) (indexEdges map es) (indexEdges map' fs) := by
  induction h generalizing map map' with
  | nil => exact hm
  | cons h1 _ ih =>
    rw [indexEdges, indexEdges]
    rcases forall₂_head h1.points with ⟨h2, h3⟩ | ⟨a, b, h2, h3, h4⟩
    · rw [h2, h3]; exact Agree.error _
    · rw [h2, h3]
      exact Agree.bind (mergeInsert_agree hT hm h4 h1) fun a b hab => ih hab

theorem forall₂_filter {α β : Type} {r : α → β → Prop} {f : α → Bool} {g : β → Bool} {l : List α} {k : List β}
    (h : List.Forall₂ r l k) (hfg : ∀ a b, r a b → f a = g b) : List.Forall₂ r (l.filter f) (k.filter g) := by
  induction h with
  | nil => exact .nil
  | cons h1 _ ih =>
    rw [List.filter_cons, List.filter_cons, hfg _ _ h1]
    split
    · exact .cons h1 ih
    · exact ih

theorem isRedundant_same {e f : NormEdge} (h : SameNorm T e f) : e.isRedundant = f.isRedundant := by
  unfold NormEdge.isRedundant
  rw [h.regions]

/-- Lists of rings that correspond. -/
abbrev SameRingList (T : Point → Point → Prop) : List NormRing → List NormRing → Prop := List.Forall₂ (SameNorms T)

theorem splitRings_agree (hT : Rigid m P T φ) {ret ret' : List NormRing} (hr : SameRingList T ret ret') {map map' : MergeMap}
    (hm : List.Forall₂ (SameMerge T) map map') {rs ss : List NormRing} (h : SameRingList T rs ss) :
    Agree P (fun x y => SameRingList T x.1 y.1 ∧ List.Forall₂ (SameMerge T) x.2 y.2)
      (splitRings ret map rs) (splitRings ret' map' ss) := by
  induction h generalizing ret ret' map map' with
  | nil => exact ⟨hr, hm⟩
  | @cons r s rs ss h1 _ ih =>
    rw [splitRings, splitRings]
    have hred : SameNorms T (r.filter fun e => e.isRedundant) (s.filter fun e => e.isRedundant) :=
      forall₂_filter h1 fun _ _ h => isRedundant_same h
    have huse : SameNorms T (r.filter fun e => !e.isRedundant) (s.filter fun e => !e.isRedundant) :=
      forall₂_filter h1 fun _ _ h => by rw [isRedundant_same h]
    rw [hred.length_eq, huse.length_eq]
    split
    · exact ih (forall₂_append hr (.cons huse .nil)) hm
    · split
      · exact ih hr hm
      · exact Agree.bind (indexEdges_agree hT hm huse) fun a b hab => ih hr hab

theorem follow_agree (hT : Rigid m P T φ) {p q : Point} (hpq : T p q) (fuel : Nat) {c d : Point} (hcd : T c d) {map map' : MergeMap}
    (hm : List.Forall₂ (SameMerge T) map map') {es fs : NormRing} (h : SameNorms T es fs) :
    Agree P (fun x y => SameNorms T x.1 y.1 ∧ List.Forall₂ (SameMerge T) x.2 y.2)
      (follow p fuel c map es) (follow q fuel d map' fs) := by
  induction fuel generalizing c d map map' es fs with
  | zero => exact Agree.error _
  | succ fuel ih =>
    rw [follow, follow]
    have hrem := mergeRemove_same hT hm hcd
    cases hx : MergeMap.remove c map with
    | none =>
      cases hy : MergeMap.remove d map' with
      | none => exact Agree.error _
      | some _ => rw [hx, hy] at hrem; cases hrem
    | some x =>
      cases hy : MergeMap.remove d map' with
      | none => rw [hx, hy] at hrem; cases hrem
      | some y =>
        rw [hx, hy] at hrem
        obtain ⟨e, map1⟩ := x
        obtain ⟨f, map2⟩ := y
        cases hrem with
        | some hrem =>
          obtain ⟨hef, hm'⟩ := hrem
          dsimp only at hef hm' ⊢
          have happ : SameNorms T (es ++ [e]) (fs ++ [f]) := forall₂_append h (.cons hef .nil)
          rcases forall₂_last hef.points with ⟨h1, h2⟩ | ⟨a, b, h1, h2, h3⟩
          · rw [h1, h2]; exact Agree.error _
          · rw [h1, h2]
            dsimp only
            by_cases he : a = p
            · rw [if_pos he, if_pos ((hT.equal h3 hpq).mp he)]
              exact ⟨happ, hm'⟩
            · rw [if_neg he, if_neg (mt (hT.equal h3 hpq).mpr he)]
              exact ih h3 hm' happ

theorem mergeLoop_agree (hT : Rigid m P T φ) (fuel : Nat) {map map' : MergeMap} (hm : List.Forall₂ (SameMerge T) map map')
    {ret ret' : List NormRing} (hr : SameRingList T ret ret') :
    Agree P (SameRingList T) (mergeLoop fuel map ret) (mergeLoop fuel map' ret') := by
  induction fuel generalizing map map' ret ret' with
  | zero =>
    cases hm with
    | nil => exact hr
    | cons _ _ => exact Agree.error _
  | succ fuel ih =>
    cases hm with
    | nil => exact hr
    | @cons x y map map' h1 h2 =>
      obtain ⟨k, a⟩ := x
      obtain ⟨l, b⟩ := y
      rw [mergeLoop, mergeLoop]
      rw [(List.Forall₂.cons h1 h2).length_eq]
      refine Agree.bind (follow_agree hT h1.key _ h1.key (.cons h1 h2) .nil) ?_
      rintro ⟨es, m1⟩ ⟨fs, m2⟩ ⟨hes, hm12⟩
      refine Agree.bind (joinRelatedEdges_agree hes) fun j j' hj => ?_
      refine Agree.bind (rotateEdges_agree hT hj) fun r r' hr' => ?_
      exact ih hm12 (forall₂_append hr (.cons hr' .nil))

/-- Rings with keys that correspond. -/
structure SameKeyed (T : Point → Point → Prop) (x y : Point × NormRing) : Prop where
  key : T x.1 y.1
  ring : SameNorms T x.2 y.2

theorem keyRings_agree {rs ss : List NormRing} (h : SameRingList T rs ss) :
    Agree P (List.Forall₂ (SameKeyed T)) (keyRings rs) (keyRings ss) := by
  induction h with
  | nil => exact .nil
  | @cons r s rs ss h1 _ ih =>
    rw [keyRings, keyRings]
    refine Agree.bind (r := T) ?_ fun p q hpq => ?_
    · unfold ringKey
      cases h1 with
      | nil => exact Agree.error _
      | cons h2 _ =>
        dsimp only
        rcases forall₂_head h2.points with ⟨h3, h4⟩ | ⟨a, b, h3, h4, h5⟩
        · rw [h3, h4]; exact Agree.error _
        · rw [h3, h4]; exact h5
    · exact Agree.bind ih fun a b hab => List.Forall₂.cons ⟨hpq, h1⟩ hab

theorem point_le_same (hT : Rigid m P T φ) {a b c d : Point} (h : T a b) (h' : T c d) : a ≤ c ↔ b ≤ d := by
  show ¬ c < a ↔ ¬ d < b
  rw [hT.less h' h]

theorem insertByKey_same (hT : Rigid m P T φ) {x y : Point × NormRing} (hxy : SameKeyed T x y) {l k : List (Point × NormRing)}
    (h : List.Forall₂ (SameKeyed T) l k) : List.Forall₂ (SameKeyed T) (insertByKey x l) (insertByKey y k) := by
  induction h with
  | nil => exact .cons hxy .nil
  | @cons a b l k h1 h2 ih =>
    rw [insertByKey, insertByKey]
    have := point_le_same hT hxy.key h1.key
    by_cases hle : x.1 ≤ a.1
    · rw [if_pos hle, if_pos (this.mp hle)]
      exact .cons hxy (.cons h1 h2)
    · rw [if_neg hle, if_neg (mt this.mpr hle)]
      exact .cons h1 ih

theorem sortByKey_same (hT : Rigid m P T φ) {l k : List (Point × NormRing)} (h : List.Forall₂ (SameKeyed T) l k) :
    List.Forall₂ (SameKeyed T) (sortByKey l) (sortByKey k) := by
  induction h with
  | nil => exact .nil
  | cons h1 _ ih => exact insertByKey_same hT h1 ih

theorem sortRings_agree (hT : Rigid m P T φ) {rs ss : List NormRing} (h : SameRingList T rs ss) :
    Agree P (SameRingList T) (sortRings rs) (sortRings ss) := by
  unfold sortRings
  refine Agree.bind (keyRings_agree h) fun a b hab => ?_
  show List.Forall₂ _ _ _
  rw [List.forall₂_map_left_iff, List.forall₂_map_right_iff]
  exact (sortByKey_same hT hab).imp fun _ _ h => h.ring

theorem joinAdjacentRings_agree (hT : Rigid m P T φ) {rs ss : List NormRing} (h : SameRingList T rs ss) :
    Agree P (SameRingList T) (joinAdjacentRings rs) (joinAdjacentRings ss) := by
  unfold joinAdjacentRings
  refine Agree.bind (splitRings_agree hT .nil .nil h) ?_
  rintro ⟨ret, map⟩ ⟨ret', map'⟩ ⟨hr, hm⟩
  dsimp only at hr hm ⊢
  rw [hm.length_eq]
  split
  · exact hr
  · exact Agree.bind (mergeLoop_agree hT _ hm hr) fun a b hab => sortRings_agree hT hab

/-! ## The whole function -/

variable {t : Topology δ} {u : Topology ε}

theorem normalizeRing_agree (hT : Rigid m P T φ) (hw : Fixed T ∨ BackPointersExact t ∧ RingsClosed t) (h : SameTopology T D t u)
    (order : WindingOrder) {ring : TopoRing} (hr : ring ∈ allRings t) :
    Agree P (SameNorms T) (normalizeRing m t order ring) (normalizeRing m u order ring) := by
  unfold normalizeRing
  refine Agree.bind (r := fun x y => SameNorms T x y ∧ (Fixed T ∨ ClosedRing (npts x))) ?_ ?_
  · refine Agree.imp_ok (withDirectedEdges_agree h ring.directedEdges) fun a b ha _ hab => ⟨hab, ?_⟩
    rcases hw with hw | ⟨hb, hc⟩
    · exact .inl hw
    refine .inr ?_
    rw [withDirectedEdges_eq hb (mem_allDirectedEdges_of_ring hr)] at ha
    obtain rfl := Except.ok.inj ha
    have := closed_pathsOf hc hr
    rwa [← npts_nedges] at this
  · rintro es fs ⟨hes, hcl⟩
    refine Agree.bind (r := fun x y => SameNorms T x y ∧ (Fixed T ∨ ClosedRing (npts x))) ?_ ?_
    · refine Agree.imp_ok (joinRelatedEdges_agree hes) fun a b ha _ hab => ⟨hab, ?_⟩
      rcases hcl with hcl | hcl
      · exact .inl hcl
      refine .inr ?_
      obtain ⟨out, h1, h2, _⟩ := joinRelatedEdges_closed hcl
      rw [h1] at ha
      obtain rfl := Except.ok.inj ha
      exact h2
    · rintro js ks ⟨hjs, hcl'⟩
      exact Agree.bind (windEdges_agree hT hjs hcl' order) fun a b hab => rotateEdges_agree hT hab

theorem normalizeRings_agree (hT : Rigid m P T φ) (hw : Fixed T ∨ BackPointersExact t ∧ RingsClosed t) (h : SameTopology T D t u)
    (order : WindingOrder) {rings : List TopoRing} (hr : ∀ ring ∈ rings, ring ∈ allRings t) :
    Agree P (SameRingList T) (normalizeRings m t order rings) (normalizeRings m u order rings) := by
  induction rings with
  | nil => exact .nil
  | cons ring rings ih =>
    rw [normalizeRings, normalizeRings]
    refine Agree.bind (normalizeRing_agree hT hw h order (hr ring (by simp))) fun a b hab => ?_
    exact Agree.bind (ih fun r h => hr r (List.mem_cons_of_mem _ h)) fun c d hcd => List.Forall₂.cons hab hcd

theorem normalizeRegionRings_agree (hT : Rigid m P T φ) (hw : Fixed T ∨ BackPointersExact t ∧ RingsClosed t) (h : SameTopology T D t u)
    (order : WindingOrder) {rings : List TopoRing} (hr : ∀ ring ∈ rings, ring ∈ allRings t) :
    Agree P (fun x y => List.Forall₂ (MatchedRing T) x y ∧ (Fixed T ∨ ∀ r ∈ x, RingCloses r))
      (normalizeRegionRings m t rings order) (normalizeRegionRings m u rings order) := by
  unfold normalizeRegionRings
  refine Agree.bind (r := fun x y => SameRingList T x y ∧ (Fixed T ∨ ∀ r ∈ x, ClosedRing (npts r))) ?_ ?_
  · have : Agree P (SameRingList T) (normalizeRegionNormRings m t rings order) (normalizeRegionNormRings m u rings order) := by
      unfold normalizeRegionNormRings
      refine Agree.bind (normalizeRings_agree hT hw h order hr) fun a b hab => ?_
      exact Agree.bind (joinAdjacentRings_agree hT hab) fun c d hcd => sortRings_agree hT hcd
    refine Agree.imp_ok this fun a b ha _ hab => ⟨hab, ?_⟩
    rcases hw with hw | ⟨hb, hc⟩
    · exact .inl hw
    refine .inr ?_
    obtain ⟨ns, merged, hn⟩ := normalizeRegionNormRings_ok hb hc hr ha
    exact fun r hr => (hn.nice r hr).closed
  · rintro rs ss ⟨hrs, hcl⟩
    constructor
    · rw [List.forall₂_map_left_iff, List.forall₂_map_right_iff]
      exact hrs.imp fun r s h => npts_same h
    · refine hcl.imp_right fun hcl r hr => ?_
      rw [List.mem_map] at hr
      obtain ⟨n, hn, rfl⟩ := hr
      exact .inr (hcl n hn)

theorem normalizeRegion_agree (hT : Rigid m P T φ) (hw : Fixed T ∨ BackPointersExact t ∧ RingsClosed t) (h : SameTopology T D t u)
    {r : TopoRegion δ} {s : TopoRegion ε} (hrs : SameTopoRegion D r s)
    (hr : ∀ ring ∈ r.outerRings ++ r.innerRings, ring ∈ allRings t) :
    Agree P (fun x y => SameRegion T D x y ∧ (Fixed T ∨ ∀ ring ∈ x.outerRings ++ x.innerRings, RingCloses ring))
      (normalizeRegion m t r) (normalizeRegion m u s) := by
  unfold normalizeRegion
  rw [← hrs.outer, ← hrs.inner]
  refine Agree.bind (normalizeRegionRings_agree hT hw h _ fun ring hm => hr ring (List.mem_append_left _ hm)) ?_
  rintro o o' ⟨ho, hco⟩
  refine Agree.bind (normalizeRegionRings_agree hT hw h _ fun ring hm => hr ring (List.mem_append_right _ hm)) ?_
  rintro i i' ⟨hi, hci⟩
  refine ⟨⟨hrs.data, ho, hi⟩, ?_⟩
  rcases hco with hco | hco
  · exact .inl hco
  rcases hci with hci | hci
  · exact .inl hci
  refine .inr fun ring hm => ?_
  rcases List.mem_append.mp hm with hm | hm
  · exact hco ring hm
  · exact hci ring hm

theorem normalizeLoop_agree (hT : Rigid m P T φ) (hw : Fixed T ∨ BackPointersExact t ∧ RingsClosed t) (h : SameTopology T D t u)
    {b : TopologyBuilder δ} {c : TopologyBuilder ε} (hbc : SameBuilder T D b c)
    {l : List (TopoRegion δ)} {k : List (TopoRegion ε)} (hlk : List.Forall₂ (SameTopoRegion D) l k)
    (hl : ∀ r ∈ l, ∀ ring ∈ r.outerRings ++ r.innerRings, ring ∈ allRings t) :
    Agree P (SameBuilder T D) (normalizeLoop m t b l) (normalizeLoop m u c k) := by
  induction hlk generalizing b c with
  | nil => exact hbc
  | cons h1 _ ih =>
    rw [normalizeLoop, normalizeLoop]
    refine Agree.bind (normalizeRegion_agree hT hw h h1 (hl _ (by simp))) ?_
    rintro r s ⟨hrs, hcl⟩
    exact Agree.bind (addRegion_agree hT hbc hrs hcl) fun b' c' hbc' => ih hbc' fun r hr => hl r (List.mem_cons_of_mem _ hr)

theorem normalize_agree (hT : Rigid m P T φ) (hw : Fixed T ∨ BackPointersExact t ∧ RingsClosed t) (h : SameTopology T D t u) :
    Agree P (SameTopology T D) (normalize m t) (normalize m u) := by
  unfold normalize
  refine Agree.bind (normalizeLoop_agree hT hw h (b := TopologyBuilder.new) (c := TopologyBuilder.new) ⟨.nil, .nil⟩
    h.regions ?_) fun b c hbc => intoTopology_agree hbc
  intro r hr ring hring
  exact List.mem_flatMap.mpr ⟨r, hr, hring⟩

end TopoGeo
