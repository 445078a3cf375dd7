import Verif.Spec.Library
import Verif.Proofs.Normalize
import Verif.Proofs.ClipTopology
/-!
# Any library that keeps its contracts gives the same results
-/

namespace TopoGeo
open Spec

/-! ## Sorting -/

/-- A stable sort is unique. -/
theorem stable_unique {key : NormRing → Point} : ∀ (l1 l2 : List NormRing), l1.Pairwise (fun a b => ¬ key b < key a) →
    l2.Pairwise (fun a b => ¬ key b < key a) →
    (∀ k, l1.filter (fun r => decide (key r = k)) = l2.filter (fun r => decide (key r = k))) → l1 = l2 := by
  intro l1
  induction l1 with
  | nil =>
    intro l2 _ _ hf
    cases l2 with
    | nil => rfl
    | cons b t => have := hf (key b); simp at this
  | cons a t1 ih =>
    intro l2 h1 h2 hf
    cases l2 with
    | nil => have := hf (key a); simp at this
    | cons b t2 =>
      rw [List.pairwise_cons] at h1 h2
      have ha : a ∈ b :: t2 := (List.mem_filter.mp ((hf (key a)) ▸ List.mem_filter.mpr ⟨List.mem_cons_self, by simp⟩)).1
      have hb : b ∈ a :: t1 := (List.mem_filter.mp ((hf (key b)).symm ▸ List.mem_filter.mpr ⟨List.mem_cons_self, by simp⟩)).1
      have hk : key a = key b := by
        rcases List.mem_cons.mp ha with rfl | ha
        · rfl
        · rcases List.mem_cons.mp hb with rfl | hb
          · rfl
          · rcases Point.trichotomy (key a) (key b) with g | g | g
            · exact absurd g (h2.1 _ ha)
            · exact g
            · exact absurd g (h1.1 _ hb)
      have hab : a = b := by
        have := hf (key a)
        rw [List.filter_cons_of_pos (by simp), List.filter_cons_of_pos (by simp [hk])] at this
        exact (List.cons.inj this).1
      subst hab
      rw [ih t2 h1.2 h2.2 fun k => ?_]
      have := hf k
      by_cases h : key a = k
      · rw [List.filter_cons_of_pos (by simpa using h), List.filter_cons_of_pos (by simpa using h)] at this
        exact (List.cons.inj this).2
      · rw [List.filter_cons_of_neg (by simpa using h), List.filter_cons_of_neg (by simpa using h)] at this
        exact this

theorem insertByKey_filter (x : Point × NormRing) (k : Point) : ∀ l : List (Point × NormRing),
    (insertByKey x l).filter (fun r => decide (r.1 = k)) = (x :: l).filter (fun r => decide (r.1 = k)) := by
  intro l
  induction l with
  | nil => rfl
  | cons y ys ih =>
    unfold insertByKey
    split
    · rfl
    · rename_i hle
      rw [Point.le_def', Classical.not_not] at hle
      rw [List.filter_cons, ih]
      by_cases hx : x.1 = k
      · have hy : ¬ y.1 = k := fun h => by rw [hx, h] at hle; exact Point.lt_irrefl _ hle
        simp [List.filter_cons, hx, hy]
      · simp [List.filter_cons, hx]

theorem sortByKey_filter (k : Point) : ∀ l : List (Point × NormRing),
    (sortByKey l).filter (fun r => decide (r.1 = k)) = l.filter (fun r => decide (r.1 = k)) := by
  intro l
  induction l with
  | nil => rfl
  | cons x xs ih => rw [sortByKey, insertByKey_filter, List.filter_cons, List.filter_cons, ih]

/-- The first point of a ring that has one. -/
def keyOf (r : NormRing) : Point := (firstOf r).getD ⟨0, 0⟩

theorem sort_eq {sort : SortLib} (hs : StableSort sort) {rings : List NormRing} (hk : ∀ r ∈ rings, ∃ k, firstOf r = some k) :
    sort cmpRings rings = sortRings rings := by
  have hkey : ∀ r ∈ rings, ringKey r = .ok (keyOf r) := by
    intro r hr
    obtain ⟨k, h⟩ := hk r hr
    rw [ringKey_ok, keyOf, h]; rfl
  obtain ⟨l', h1, h2, h3, h4⟩ := hs cmpRings rings keyOf (fun a ha b hb => by
    rw [cmpRings, hkey a ha, ok_bind, hkey b hb, ok_bind])
  obtain ⟨ks, hks⟩ := keyRings_total hk
  obtain ⟨g1, g2⟩ := keyRings_ok hks
  have hfst : ∀ x ∈ ks, x.1 = keyOf x.2 := fun x hx => by rw [keyOf, g2 x hx]; rfl
  rw [h1, sortRings, hks, ok_bind]
  congr 1
  refine stable_unique (key := keyOf) _ _ h3 ?_ fun k => ?_
  · rw [List.pairwise_map]
    refine (List.Pairwise.and_mem.mp (sortByKey_sorted ks)).imp ?_
    rintro a b ⟨ha, hb, hab⟩
    rw [hfst a ((sortByKey_perm ks).mem_iff.mp ha), hfst b ((sortByKey_perm ks).mem_iff.mp hb)] at hab
    exact hab
  · rw [h4 k, List.filter_map, ← g1, List.filter_map]
    congr 1
    have e1 : ∀ l : List (Point × NormRing), (∀ x ∈ l, x.1 = keyOf x.2) →
        l.filter ((fun r => decide (keyOf r = k)) ∘ fun x => x.2) = l.filter (fun r => decide (r.1 = k)) := by
      intro l hl
      refine List.filter_congr fun x hx => ?_
      simp only [Function.comp_apply, hl x hx]
    rw [e1 _ hfst, e1 _ (fun x hx => hfst x ((sortByKey_perm ks).mem_iff.mp hx)), sortByKey_filter]

/-! ## The sorted map -/

/-- Entries of a map are determined by their keys. -/
theorem MapLib.Lawful.get_none {κ ν : Type} {H : MapLib κ ν} (h : H.Lawful) {s : H.Map} {k : κ} (hg : H.get s k = none) :
    ∀ x ∈ H.entries s, x.1 ≠ k := by
  rintro ⟨k', v⟩ hx rfl
  have := (h.entries s k' v).mp hx
  rw [hg] at this; cases this

theorem MapLib.Lawful.entries_nodup {κ ν : Type} {H : MapLib κ ν} (h : H.Lawful) (s : H.Map) : (H.entries s).Nodup :=
  List.Nodup.of_map _ (h.once s)

theorem MapLib.Lawful.insert_perm {κ ν : Type} {H : MapLib κ ν} (h : H.Lawful) {s : H.Map} {k : κ} (hg : H.get s k = none)
    (v : ν) : (H.entries (H.insert s k v)).Perm ((k, v) :: H.entries s) := by
  refine (List.perm_ext_iff_of_nodup (h.entries_nodup _) ?_).mpr ?_
  · refine List.nodup_cons.mpr ⟨fun hm => h.get_none hg _ hm rfl, h.entries_nodup _⟩
  · rintro ⟨k', v'⟩
    rw [h.entries, List.mem_cons, h.entries]
    by_cases hk : k' = k
    · subst hk
      rw [h.insert_same _ _ _ hg, hg]
      constructor
      · intro e; cases e; exact .inl rfl
      · rintro (e | e)
        · cases e; rfl
        · cases e
    · rw [h.insert_other _ _ _ _ hg hk]
      constructor
      · exact .inr
      · rintro (e | e)
        · cases e; exact absurd rfl hk
        · exact e

theorem MapLib.Lawful.remove_perm {κ ν : Type} {H : MapLib κ ν} (h : H.Lawful) {s : H.Map} {k : κ} {v : ν}
    (hg : H.get s k = some v) : (H.entries s).Perm ((k, v) :: H.entries (H.remove s k)) := by
  refine (List.perm_ext_iff_of_nodup (h.entries_nodup _) ?_).mpr ?_
  · exact List.nodup_cons.mpr ⟨fun hm => h.get_none (h.remove_same s k) _ hm rfl, h.entries_nodup _⟩
  · rintro ⟨k', v'⟩
    rw [h.entries, List.mem_cons, h.entries]
    by_cases hk : k' = k
    · subst hk
      rw [h.remove_same, hg]
      constructor
      · intro e; cases e; exact .inl rfl
      · rintro (e | e)
        · cases e; rfl
        · cases e
    · rw [h.remove_other _ _ _ hk]
      constructor
      · exact .inr
      · rintro (e | e)
        · cases e; exact absurd rfl hk
        · exact e

/-- Keys increase. -/
def KeysIncrease (l : MergeMap) : Prop := l.Pairwise fun a b => a.1 < b.1

theorem keysIncrease_eq {l l' : MergeMap} (h : KeysIncrease l) (h' : KeysIncrease l') (hp : l.Perm l') : l = l' := by
  refine hp.eq_of_pairwise ?_ h h'
  intro a b _ _ h1 h2
  exact absurd h2 (Point.lt_asymm h1)

theorem mergeMap_insert_increase {k : Point} {e : NormEdge} : ∀ {map map' : MergeMap}, KeysIncrease map →
    map.insert k e = .ok map' → KeysIncrease map' := by
  intro map
  induction map with
  | nil => intro map' _ h; obtain rfl := Except.ok.inj h; exact List.pairwise_singleton _ _
  | cons x rest ih =>
    intro map' hs h
    obtain ⟨k', e'⟩ := x
    have hs' := List.pairwise_cons.mp hs
    simp only [MergeMap.insert] at h
    split at h
    · cases h
    · rename_i hne
      split at h
      · rename_i hlt
        obtain rfl := Except.ok.inj h
        refine List.pairwise_cons.mpr ⟨?_, hs⟩
        intro y hy
        rcases List.mem_cons.mp hy with rfl | hy
        · exact hlt
        · exact Point.lt_trans hlt (hs'.1 y hy)
      · rename_i hlt
        rw [bind_ok] at h
        obtain ⟨r, h1, h⟩ := h
        obtain rfl := Except.ok.inj h
        refine List.pairwise_cons.mpr ⟨?_, ih hs'.2 h1⟩
        intro y hy
        rcases List.mem_cons.mp ((mergeMap_insert_ok h1).mem_iff.mp hy) with rfl | hy
        · rcases Point.trichotomy k k' with g | g | g
          · exact absurd g hlt
          · exact absurd g hne
          · exact g
        · exact hs'.1 y hy

theorem mergeMap_remove_sublist {k : Point} {e : NormEdge} : ∀ {map map' : MergeMap}, map.remove k = some (e, map') →
    map'.Sublist map := by
  intro map
  induction map with
  | nil => intro map' h; cases h
  | cons x rest ih =>
    intro map' h
    obtain ⟨k', e'⟩ := x
    simp only [MergeMap.remove] at h
    split at h
    · cases h; exact List.sublist_cons_self _ _
    · split at h
      · cases h
      · rename_i h1
        cases h
        exact (ih h1).cons_cons _

section Tree
variable {T : MapLib Point NormEdge}

theorem tree_increase (hs : ∀ s, ((T.entries s).map Prod.fst).Pairwise (· < ·)) (s : T.Map) : KeysIncrease (T.entries s) :=
  List.pairwise_map.mp (hs s)

theorem tree_insert (h : T.Lawful) (hs : ∀ s, ((T.entries s).map Prod.fst).Pairwise (· < ·)) (s : T.Map) (k : Point)
    (e : NormEdge) : MergeMap.insert k e (T.entries s) =
      match T.get s k with
      | some _ => .error .explicit
      | none => .ok (T.entries (T.insert s k e)) := by
  cases hg : T.get s k with
  | some v =>
    cases hi : MergeMap.insert k e (T.entries s) with
    | error p => rw [(mergeMap_insert_error hi).1]
    | ok map' =>
      exfalso
      have h1 := mergeMap_insert_increase (tree_increase hs s) hi
      have h2 := mergeMap_insert_ok hi
      have h3 : (map'.map Prod.fst).Nodup := (List.pairwise_map.mpr h1).imp fun h4 h5 => by
        rw [h5] at h4; exact Point.lt_irrefl _ h4
      rw [(h2.map Prod.fst).nodup_iff, List.map_cons, List.nodup_cons] at h3
      exact h3.1 (List.mem_map.mpr ⟨_, (h.entries s k v).mpr hg, rfl⟩)
  | none =>
    cases hi : MergeMap.insert k e (T.entries s) with
    | error p =>
      obtain ⟨f, hf⟩ := (mergeMap_insert_error hi).2
      exact absurd rfl (h.get_none hg _ hf)
    | ok map' =>
      simp only
      congr 1
      exact keysIncrease_eq (mergeMap_insert_increase (tree_increase hs s) hi) (tree_increase hs _)
        ((mergeMap_insert_ok hi).trans (h.insert_perm hg e).symm)

theorem tree_remove (h : T.Lawful) (hs : ∀ s, ((T.entries s).map Prod.fst).Pairwise (· < ·)) (s : T.Map) (k : Point) :
    MergeMap.remove k (T.entries s) =
      match T.get s k with
      | some e => some (e, T.entries (T.remove s k))
      | none => none := by
  cases hr : MergeMap.remove k (T.entries s) with
  | none =>
    cases hg : T.get s k with
    | none => rfl
    | some v => exact absurd rfl (mergeMap_remove_none hr _ ((h.entries s k v).mpr hg))
  | some x =>
    obtain ⟨e, map'⟩ := x
    have h1 := mergeMap_remove_some hr
    have hg : T.get s k = some e := (h.entries s k e).mp (h1.mem_iff.mpr List.mem_cons_self)
    rw [hg]
    have h2 : map'.Perm (T.entries (T.remove s k)) := (List.perm_cons _).mp (h1.symm.trans (h.remove_perm hg))
    rw [keysIncrease_eq ((tree_increase hs s).sublist (mergeMap_remove_sublist hr)) (tree_increase hs _) h2]

theorem tree_empty (h : T.Lawful) : T.entries T.empty = [] := by
  rw [List.eq_nil_iff_forall_not_mem]
  rintro ⟨k, v⟩ hm
  have := (h.entries _ k v).mp hm
  rw [h.empty] at this; cases this

theorem lIndexEdges_eq (h : T.Lawful) (hs : ∀ s, ((T.entries s).map Prod.fst).Pairwise (· < ·)) : ∀ (es : List NormEdge) (s : T.Map),
    (lIndexEdges T s es).map T.entries = indexEdges (T.entries s) es := by
  intro es
  induction es with
  | nil => intro s; rfl
  | cons e rest ih =>
    intro s
    unfold lIndexEdges indexEdges
    cases e.points.head? with
    | none => rfl
    | some p =>
      simp only
      rw [tree_insert h hs]
      cases T.get s p with
      | some _ => rfl
      | none => exact ih _

theorem lSplitRings_eq (h : T.Lawful) (hs : ∀ s, ((T.entries s).map Prod.fst).Pairwise (· < ·)) : ∀ (rings : List NormRing)
    (ret : List NormRing) (s : T.Map),
    (lSplitRings T ret s rings).map (fun x => (x.1, T.entries x.2)) = splitRings ret (T.entries s) rings := by
  intro rings
  induction rings with
  | nil => intro ret s; rfl
  | cons r rest ih =>
    intro ret s
    unfold lSplitRings splitRings
    simp only
    split
    · exact ih _ _
    · split
      · exact ih _ _
      · rw [← lIndexEdges_eq h hs]
        cases lIndexEdges T s (r.filter fun e => !e.isRedundant) with
        | error p => rfl
        | ok s' => exact ih _ _

theorem lFollow_eq (h : T.Lawful) (hs : ∀ s, ((T.entries s).map Prod.fst).Pairwise (· < ·)) (start : Point) : ∀ (fuel : Nat)
    (current : Point) (s : T.Map) (es : List NormEdge),
    (lFollow T start fuel current s es).map (fun x => (x.1, T.entries x.2)) = follow start fuel current (T.entries s) es := by
  intro fuel
  induction fuel with
  | zero => intros; rfl
  | succ fuel ih =>
    intro current s es
    unfold lFollow follow
    rw [tree_remove h hs]
    cases T.get s current with
    | none => rfl
    | some edge =>
      simp only
      cases edge.points.getLast? with
      | none => rfl
      | some e =>
        simp only
        split
        · rfl
        · exact ih _ _ _

theorem lMergeLoop_eq (h : T.Lawful) (hs : ∀ s, ((T.entries s).map Prod.fst).Pairwise (· < ·)) : ∀ (fuel : Nat)
    (s : T.Map) (ret : List NormRing), lMergeLoop T fuel s ret = mergeLoop fuel (T.entries s) ret := by
  intro fuel
  induction fuel with
  | zero =>
    intro s ret
    unfold lMergeLoop mergeLoop
    rw [h.len]
    cases he : T.entries s with
    | nil => rfl
    | cons x rest => simp
  | succ fuel ih =>
    intro s ret
    unfold lMergeLoop mergeLoop
    rw [h.len]
    cases he : T.entries s with
    | nil => rfl
    | cons x rest =>
      obtain ⟨start, e⟩ := x
      rw [if_pos (by simp)]
      simp only [List.head?_cons]
      rw [← he, ← lFollow_eq h hs]
      cases lFollow T start ((T.entries s).length + 1) start s [] with
      | error p => rfl
      | ok x =>
        show (joinRelatedEdges x.1 >>= fun joined => rotateEdges joined >>= fun rotated => _) =
          (joinRelatedEdges x.1 >>= fun joined => rotateEdges joined >>= fun rotated => _)
        simp only [ih]

end Tree

/-! ## Rings that are sorted have a first point -/

theorem firstOf_rotateEdges {es out : List NormEdge} (h : rotateEdges es = .ok out) (hne : ¬ (∀ e ∈ es, e.points = [])) :
    ∃ k, firstOf out = some k := by
  match es, h with
  | [], h => exact absurd (by simp) hne
  | [e], h =>
    unfold rotateEdges at h
    rw [bind_ok] at h
    obtain ⟨e', h1, h⟩ := h
    obtain rfl := Except.ok.inj h
    have he : e.points ≠ [] := fun h2 => hne (by simpa using h2)
    have : e'.points ≠ [] := by
      unfold rotateIslandEdge at h1
      split at h1
      · obtain rfl := Except.ok.inj h1; exact he
      · obtain rfl := Except.ok.inj h1; exact he
      · split at h1
        · obtain rfl := Except.ok.inj h1
          intro h2
          have := (List.append_eq_nil_iff.mp h2).2
          rw [List.take_eq_nil_iff] at this
          rcases this with h3 | h3
          · omega
          · exact he h3
        · cases h1
    obtain ⟨p, t, hp⟩ := List.exists_cons_of_ne_nil this
    exact ⟨p, by simp [firstOf, npts, hp]⟩
  | e1 :: e2 :: es, h =>
    unfold rotateEdges at h
    simp only at h
    rw [bind_ok] at h
    obtain ⟨ps, h1, h⟩ := h
    have hall : ∀ (l : List NormEdge) ps, firstPoints l = .ok ps → ∀ e ∈ l, e.points ≠ [] := by
      intro l
      induction l with
      | nil => simp
      | cons a l ih =>
        intro ps h2
        unfold firstPoints at h2
        split at h2
        · cases h2
        · rename_i p hp
          rw [bind_ok] at h2
          obtain ⟨ps', h3, _⟩ := h2
          intro e he
          rcases List.mem_cons.mp he with rfl | he
          · intro h4; rw [h4] at hp; cases hp
          · exact ih _ h3 e he
    have hlen : ∀ (l : List NormEdge) ps, firstPoints l = .ok ps → ps.length = l.length := by
      intro l
      induction l with
      | nil => intro ps h2; obtain rfl := Except.ok.inj h2; rfl
      | cons a l ih =>
        intro ps h2
        unfold firstPoints at h2
        split at h2
        · cases h2
        · rw [bind_ok] at h2
          obtain ⟨ps', h3, h4⟩ := h2
          obtain rfl := Except.ok.inj h4
          simp [ih _ h3]
    have hout : ∃ e t, out = e :: t ∧ e ∈ e1 :: e2 :: es := by
      split at h
      · obtain rfl := Except.ok.inj h; exact ⟨e1, _, rfl, by simp⟩
      · obtain rfl := Except.ok.inj h; exact ⟨e1, _, rfl, by simp⟩
      · rename_i i hi
        obtain rfl := Except.ok.inj h
        obtain ⟨r, hr, _⟩ := argMin_some hi
        have hi' := (List.getElem?_eq_some_iff.mp hr).1
        rw [hlen _ _ h1] at hi'
        rw [List.drop_eq_getElem_cons hi', List.cons_append]
        exact ⟨_, _, rfl, List.getElem_mem _⟩
    obtain ⟨e, t, rfl, he⟩ := hout
    obtain ⟨p, q, hp⟩ := List.exists_cons_of_ne_nil (hall _ _ h1 e he)
    exact ⟨p, by simp [firstOf, npts, hp]⟩

theorem normAreaLoop_points_nil {m : Build} : ∀ {es : List NormEdge} {a b : Int}, (∀ e ∈ es, e.points = []) →
    normAreaLoop m a es = .ok b → b = a := by
  intro es
  induction es with
  | nil => intro a b _ h; exact (Except.ok.inj h).symm
  | cons e es ih =>
    intro a b hn h
    unfold normAreaLoop at h
    rw [hn e (by simp)] at h
    exact ih (fun e he => hn e (by simp [he])) h

theorem firstOf_normalizeRing {δ : Type} {m : Build} {t : Topology δ} {order : WindingOrder} {ring : TopoRing} {r : NormRing}
    (h : normalizeRing m t order ring = .ok r) : ∃ k, firstOf r = some k := by
  unfold normalizeRing at h
  simp only [bind_ok] at h
  obtain ⟨es, _, js, _, ws, hw, h⟩ := h
  refine firstOf_rotateEdges h fun hn => ?_
  unfold windEdges calculateWindingOrder at hw
  simp only [bind_ok] at hw
  obtain ⟨w, ⟨a, ha, h1⟩, h2⟩ := hw
  have hj : ∀ e ∈ js, e.points = [] := by
    split at h2
    · obtain rfl := Except.ok.inj h2; exact hn
    · obtain rfl := Except.ok.inj h2
      intro e he
      have := hn { e with points := e.points.reverse } (by simp; exact ⟨e, he, rfl, rfl⟩)
      simpa using this
  rw [normAreaLoop_points_nil hj ha, if_pos rfl] at h1
  cases h1

theorem firstOf_normalizeRings {δ : Type} {m : Build} {t : Topology δ} {order : WindingOrder} : ∀ {rings : List TopoRing}
    {rs : List NormRing}, normalizeRings m t order rings = .ok rs → ∀ r ∈ rs, ∃ k, firstOf r = some k := by
  intro rings
  induction rings with
  | nil => intro rs h; obtain rfl := Except.ok.inj h; simp
  | cons x rest ih =>
    intro rs h
    unfold normalizeRings at h
    simp only [bind_ok] at h
    obtain ⟨n, h1, ns, h2, h3⟩ := h
    obtain rfl := Except.ok.inj h3
    intro r hr
    rcases List.mem_cons.mp hr with rfl | hr
    · exact firstOf_normalizeRing h1
    · exact ih h2 r hr

theorem firstOf_sortRings {rings out : List NormRing} (hk : ∀ r ∈ rings, ∃ k, firstOf r = some k)
    (h : sortRings rings = .ok out) : ∀ r ∈ out, ∃ k, firstOf r = some k := by
  obtain ⟨ks, hks⟩ := keyRings_total hk
  rw [sortRings, hks, ok_bind] at h
  obtain rfl := Except.ok.inj h
  intro r hr
  obtain ⟨x, hx, rfl⟩ := List.mem_map.mp hr
  exact ⟨_, (keyRings_ok hks).2 x ((sortByKey_perm ks).mem_iff.mp hx)⟩

theorem lJoinAdjacentRings_eq {L : Library} (hL : L.Lawful) {rings : List NormRing} (hk : ∀ r ∈ rings, ∃ k, firstOf r = some k) :
    lJoinAdjacentRings L rings = joinAdjacentRings rings ∧
      ∀ out, joinAdjacentRings rings = .ok out → ∀ r ∈ out, ∃ k, firstOf r = some k := by
  have hsplit := lSplitRings_eq hL.tree hL.sorted rings [] L.tree.empty
  rw [tree_empty hL.tree] at hsplit
  unfold lJoinAdjacentRings joinAdjacentRings
  rw [← hsplit]
  cases hs : lSplitRings L.tree [] L.tree.empty rings with
  | error p => exact ⟨rfl, fun out h => by cases h⟩
  | ok x =>
    obtain ⟨ret, s⟩ := x
    rw [hs] at hsplit
    have hok := splitRings_ok (ret' := ret) (map' := L.tree.entries s) (by intro x hx; cases hx) hsplit.symm
    have hret : ∀ r ∈ ret, ∃ k, firstOf r = some k := by
      intro r hr
      rw [hok.1, List.nil_append] at hr
      exact hk r (List.mem_of_mem_filter hr)
    show ((if L.tree.len s = 0 then _ else _) = (if (L.tree.entries s).length = 0 then _ else _)) ∧
      ∀ out, (if (L.tree.entries s).length = 0 then _ else _) = _ → _
    rw [hL.tree.len]
    by_cases h0 : (L.tree.entries s).length = 0
    · simp only [h0, if_true]
      refine ⟨trivial, fun out h => ?_⟩
      obtain rfl := Except.ok.inj h
      exact hret
    · simp only [h0, if_false]
      rw [lMergeLoop_eq hL.tree hL.sorted]
      cases hm : mergeLoop (L.tree.entries s).length (L.tree.entries s) ret with
      | error p => exact ⟨rfl, fun out h => by cases h⟩
      | ok ret' =>
        obtain ⟨merged, rfl, h1, _⟩ := mergeLoop_ok hok.2.1 hm
        have hall : ∀ r ∈ ret ++ merged, ∃ k, firstOf r = some k := by
          intro r hr
          rcases List.mem_append.mp hr with hr | hr
          · exact hret r hr
          · exact firstOf_closed (h1 r hr).closed
        exact ⟨sort_eq hL.sort hall, fun out h => firstOf_sortRings hall h⟩

theorem lNormalizeRegionRings_eq {δ : Type} {L : Library} (hL : L.Lawful) (m : Build) (t : Topology δ) (rings : List TopoRing)
    (order : WindingOrder) : lNormalizeRegionRings L m t rings order = normalizeRegionRings m t rings order := by
  unfold lNormalizeRegionRings normalizeRegionRings normalizeRegionNormRings
  cases hn : normalizeRings m t order rings with
  | error p => rfl
  | ok ns =>
    obtain ⟨h1, h2⟩ := lJoinAdjacentRings_eq hL (firstOf_normalizeRings hn)
    simp only [ok_bind]
    rw [h1]
    cases hj : joinAdjacentRings ns with
    | error p => rfl
    | ok js =>
      simp only [ok_bind]
      rw [sort_eq hL.sort (h2 js hj)]

theorem lNormalizeRegion_eq {δ : Type} {L : Library} (hL : L.Lawful) (m : Build) (t : Topology δ) (r : TopoRegion δ) :
    lNormalizeRegion L m t r = normalizeRegion m t r := by
  unfold lNormalizeRegion normalizeRegion
  rw [lNormalizeRegionRings_eq hL, lNormalizeRegionRings_eq hL]

/-! ## Hash maps -/

/-- Results that are alike, or the same panic. -/
inductive RelR {α β : Type} (Q : α → β → Prop) : R α → R β → Prop
  | ok {a : α} {b : β} (h : Q a b) : RelR Q (.ok a) (.ok b)
  | error (p : Panic) : RelR Q (.error p) (.error p)

theorem RelR.bind {α β γ ε : Type} {Q : α → β → Prop} {P : γ → ε → Prop} {x : R α} {y : R β} {f : α → R γ} {g : β → R ε}
    (h : RelR Q x y) (hf : ∀ a b, Q a b → RelR P (f a) (g b)) : RelR P (x >>= f) (y >>= g) := by
  cases h with
  | ok h => exact hf _ _ h
  | error p => exact .error p

theorem RelR.refl {α : Type} {Q : α → α → Prop} (hQ : ∀ a, Q a a) (x : R α) : RelR Q x x := by
  cases x
  · exact .error _
  · exact .ok (hQ _)

theorem RelR.same {α γ ε : Type} {P : γ → ε → Prop} {x : R α} {f : α → R γ} {g : α → R ε}
    (hf : ∀ a, RelR P (f a) (g a)) : RelR P (x >>= f) (x >>= g) :=
  RelR.bind (Q := Eq) (RelR.refl (fun _ => rfl) x) fun a b h => by subst h; exact hf a

theorem RelR.eq {α : Type} {x y : R α} (h : RelR (fun a b : α => a = b) x y) : x = y := by
  cases h with
  | ok h => exact congrArg _ h
  | error p => rfl

/-- A hash map that has numbered keys, and the list that it is in the model. -/
def MapRel {κ : Type} [DecidableEq κ] (H : MapLib κ Nat) (first : Nat) (es : H.Map) (l : List (κ × Nat)) : Prop :=
  (∀ k, H.get es k = mapGet k l) ∧ ∃ ks : List κ, ks.Nodup ∧ l = ks.zipIdx first

theorem MapRel.empty {κ : Type} [DecidableEq κ] {H : MapLib κ Nat} (h : H.Lawful) (first : Nat) : MapRel H first H.empty [] :=
  ⟨fun k => by rw [h.empty]; rfl, [], List.nodup_nil, rfl⟩

theorem MapRel.perm {κ : Type} [DecidableEq κ] {H : MapLib κ Nat} (h : H.Lawful) {first : Nat} {es : H.Map} {l : List (κ × Nat)}
    (hr : MapRel H first es l) : (H.entries es).Perm l := by
  obtain ⟨hg, ks, hnd, rfl⟩ := hr
  refine (List.perm_ext_iff_of_nodup (h.entries_nodup _) ?_).mpr ?_
  · exact List.Nodup.of_map Prod.snd (by rw [List.zipIdx_map_snd]; exact List.nodup_range')
  · rintro ⟨k, v⟩
    rw [h.entries, hg, mapGet_zipIdx, List.mk_mem_zipIdx_iff_le_and_getElem?_sub]
    constructor
    · intro h1
      split at h1
      · rename_i hk
        obtain rfl := Option.some.inj h1
        exact ⟨by omega, by rw [show first + keyIdx ks k - first = keyIdx ks k by omega]; exact getElem?_keyIdx hk⟩
      · cases h1
    · rintro ⟨h1, h2⟩
      have hm := List.mem_of_getElem? h2
      rw [if_pos hm]
      congr 1
      have h3 := getElem?_keyIdx hm
      have h4 := (List.getElem?_eq_some_iff.mp h2).1
      have := (List.getElem?_inj h4 hnd).mp (h2.trans h3.symm)
      omega

theorem MapRel.len {κ : Type} [DecidableEq κ] {H : MapLib κ Nat} (h : H.Lawful) {first : Nat} {es : H.Map} {l : List (κ × Nat)}
    (hr : MapRel H first es l) : H.len es = l.length := by rw [h.len, (hr.perm h).length_eq]

theorem MapRel.entry {κ : Type} [DecidableEq κ] {H : MapLib κ Nat} (h : H.Lawful) {first : Nat} {es : H.Map} {l : List (κ × Nat)}
    (hr : MapRel H first es l) (k : κ) : (H.entryId (first + H.len es) k es).1 = (mapEntry (first + l.length) k l).1 ∧
      MapRel H first (H.entryId (first + H.len es) k es).2 (mapEntry (first + l.length) k l).2 := by
  rw [hr.len h]
  unfold MapLib.entryId mapEntry
  cases hg : H.get es k with
  | some id => rw [← hr.1, hg]; exact ⟨rfl, hr⟩
  | none =>
    rw [← hr.1, hg]
    refine ⟨rfl, ?_⟩
    obtain ⟨h1, ks, hnd, rfl⟩ := hr
    have hk : k ∉ ks := by
      intro hk
      have := h1 k
      rw [hg, mapGet_zipIdx, if_pos hk] at this
      cases this
    refine ⟨fun k' => ?_, ks ++ [k], ?_, ?_⟩
    · rw [mapGet_append]
      by_cases hkk : k' = k
      · subst hkk
        rw [h.insert_same _ _ _ hg, ← h1, hg]
        simp [mapGet]
      · rw [h.insert_other _ _ _ _ hg hkk, h1]
        simp [mapGet, hkk]
    · exact List.nodup_append.mpr ⟨hnd, List.nodup_singleton _, by
        intro a ha b hb hab
        rw [List.mem_singleton] at hb
        subst hb; subst hab; exact hk ha⟩
    · rw [List.zipIdx_append, List.length_zipIdx]; rfl

section Build
variable {H : MapLib (List Point) Nat}

/-- Equal values and the same map. -/
def WithMap {κ α : Type} [DecidableEq κ] (H : MapLib κ Nat) (first : Nat) (x : α × H.Map) (y : α × List (κ × Nat)) : Prop :=
  x.1 = y.1 ∧ MapRel H first x.2 y.2

theorem lBuildDirectedEdge_rel (h : H.Lawful) (m : Build) {es : H.Map} {l : EdgeMap} (hr : MapRel H 0 es l) (e : Edge) :
    RelR (WithMap H 0) (lBuildDirectedEdge m H es e) (buildDirectedEdge m l e) := by
  unfold lBuildDirectedEdge buildDirectedEdge
  split
  · exact .ok ⟨rfl, hr⟩
  · refine RelR.same fun x => ?_
    have := hr.entry h x.1
    rw [Nat.zero_add, Nat.zero_add] at this
    refine .ok ⟨?_, this.2⟩
    exact congrArg (fun i => some (DirectedEdge.mk i x.2)) this.1

theorem lBuildDirectedEdges_rel (h : H.Lawful) (m : Build) : ∀ (edges : List Edge) {es : H.Map} {l : EdgeMap}, MapRel H 0 es l →
    RelR (WithMap H 0) (lBuildDirectedEdges m H es edges) (buildDirectedEdges m l edges) := by
  intro edges
  induction edges with
  | nil => intro es l hr; exact .ok ⟨rfl, hr⟩
  | cons e rest ih =>
    intro es l hr
    unfold lBuildDirectedEdges buildDirectedEdges
    refine RelR.bind (lBuildDirectedEdge_rel h m hr e) ?_
    rintro ⟨o, es1⟩ ⟨o', l1⟩ ⟨rfl, h1⟩
    refine RelR.bind (ih h1) ?_
    rintro ⟨ds, es2⟩ ⟨ds', l2⟩ ⟨rfl, h2⟩
    exact .ok ⟨rfl, h2⟩

theorem lBuildRing_rel (h : H.Lawful) (m : Build) (ring : Ring) {es : H.Map} {l : EdgeMap} (hr : MapRel H 0 es l) :
    RelR (WithMap H 0) (lBuildRing m H es ring) (buildRing m l ring) := by
  unfold lBuildRing buildRing
  refine RelR.same fun a => ?_
  split
  · exact .ok ⟨rfl, hr⟩
  · refine RelR.bind (lBuildDirectedEdges_rel h m _ hr) ?_
    rintro ⟨ds, es2⟩ ⟨ds', l2⟩ ⟨rfl, h2⟩
    exact .ok ⟨rfl, h2⟩

theorem lBuildRings_rel (h : H.Lawful) (m : Build) : ∀ (rings : List Ring) {es : H.Map} {l : EdgeMap}, MapRel H 0 es l →
    RelR (WithMap H 0) (lBuildRings m H es rings) (buildRings m l rings) := by
  intro rings
  induction rings with
  | nil => intro es l hr; exact .ok ⟨rfl, hr⟩
  | cons e rest ih =>
    intro es l hr
    unfold lBuildRings buildRings
    refine RelR.bind (lBuildRing_rel h m e hr) ?_
    rintro ⟨o, es1⟩ ⟨o', l1⟩ ⟨rfl, h1⟩
    refine RelR.bind (ih h1) ?_
    rintro ⟨ds, es2⟩ ⟨ds', l2⟩ ⟨rfl, h2⟩
    exact .ok ⟨rfl, h2⟩

/-- Builders with the same regions and map. -/
def BuilderRel {δ : Type} (b : LBuilder δ H) (b' : TopologyBuilder δ) : Prop := b.regions = b'.regions ∧ MapRel H 0 b.edges b'.edges

theorem lAddRegion_rel {δ : Type} (h : H.Lawful) (m : Build) {b : LBuilder δ H} {b' : TopologyBuilder δ} (hr : BuilderRel b b')
    (region : Region δ) : RelR BuilderRel (b.addRegion m region) (b'.addRegion m region) := by
  unfold LBuilder.addRegion TopologyBuilder.addRegion
  refine RelR.bind (lBuildRings_rel h m _ hr.2) ?_
  rintro ⟨o, es1⟩ ⟨o', l1⟩ ⟨rfl, h1⟩
  simp only
  split
  · refine RelR.bind (lBuildRings_rel h m _ h1) ?_
    rintro ⟨ds, es2⟩ ⟨ds', l2⟩ ⟨rfl, h2⟩
    refine .ok ⟨?_, h2⟩
    show b.regions ++ _ = b'.regions ++ _
    rw [hr.1]
  · exact .ok ⟨hr.1, h1⟩

theorem lAddRegions_rel {δ : Type} (h : H.Lawful) (m : Build) : ∀ (regions : List (Region δ)) {b : LBuilder δ H}
    {b' : TopologyBuilder δ}, BuilderRel b b' → RelR BuilderRel (b.addRegions m regions) (b'.addRegions m regions) := by
  intro regions
  induction regions with
  | nil => intro b b' hr; exact .ok hr
  | cons r rest ih =>
    intro b b' hr
    unfold LBuilder.addRegions TopologyBuilder.addRegions
    exact RelR.bind (lAddRegion_rel h m hr r) fun _ _ h1 => ih h1

theorem lIntoTopology_eq {δ : Type} (h : H.Lawful) {b : LBuilder δ H} {b' : TopologyBuilder δ} (hr : BuilderRel b b') :
    b.intoTopology = b'.intoTopology := by
  unfold LBuilder.intoTopology TopologyBuilder.intoTopology TopologyBuilder.intoTopologyWith
  have hp := hr.2.perm h
  have hl := hr.2.len h
  obtain ⟨_, ks, _, hks⟩ := hr.2
  rw [hl, hr.1]
  rw [hks] at hp ⊢
  rw [List.length_zipIdx, placeEdges_perm hp, placeEdges_perm (List.Perm.refl _)]

theorem new_rel {δ : Type} (h : H.Lawful) : BuilderRel (LBuilder.new (δ := δ) H) TopologyBuilder.new :=
  ⟨rfl, MapRel.empty h 0⟩

theorem RelR.finish {α β γ : Type} {Q : α → β → Prop} {x : R α} {y : R β} {f : α → R γ} {g : β → R γ} (h : RelR Q x y)
    (hf : ∀ a b, Q a b → f a = g b) : (x >>= f) = (y >>= g) :=
  RelR.eq (RelR.bind h fun a b hab => by rw [hf a b hab]; exact RelR.refl (fun _ => rfl) _)

end Build

theorem library_build {δ : Type} {L : Library} (hL : L.Lawful) (m : Build) (regions : List (Region δ)) :
    L.buildTopology m regions = buildTopology m regions := by
  unfold Library.buildTopology buildTopology
  exact RelR.finish (lAddRegions_rel hL.paths m regions (new_rel hL.paths)) fun _ _ h => lIntoTopology_eq hL.paths h

theorem lNormalizeLoop_rel {δ : Type} {L : Library} (hL : L.Lawful) (m : Build) (t : Topology δ) : ∀ (regions : List (TopoRegion δ))
    {b : LBuilder δ L.paths} {b' : TopologyBuilder δ}, BuilderRel b b' →
    RelR BuilderRel (lNormalizeLoop L m t b regions) (normalizeLoop m t b' regions) := by
  intro regions
  induction regions with
  | nil => intro b b' hr; exact .ok hr
  | cons r rest ih =>
    intro b b' hr
    unfold lNormalizeLoop normalizeLoop
    rw [lNormalizeRegion_eq hL]
    exact RelR.same fun region => RelR.bind (lAddRegion_rel hL.paths m hr region) fun _ _ h1 => ih h1

theorem library_normalize {δ : Type} {L : Library} (hL : L.Lawful) (m : Build) (t : Topology δ) :
    L.normalize m t = normalize m t := by
  unfold Library.normalize normalize
  exact RelR.finish (lNormalizeLoop_rel hL m t _ (new_rel hL.paths)) fun _ _ h => lIntoTopology_eq hL.paths h

/-! ## Clipping -/

section Clip
variable {H : MapLib (Point × Point) Nat}

/-- Sets of new edges that are the same. -/
def NewRel (s : LNewEdgeSet H) (s' : NewEdgeSet) : Prop := s.firstEdgeId = s'.firstEdgeId ∧ MapRel H s'.firstEdgeId s.edges s'.edges

theorem lBuildNew_rel (h : H.Lawful) {s : LNewEdgeSet H} {s' : NewEdgeSet} (hr : NewRel s s') (p q : Point) :
    (s.buildDirectedEdge p q).1 = (s'.buildDirectedEdge p q).1 ∧
      NewRel (s.buildDirectedEdge p q).2 (s'.buildDirectedEdge p q).2 := by
  unfold LNewEdgeSet.buildDirectedEdge NewEdgeSet.buildDirectedEdge
  have := hr.2.entry h (if p < q then (p, q) else (q, p))
  refine ⟨?_, hr.1, ?_⟩
  · simp only [hr.1]
    rw [this.1]
  · simp only [hr.1]
    exact this.2

/-- States of the loop that are the same. -/
structure StateRel (s : LClipRingState H) (s' : ClipRingState) : Prop where
  ret : s.ret = s'.ret
  area2 : s.area2 = s'.area2
  start : s.start = s'.start
  previous : s.previous = s'.previous
  newEdges : NewRel s.newEdges s'.newEdges

theorem lPlug_rel (h : H.Lawful) (m : Build) {s : LClipRingState H} {s' : ClipRingState} (hr : StateRel s s') (p q : Point) :
    RelR StateRel (s.plug m p q) (s'.plug m p q) := by
  unfold LClipRingState.plug ClipRingState.plug
  generalize signedArea2 m [p, q] = x
  refine RelR.same fun t => ?_
  rw [hr.area2]
  refine RelR.same fun a => ?_
  have := lBuildNew_rel h hr.newEdges p q
  refine .ok ⟨?_, rfl, hr.start, hr.previous, this.2⟩
  exact congrArg₂ (fun a b => a ++ [b]) hr.ret this.1

theorem lClipRingStep_rel (h : H.Lawful) (m : Build) (b : ClipBuilder) {s : LClipRingState H} {s' : ClipRingState}
    (hr : StateRel s s') (de : DirectedEdge) : RelR StateRel (lClipRingStep m b s de) (clipRingStep m b s' de) := by
  unfold lClipRingStep clipRingStep
  refine RelR.same fun o => ?_
  cases o with
  | none => exact .ok hr
  | some edgeId =>
    simp only
    cases b.oldEdges[edgeId]? with
    | none => exact .error _
    | some oldEdge =>
      simp only
      refine RelR.same fun first => ?_
      have h1 : StateRel (if s.start = none then { s with start := some first } else s)
          (if s'.start = none then { s' with start := some first } else s') := by
        rw [hr.start]
        split
        · exact ⟨hr.ret, hr.area2, rfl, hr.previous, hr.newEdges⟩
        · exact hr
      generalize (if s.start = none then ({ s with start := some first } : LClipRingState H) else s) = s1 at h1 ⊢
      generalize (if s'.start = none then ({ s' with start := some first } : ClipRingState) else s') = s1' at h1 ⊢
      have key : ∀ (s2 : LClipRingState H) s2', StateRel s2 s2' → RelR StateRel
          (lastPoint oldEdge de.direction >>= fun last => signedArea2 m (orient de.direction oldEdge) >>= fun t =>
            m.i64 (s2.area2 + t) >>= fun a => .ok { s2 with
              ret := s2.ret ++ [⟨edgeId, de.direction⟩], previous := some last, area2 := a })
          (lastPoint oldEdge de.direction >>= fun last => signedArea2 m (orient de.direction oldEdge) >>= fun t =>
            m.i64 (s2'.area2 + t) >>= fun a => .ok { s2' with
              ret := s2'.ret ++ [⟨edgeId, de.direction⟩], previous := some last, area2 := a }) := by
        intro s2 s2' h2
        refine RelR.same fun last => RelR.same fun t => ?_
        rw [h2.area2]
        refine RelR.same fun a => .ok ⟨?_, rfl, h2.start, rfl, h2.newEdges⟩
        exact congrArg (fun l => l ++ [DirectedEdge.mk edgeId de.direction]) h2.ret
      rw [h1.previous]
      cases s1'.previous with
      | none => exact RelR.bind (Q := StateRel) (x := .ok s1) (y := .ok s1') (.ok h1) key
      | some p =>
        simp only
        split
        · have hp := lPlug_rel h m h1 p first
          generalize s1.plug m p first = x at hp ⊢
          generalize s1'.plug m p first = y at hp ⊢
          exact RelR.bind hp key
        · exact RelR.bind (Q := StateRel) (x := .ok s1) (y := .ok s1') (.ok h1) key

theorem lClipRingLoop_rel (h : H.Lawful) (m : Build) (b : ClipBuilder) : ∀ (des : List DirectedEdge) {s : LClipRingState H}
    {s' : ClipRingState}, StateRel s s' → RelR StateRel (lClipRingLoop m b s des) (clipRingLoop m b s' des) := by
  intro des
  induction des with
  | nil => intro s s' hr; exact .ok hr
  | cons de rest ih =>
    intro s s' hr
    unfold lClipRingLoop clipRingLoop
    exact RelR.bind (lClipRingStep_rel h m b hr de) fun _ _ h1 => ih h1

/-- Equal values and the same builder. -/
def WithBuilder {α : Type} (b0 : ClipBuilder) (x : α × LNewEdgeSet H) (y : α × ClipBuilder) : Prop :=
  x.1 = y.1 ∧ ∃ ne, y.2 = { b0 with newEdges := ne } ∧ NewRel x.2 ne

theorem clipRingLoop_newEdges (m : Build) (b : ClipBuilder) (ne : NewEdgeSet) : ∀ (des : List DirectedEdge) (s : ClipRingState),
    clipRingLoop m { b with newEdges := ne } s des = clipRingLoop m b s des := by
  intro des
  induction des with
  | nil => intro s; rfl
  | cons de rest ih =>
    intro s
    unfold clipRingLoop
    simp only [ih]
    rfl

theorem lClipRing_rel (h : H.Lawful) (m : Build) (b : ClipBuilder) {s : LNewEdgeSet H} {ne : NewEdgeSet} (hr : NewRel s ne)
    (ring : TopoRing) : RelR (WithBuilder b) (lClipRing m b s ring) (clipRing m { b with newEdges := ne } ring) := by
  unfold lClipRing clipRing
  rw [clipRingLoop_newEdges]
  refine RelR.bind (lClipRingLoop_rel h m b _ (s' := ⟨[], 0, none, none, ne⟩) ⟨rfl, rfl, rfl, rfl, hr⟩) ?_
  intro s1 s1' h1
  have key : ∀ (s2 : LClipRingState H) s2', StateRel s2 s2' → RelR (WithBuilder (H := H) b)
      (if s2.area2 = 0 then .ok (none, s2.newEdges) else .ok (some s2.ret, s2.newEdges))
      (if s2'.area2 = 0 then .ok (none, { b with newEdges := s2'.newEdges })
        else .ok (some s2'.ret, { b with newEdges := s2'.newEdges })) := by
    intro s2 s2' h2
    rw [h2.area2]
    split
    · exact .ok ⟨rfl, _, rfl, h2.newEdges⟩
    · exact .ok ⟨congrArg some h2.ret, _, rfl, h2.newEdges⟩
  rw [h1.start, h1.previous]
  cases s1'.start with
  | none => exact RelR.bind (Q := StateRel) (x := .ok s1) (y := .ok s1') (.ok h1) key
  | some p0 =>
    cases s1'.previous with
    | none => exact RelR.bind (Q := StateRel) (x := .ok s1) (y := .ok s1') (.ok h1) key
    | some pn =>
      simp only
      split
      · have hp := lPlug_rel h m h1 pn p0
        generalize s1.plug m pn p0 = x at hp ⊢
        generalize s1'.plug m pn p0 = y at hp ⊢
        exact RelR.bind hp key
      · exact RelR.bind (Q := StateRel) (x := .ok s1) (y := .ok s1') (.ok h1) key

theorem lClipRings_rel (h : H.Lawful) (m : Build) (b : ClipBuilder) : ∀ (rings : List TopoRing) {s : LNewEdgeSet H} {ne : NewEdgeSet},
    NewRel s ne → RelR (WithBuilder b) (lClipRings m b s rings) (clipRings m { b with newEdges := ne } rings) := by
  intro rings
  induction rings with
  | nil => intro s ne hr; exact .ok ⟨rfl, _, rfl, hr⟩
  | cons r rest ih =>
    intro s ne hr
    unfold lClipRings clipRings
    refine RelR.bind (lClipRing_rel h m b hr r) ?_
    rintro ⟨o, s1⟩ ⟨o', b1⟩ ⟨rfl, ne1, rfl, h1⟩
    refine RelR.bind (ih h1) ?_
    rintro ⟨rs, s2⟩ ⟨rs', b2⟩ ⟨rfl, ne2, rfl, h2⟩
    exact .ok ⟨rfl, _, rfl, h2⟩

theorem lClipRegion_rel {δ : Type} (h : H.Lawful) (m : Build) (b : ClipBuilder) {s : LNewEdgeSet H} {ne : NewEdgeSet}
    (hr : NewRel s ne) (region : TopoRegion δ) :
    RelR (WithBuilder b) (lClipRegion m b s region) (clipRegion m { b with newEdges := ne } region) := by
  unfold lClipRegion clipRegion
  refine RelR.bind (lClipRings_rel h m b _ hr) ?_
  rintro ⟨o, s1⟩ ⟨o', b1⟩ ⟨rfl, ne1, rfl, h1⟩
  simp only
  split
  · refine RelR.bind (lClipRings_rel h m b _ h1) ?_
    rintro ⟨rs, s2⟩ ⟨rs', b2⟩ ⟨rfl, ne2, rfl, h2⟩
    exact .ok ⟨rfl, _, rfl, h2⟩
  · exact .ok ⟨rfl, _, rfl, h1⟩

theorem lClipRegions_rel {δ : Type} (h : H.Lawful) (m : Build) (b : ClipBuilder) : ∀ (regions : List (TopoRegion δ))
    {s : LNewEdgeSet H} {ne : NewEdgeSet}, NewRel s ne →
    RelR (WithBuilder b) (lClipRegions m b s regions) (clipRegions m { b with newEdges := ne } regions) := by
  intro regions
  induction regions with
  | nil => intro s ne hr; exact .ok ⟨rfl, _, rfl, hr⟩
  | cons r rest ih =>
    intro s ne hr
    unfold lClipRegions clipRegions
    refine RelR.bind (lClipRegion_rel h m b hr r) ?_
    rintro ⟨o, s1⟩ ⟨o', b1⟩ ⟨rfl, ne1, rfl, h1⟩
    refine RelR.bind (ih h1) ?_
    rintro ⟨rs, s2⟩ ⟨rs', b2⟩ ⟨rfl, ne2, rfl, h2⟩
    exact .ok ⟨rfl, _, rfl, h2⟩

end Clip

theorem clipBuilder_new_edges {m : Build} {mask : ClipMask} {edges : List TopoEdge} {b : ClipBuilder}
    (h : ClipBuilder.new m mask edges = .ok b) : b = { b with newEdges := ⟨b.oldEdges.length, []⟩ } := by
  unfold ClipBuilder.new at h
  rw [bind_ok] at h
  obtain ⟨x, _, h⟩ := h
  obtain rfl := Except.ok.inj h
  rfl

theorem library_clip {δ : Type} {L : Library} (hL : L.Lawful) (m : Build) (t : Topology δ) (mask : ClipMask) :
    L.clipTopology m t mask = clipTopology m t mask := by
  unfold Library.clipTopology clipTopology
  cases hb : ClipBuilder.new m mask t.edges with
  | error p => rfl
  | ok b =>
    simp only [ok_bind]
    have hrel := lClipRegions_rel hL.pairs m b t.regions (s := ⟨b.oldEdges.length, L.pairs.empty⟩)
      (ne := ⟨b.oldEdges.length, []⟩) ⟨rfl, MapRel.empty hL.pairs _⟩
    rw [← clipBuilder_new_edges hb] at hrel
    refine RelR.finish hrel ?_
    rintro ⟨rs, s⟩ ⟨rs', b'⟩ ⟨rfl, ne, rfl, h1, h2⟩
    unfold ClipBuilder.intoTopologyWith
    simp only
    have hp := h2.perm hL.pairs
    rw [h2.len hL.pairs, h1]
    obtain ⟨_, ks, _, hks⟩ := h2
    rw [hks] at hp ⊢
    rw [List.length_zipIdx, placeNewEdges_perm hp, placeNewEdges_perm (List.Perm.refl _)]

end TopoGeo
