import Verif.Proofs.Library
/-!
# Libraries that keep the contracts

Lists for maps, and sorting by insertion.
-/

namespace TopoGeo
open Spec

/-- A list with no key twice; it iterates from either end. -/
def listMap (κ ν : Type) [DecidableEq κ] (backwards : Bool) : MapLib κ ν where
  Map := { l : List (κ × ν) // (l.map Prod.fst).Nodup }
  empty := ⟨[], List.nodup_nil⟩
  get s k := (s.1.find? fun x => decide (x.1 = k)).map Prod.snd
  insert s k v := if h : k ∈ s.1.map Prod.fst then s else ⟨(k, v) :: s.1, List.nodup_cons.mpr ⟨h, s.2⟩⟩
  remove s k := ⟨s.1.filter fun x => decide (x.1 ≠ k), (List.filter_sublist.map Prod.fst).nodup s.2⟩
  len s := s.1.length
  entries s := if backwards then s.1.reverse else s.1

theorem find_key {κ ν : Type} [DecidableEq κ] : ∀ {l : List (κ × ν)}, (l.map Prod.fst).Nodup → ∀ {k : κ} {v : ν},
    ((l.find? fun x => decide (x.1 = k)).map Prod.snd = some v ↔ (k, v) ∈ l) := by
  intro l
  induction l with
  | nil => intro _ k v; simp
  | cons x l ih =>
    intro hnd k v
    rw [List.map_cons, List.nodup_cons] at hnd
    obtain ⟨k', v'⟩ := x
    rw [List.find?_cons]
    by_cases hk : k' = k
    · subst hk
      simp only [decide_true, Option.map_some, Option.some.injEq, List.mem_cons]
      constructor
      · rintro rfl; exact .inl rfl
      · rintro (h | h)
        · exact (Prod.mk.inj h).2.symm
        · exact absurd (List.mem_map.mpr ⟨_, h, rfl⟩) hnd.1
    · simp only [hk, decide_false, List.mem_cons]
      rw [ih hnd.2]
      constructor
      · exact .inr
      · rintro (h | h)
        · exact absurd (Prod.mk.inj h).1.symm hk
        · exact h

theorem find_key_none {κ ν : Type} [DecidableEq κ] {l : List (κ × ν)} {k : κ} :
    (l.find? fun x => decide (x.1 = k)).map Prod.snd = none ↔ k ∉ l.map Prod.fst := by
  rw [Option.map_eq_none_iff, List.find?_eq_none, List.mem_map]
  constructor
  · rintro h ⟨x, hx, hk⟩
    exact h x hx (by simpa using hk)
  · intro h x hx hk
    exact h ⟨x, hx, by simpa using hk⟩

theorem listMap_insert {κ ν : Type} [DecidableEq κ] {backwards : Bool} {s : (listMap κ ν backwards).Map} {k : κ} (v : ν)
    (h : (listMap κ ν backwards).get s k = none) : ((listMap κ ν backwards).insert s k v).1 = (k, v) :: s.1 :=
  congrArg Subtype.val (dif_neg (find_key_none.mp h))

theorem listMap_lawful (κ ν : Type) [DecidableEq κ] (backwards : Bool) : (listMap κ ν backwards).Lawful where
  empty k := rfl
  insert_same s k v h := by
    show (List.find? _ ((listMap κ ν backwards).insert s k v).1).map _ = _
    rw [listMap_insert v h]
    simp
  insert_other s k v k' h hne := by
    show (List.find? _ ((listMap κ ν backwards).insert s k v).1).map _ = _
    rw [listMap_insert v h, List.find?_cons_of_neg (by simpa using fun h => hne h.symm)]
    rfl
  remove_same s k := by
    refine find_key_none.mpr fun hm => ?_
    obtain ⟨x, hx, hk⟩ := List.mem_map.mp hm
    have := (List.mem_filter.mp hx).2
    simp [hk] at this
  remove_other s k k' hne := by
    refine Option.ext fun v => ?_
    refine (find_key ((List.filter_sublist.map Prod.fst).nodup s.2)).trans (Iff.trans ?_ (find_key s.2).symm)
    rw [List.mem_filter]
    simp [hne]
  entries s k v := by
    refine Iff.trans ?_ (find_key s.2).symm
    cases backwards
    · exact Iff.rfl
    · exact List.mem_reverse
  once s := by
    cases backwards
    · exact s.2
    · show ((s.1.reverse).map Prod.fst).Nodup
      rw [List.map_reverse]
      exact List.nodup_reverse.mpr s.2
  len s := by cases backwards <;> simp [listMap]

/-- A list with increasing keys. -/
def sortedMap : MapLib Point NormEdge where
  Map := { l : MergeMap // KeysIncrease l }
  empty := ⟨[], List.Pairwise.nil⟩
  get s k := (s.1.find? fun x => decide (x.1 = k)).map Prod.snd
  insert s k v := ⟨s.1.filter (fun x => decide (x.1 < k)) ++ (k, v) :: s.1.filter (fun x => decide (k < x.1)), by
    refine List.pairwise_append.mpr ⟨s.2.sublist List.filter_sublist, ?_, ?_⟩
    · refine List.pairwise_cons.mpr ⟨fun x hx => ?_, s.2.sublist List.filter_sublist⟩
      simpa using (List.mem_filter.mp hx).2
    · intro a ha b hb
      have h1 : a.1 < k := by simpa using (List.mem_filter.mp ha).2
      rcases List.mem_cons.mp hb with rfl | hb
      · exact h1
      · have h2 : k < b.1 := by simpa using (List.mem_filter.mp hb).2
        exact Point.lt_trans h1 h2⟩
  remove s k := ⟨s.1.filter fun x => decide (x.1 ≠ k), s.2.sublist List.filter_sublist⟩
  len s := s.1.length
  entries s := s.1

theorem KeysIncrease.nodup {l : MergeMap} (h : KeysIncrease l) : (l.map Prod.fst).Nodup :=
  (List.pairwise_map.mpr h).imp fun h4 h5 => by rw [h5] at h4; exact Point.lt_irrefl _ h4

theorem sortedMap_insert (s : sortedMap.Map) (k : Point) (v : NormEdge) (k' : Point) (v' : NormEdge) :
    sortedMap.get (sortedMap.insert s k v) k' = some v' ↔ (k' = k ∧ v' = v) ∨ (k' ≠ k ∧ sortedMap.get s k' = some v') := by
  refine (find_key (KeysIncrease.nodup (sortedMap.insert s k v).2)).trans ?_
  rw [show (sortedMap.get s k' = some v' ↔ (k', v') ∈ s.1) from find_key (KeysIncrease.nodup s.2)]
  show (k', v') ∈ _ ++ _ :: _ ↔ _
  rw [List.mem_append, List.mem_cons, List.mem_filter, List.mem_filter]
  simp only [Prod.mk.injEq, decide_eq_true_eq]
  constructor
  · rintro (⟨h1, h2⟩ | h | ⟨h1, h2⟩)
    · exact .inr ⟨fun h => by rw [h] at h2; exact Point.lt_irrefl _ h2, h1⟩
    · exact .inl h
    · exact .inr ⟨fun h => by rw [h] at h2; exact Point.lt_irrefl _ h2, h1⟩
  · rintro (h | ⟨h1, h2⟩)
    · exact .inr (.inl h)
    · rcases Point.trichotomy k' k with g | g | g
      · exact .inl ⟨h2, g⟩
      · exact absurd g h1
      · exact .inr (.inr ⟨h2, g⟩)

theorem sortedMap_lawful : sortedMap.Lawful where
  empty k := rfl
  insert_same s k v _ := (sortedMap_insert s k v k v).mpr (.inl ⟨rfl, rfl⟩)
  insert_other s k v k' _ hne := Option.ext fun v' => (sortedMap_insert s k v k' v').trans (by simp [hne])
  remove_same s k := by
    refine find_key_none.mpr fun hm => ?_
    obtain ⟨x, hx, hk⟩ := List.mem_map.mp hm
    have := (List.mem_filter.mp hx).2
    simp [hk] at this
  remove_other s k k' hne := by
    refine Option.ext fun v => ?_
    refine (find_key (KeysIncrease.nodup (s.2.sublist List.filter_sublist))).trans
      (Iff.trans ?_ (find_key (KeysIncrease.nodup s.2)).symm)
    rw [List.mem_filter]
    simp [hne]
  entries s k v := (find_key (KeysIncrease.nodup s.2)).symm
  once s := KeysIncrease.nodup s.2
  len s := rfl

/-- Insert where `before` says that the new element comes first. -/
def insertWith (cmp : NormRing → NormRing → R Ordering) (before : Ordering → Bool) (x : NormRing) : List NormRing → R (List NormRing)
  | [] => .ok [x]
  | y :: ys => do
    let o ← cmp x y
    if before o then .ok (x :: y :: ys)
    else do
      let r ← insertWith cmp before x ys
      .ok (y :: r)

/-- Sort by insertion, from the end of the list. -/
def insertionSort (before : Ordering → Bool) : SortLib := fun cmp l =>
  match l with
  | [] => .ok []
  | x :: xs => do
    let r ← insertionSort before cmp xs
    insertWith cmp before x r

theorem insertWith_sorts {cmp : NormRing → NormRing → R Ordering} {before : Ordering → Bool} (hlt : before .lt = true)
    (hgt : before .gt = false) {key : NormRing → Point} {x : NormRing} : ∀ {l : List NormRing},
    (∀ b ∈ l, cmp x b = .ok ((key x).cmp (key b))) → l.Pairwise (fun a b => ¬ key b < key a) →
    ∃ l', insertWith cmp before x l = .ok l' ∧ l'.Perm (x :: l) ∧ l'.Pairwise (fun a b => ¬ key b < key a) ∧
      (before .eq = true → ∀ k, l'.filter (fun r => decide (key r = k)) = (x :: l).filter (fun r => decide (key r = k))) := by
  intro l
  induction l with
  | nil => intro _ _; exact ⟨[x], rfl, List.Perm.refl _, List.pairwise_singleton _ _, fun _ _ => rfl⟩
  | cons y ys ih =>
    intro hc hs
    have hs' := List.pairwise_cons.mp hs
    unfold insertWith
    rw [hc y List.mem_cons_self, ok_bind]
    by_cases hb : before ((key x).cmp (key y)) = true
    · refine ⟨x :: y :: ys, by rw [if_pos hb], List.Perm.refl _, ?_, fun _ _ => rfl⟩
      have hxy : ¬ key y < key x := by
        intro h
        have : (key x).cmp (key y) = .gt := by
          unfold Point.cmp
          rw [if_neg (Point.lt_asymm h), if_neg (fun e => by rw [e] at h; exact Point.lt_irrefl _ h)]
        rw [this, hgt] at hb
        cases hb
      refine List.pairwise_cons.mpr ⟨fun z hz => ?_, hs⟩
      rcases List.mem_cons.mp hz with rfl | hz
      · exact hxy
      · intro h
        rcases Point.trichotomy (key x) (key y) with g | g | g
        · exact hs'.1 z hz (Point.lt_trans h g)
        · rw [g] at h; exact hs'.1 z hz h
        · exact hxy g
    · obtain ⟨l', h1, h2, h3, h4⟩ := ih (fun b hb => hc b (List.mem_cons_of_mem _ hb)) hs'.2
      refine ⟨y :: l', by rw [if_neg hb, h1, ok_bind], (h2.cons y).trans (List.Perm.swap _ _ _), ?_, ?_⟩
      · refine List.pairwise_cons.mpr ⟨fun z hz => ?_, h3⟩
        rcases List.mem_cons.mp (h2.mem_iff.mp hz) with rfl | hz
        · intro h
          refine hb ?_
          unfold Point.cmp
          rw [if_pos h, hlt]
        · exact hs'.1 z hz
      · intro heq k
        rw [List.filter_cons, h4 heq k]
        by_cases hx : key x = k
        · have hy : ¬ key y = k := by
            intro hy
            refine hb ?_
            unfold Point.cmp
            rw [hx, hy, if_neg (Point.lt_irrefl _), if_pos rfl, heq]
          simp [hx, hy]
        · simp [List.filter_cons, hx]

theorem insertionSort_sorts {before : Ordering → Bool} (hlt : before .lt = true) (hgt : before .gt = false)
    {cmp : NormRing → NormRing → R Ordering} {key : NormRing → Point} : ∀ (l : List NormRing),
    (∀ a ∈ l, ∀ b ∈ l, cmp a b = .ok ((key a).cmp (key b))) →
    ∃ l', insertionSort before cmp l = .ok l' ∧ l'.Perm l ∧ l'.Pairwise (fun a b => ¬ key b < key a) ∧
      (before .eq = true → ∀ k, l'.filter (fun r => decide (key r = k)) = l.filter (fun r => decide (key r = k))) := by
  intro l
  induction l with
  | nil => intro _; exact ⟨[], rfl, List.Perm.refl _, List.Pairwise.nil, fun _ _ => rfl⟩
  | cons x xs ih =>
    intro hc
    obtain ⟨r, h1, h2, h3, h4⟩ := ih fun a ha b hb => hc a (List.mem_cons_of_mem _ ha) b (List.mem_cons_of_mem _ hb)
    obtain ⟨l', g1, g2, g3, g4⟩ := insertWith_sorts (x := x) hlt hgt
      (fun b hb => hc x List.mem_cons_self b (List.mem_cons_of_mem _ (h2.mem_iff.mp hb))) h3
    refine ⟨l', by rw [insertionSort, h1, ok_bind, g1], g2.trans (h2.cons x), g3, fun heq k => ?_⟩
    rw [g4 heq k, List.filter_cons, List.filter_cons, h4 heq k]

/-- Elements that compare equal stay in order. -/
def stableInsertion : SortLib := insertionSort fun o => o != .gt

/-- Elements that compare equal end up in the opposite order. -/
def unstableInsertion : SortLib := insertionSort fun o => o == .lt

theorem stableInsertion_stable : StableSort stableInsertion := by
  intro cmp l key hc
  obtain ⟨l', h1, h2, h3, h4⟩ := insertionSort_sorts (before := fun o => o != .gt) rfl rfl l hc
  exact ⟨l', h1, h2, h3, h4 rfl⟩

theorem unstableInsertion_sorts : SortsOnly unstableInsertion := by
  intro cmp l key hc
  obtain ⟨l', h1, h2, h3, _⟩ := insertionSort_sorts (before := fun o => o == .lt) rfl rfl l hc
  exact ⟨l', h1, h2, h3⟩

/-- A library whose maps are lists. -/
def listLibrary (backwards : Bool) : Library where
  paths := listMap _ _ backwards
  pairs := listMap _ _ backwards
  tree := sortedMap
  sort := stableInsertion

theorem listLibrary_lawful (backwards : Bool) : (listLibrary backwards).Lawful where
  paths := listMap_lawful _ _ _
  pairs := listMap_lawful _ _ _
  tree := sortedMap_lawful
  sorted s := List.pairwise_map.mpr s.2
  sort := stableInsertion_stable

end TopoGeo
