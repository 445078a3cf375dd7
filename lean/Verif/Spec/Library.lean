import Verif.Model.Library
import Verif.Spec.Order
/-!
# Specification: contracts of the standard library

As its documentation has them.
-/

namespace TopoGeo.Spec

/-- A map: keys with values, no key twice; iteration yields each entry once, in whatever
order. -/
structure _root_.TopoGeo.MapLib.Lawful {κ ν : Type} (H : MapLib κ ν) : Prop where
  empty : ∀ k, H.get H.empty k = none
  insert_same : ∀ s k v, H.get s k = none → H.get (H.insert s k v) k = some v
  insert_other : ∀ s k v k', H.get s k = none → k' ≠ k → H.get (H.insert s k v) k' = H.get s k'
  remove_same : ∀ s k, H.get (H.remove s k) k = none
  remove_other : ∀ s k k', k' ≠ k → H.get (H.remove s k) k' = H.get s k'
  entries : ∀ s k v, (k, v) ∈ H.entries s ↔ H.get s k = some v
  once : ∀ s, ((H.entries s).map Prod.fst).Nodup
  len : ∀ s, H.len s = (H.entries s).length

/-- A sort: if comparing elements of the list is comparing their keys, and does not panic,
the result has the same elements, in the order of keys, and those with the same key in the
order that they had. -/
def StableSort (sort : SortLib) : Prop :=
  ∀ (cmp : NormRing → NormRing → R Ordering) (l : List NormRing) (key : NormRing → Point),
    (∀ a ∈ l, ∀ b ∈ l, cmp a b = .ok ((key a).cmp (key b))) →
    ∃ l', sort cmp l = .ok l' ∧ l'.Perm l ∧ l'.Pairwise (fun a b => ¬ key b < key a) ∧
      ∀ k, l'.filter (fun r => decide (key r = k)) = l.filter (fun r => decide (key r = k))

/-- What sorts do, stable or not: the same elements in the order of keys. -/
def SortsOnly (sort : SortLib) : Prop :=
  ∀ (cmp : NormRing → NormRing → R Ordering) (l : List NormRing) (key : NormRing → Point),
    (∀ a ∈ l, ∀ b ∈ l, cmp a b = .ok ((key a).cmp (key b))) →
    ∃ l', sort cmp l = .ok l' ∧ l'.Perm l ∧ l'.Pairwise (fun a b => ¬ key b < key a)

/-- The library keeps its contracts. -/
structure _root_.TopoGeo.Library.Lawful (L : Library) : Prop where
  paths : L.paths.Lawful
  pairs : L.pairs.Lawful
  tree : L.tree.Lawful
  /-- `BTreeMap` iterates in the order of keys. -/
  sorted : ∀ s, ((L.tree.entries s).map Prod.fst).Pairwise (· < ·)
  sort : StableSort L.sort

/-- Do an operation with a library. -/
def Operation.applyWith {δ : Type} (m : Build) (t : Topology δ) (L : Library) : Operation → R (Topology δ)
  | .normalize => L.normalize m t
  | .clip mask => L.clipTopology m t mask
  | .simplify s => TopoGeo.simplify m t s

end TopoGeo.Spec
