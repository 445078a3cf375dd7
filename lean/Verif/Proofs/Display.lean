import Verif.Spec.Display
import Verif.Proofs.Dbf
/-!
# Proofs about texts
-/

namespace TopoGeo
open Spec

theorem showItems_separated {α : Type} (sep : Text) (f : α → Text) (l : List α) :
    Separated sep (l.map f) (showItems sep f 0 l) ∧
      ∀ i, showItems sep f (i + 1) l = if l = [] then [] else sep ++ showItems sep f 0 l := by
  induction l with
  | nil => exact ⟨.none, fun i => rfl⟩
  | cons a l ih =>
    obtain ⟨h1, h2⟩ := ih
    constructor
    · cases l with
      | nil => simpa [showItems] using Separated.one (sep := sep) (f a)
      | cons b l =>
        have h3 := h2 0
        rw [if_neg (by simp)] at h3
        rw [showItems, h3, if_neg (by omega), List.nil_append, ← List.append_assoc]
        exact .more _ _ _ (by simp) h1
    · intro i
      rw [if_neg (by simp), showItems, showItems, if_pos (by omega), if_neg (by omega), h2, h2]
      simp

theorem separated_unique {sep : Text} {l : List Text} {s t : Text} (h1 : Separated sep l s) (h2 : Separated sep l t) : s = t := by
  induction h1 generalizing t with
  | none => cases h2; rfl
  | one a => cases h2 with
    | one => rfl
    | more _ _ _ h => exact absurd rfl h
  | more a ts rest h _ ih => cases h2 with
    | one => exact absurd rfl h
    | more _ _ rest' _ h' => rw [ih h']

/-- A code whose words can be recognised in front of other text; `rel` is
what the words tell. -/
def Recognisable {α : Type} (rel : α → α → Prop) (f : α → Text) : Prop :=
  ∀ a b s t, f a ++ s = f b ++ t → rel a b ∧ s = t

theorem append_inj_digits {a b s t : Text} (ha : ∀ c ∈ a, c.isDigit) (hb : ∀ c ∈ b, c.isDigit)
    (hs : ∀ c ∈ s.head?, ¬ c.isDigit) (ht : ∀ c ∈ t.head?, ¬ c.isDigit) (h : a ++ s = b ++ t) : a = b ∧ s = t := by
  induction a generalizing b with
  | nil =>
    cases b with
    | nil => exact ⟨rfl, h⟩
    | cons c b =>
      have h : s = c :: (b ++ t) := h
      exact absurd (hb c (by simp)) (hs c (by rw [h]; rfl))
  | cons c a ih =>
    cases b with
    | nil =>
      have h : c :: (a ++ s) = t := h
      exact absurd (ha c (by simp)) (ht c (by rw [← h]; rfl))
    | cons d b =>
      simp only [List.cons_append, List.cons.injEq] at h
      obtain ⟨h1, h2⟩ := ih (fun c hc => ha c (List.mem_cons_of_mem _ hc)) (fun c hc => hb c (List.mem_cons_of_mem _ hc)) h.2
      exact ⟨by rw [h.1, h1], h2⟩

theorem showNat_isDigit {n : Nat} : ∀ c ∈ showNat n, c.isDigit := fun _ hc =>
  Nat.isDigit_of_mem_toDigits (by omega) (by omega) hc

theorem showNat_inj {n k : Nat} (h : showNat n = showNat k) : n = k := by
  have h1 := (isDecimal_toDigits n).2.2.2
  have h2 := (isDecimal_toDigits k).2.2.2
  unfold showNat at h
  rw [← h1, h, h2]

theorem Point.show_recognisable : Recognisable Eq Point.show := by
  intro p q s t h
  simp only [Point.show, String.toList, List.append_assoc] at h
  have h : '(' :: (showNat p.x.toNat ++ ',' :: (showNat p.y.toNat ++ ')' :: s)) =
    '(' :: (showNat q.x.toNat ++ ',' :: (showNat q.y.toNat ++ ')' :: t)) := h
  have h := (List.cons.inj h).2
  obtain ⟨h1, h2⟩ := append_inj_digits showNat_isDigit showNat_isDigit
    (by intro c hc; cases hc; decide) (by intro c hc; cases hc; decide) h
  obtain ⟨h3, h4⟩ := append_inj_digits showNat_isDigit showNat_isDigit
    (by intro c hc; cases hc; decide) (by intro c hc; cases hc; decide) (List.cons.inj h2).2
  refine ⟨?_, (List.cons.inj h4).2⟩
  have h5 := UInt32.toNat_inj.1 (showNat_inj h1)
  have h6 := UInt32.toNat_inj.1 (showNat_inj h3)
  cases p; cases q; simp_all

theorem showItems_recognisable {α : Type} {rel : α → α → Prop} {f : α → Text} {sep : Text} {c e : Char}
    (hf : Recognisable rel f) (hc : ∀ a, ∃ r, f a = c :: r) (hs : ∃ d r, sep = d :: r ∧ d ≠ e) (hne : c ≠ e)
    (i : Nat) (as bs : List α) (s t : Text)
    (h : showItems sep f i as ++ e :: s = showItems sep f i bs ++ e :: t) : List.Forall₂ rel as bs ∧ s = t := by
  have hempty : ∀ (i : Nat) (b : α) (bs : List α) (s t : Text), e :: s ≠ showItems sep f i (b :: bs) ++ e :: t := by
    intro i b bs s t h
    rw [showItems] at h
    by_cases hi : i > 0
    · obtain ⟨d, r, rfl, hd⟩ := hs
      rw [if_pos hi] at h
      exact hd (List.cons.inj h).1.symm
    · obtain ⟨r, hr⟩ := hc b
      rw [if_neg hi, hr] at h
      exact hne (List.cons.inj h).1.symm
  induction as generalizing i bs with
  | nil =>
    cases bs with
    | nil => exact ⟨.nil, (List.cons.inj h).2⟩
    | cons b bs => exact absurd h (hempty i b bs s t)
  | cons a as ih =>
    cases bs with
    | nil => exact absurd h.symm (hempty i a as t s)
    | cons b bs =>
      rw [showItems, showItems, List.append_assoc, List.append_assoc, List.append_assoc, List.append_assoc] at h
      have h := List.append_cancel_left h
      obtain ⟨h1, h2⟩ := hf _ _ _ _ h
      obtain ⟨h3, h4⟩ := ih (i + 1) bs h2
      exact ⟨.cons h1 h3, h4⟩

theorem forall₂_eq {α : Type} {as bs : List α} (h : List.Forall₂ Eq as bs) : as = bs := by
  induction h with
  | nil => rfl
  | cons h _ ih => rw [h, ih]

theorem showEdge_recognisable : Recognisable Eq showEdge := by
  intro a b s t h
  have h : 'E' :: 'd' :: 'g' :: 'e' :: '(' :: (showItems [','] Point.show 0 a ++ [')'] ++ s) =
    'E' :: 'd' :: 'g' :: 'e' :: '(' :: (showItems [','] Point.show 0 b ++ [')'] ++ t) := h
  simp only [List.cons.injEq, true_and, List.append_assoc] at h
  obtain ⟨h1, h2⟩ := showItems_recognisable (c := '(') (e := ')') Point.show_recognisable (fun a => ⟨_, rfl⟩)
    ⟨',', [], rfl, by decide⟩ (by decide) 0 a b s t h
  exact ⟨forall₂_eq h1, h2⟩

theorem Ring.show_recognisable : Recognisable SameRing Ring.show := by
  have hp : ∀ (a b : List Point) (s t : Text), showItems [','] Point.show 0 a ++ ']' :: s = showItems [','] Point.show 0 b ++ ']' :: t →
      a = b ∧ s = t := by
    intro a b s t h
    obtain ⟨h1, h2⟩ := showItems_recognisable (c := '(') (e := ']') Point.show_recognisable (fun a => ⟨_, rfl⟩)
      ⟨',', [], rfl, by decide⟩ (by decide) 0 a b s t h
    exact ⟨forall₂_eq h1, h2⟩
  have he : ∀ (a b : List Edge) (s t : Text), showItems [','] showEdge 0 a ++ ']' :: s = showItems [','] showEdge 0 b ++ ']' :: t →
      a = b ∧ s = t := by
    intro a b s t h
    obtain ⟨h1, h2⟩ := showItems_recognisable (c := 'E') (e := ']') showEdge_recognisable (fun a => ⟨_, rfl⟩)
      ⟨',', [], rfl, by decide⟩ (by decide) 0 a b s t h
    exact ⟨forall₂_eq h1, h2⟩
  have hm : ∀ (a : List Point) (b : List Edge) (s t : Text),
      showItems [','] Point.show 0 a ++ ']' :: s = showItems [','] showEdge 0 b ++ ']' :: t → (a = [] ∧ b = []) ∧ s = t := by
    intro a b s t h
    cases a with
    | nil =>
      cases b with
      | nil => exact ⟨⟨rfl, rfl⟩, (List.cons.inj h).2⟩
      | cons b bs =>
        rw [showItems, showItems] at h
        have h : ']' :: s = 'E' :: _ := h
        exact absurd (List.cons.inj h).1 (by decide)
    | cons a as =>
      cases b with
      | nil =>
        rw [showItems, showItems] at h
        have h : '(' :: _ = ']' :: t := h
        exact absurd (List.cons.inj h).1 (by decide)
      | cons b bs =>
        rw [showItems, showItems] at h
        have h : '(' :: _ = 'E' :: _ := h
        exact absurd (List.cons.inj h).1 (by decide)
  intro a b s t h
  cases a with
  | points a =>
    cases b with
    | points b =>
      have h : '[' :: (showItems [','] Point.show 0 a ++ [']'] ++ s) = '[' :: (showItems [','] Point.show 0 b ++ [']'] ++ t) := h
      simp only [List.cons.injEq, true_and, List.append_assoc] at h
      obtain ⟨rfl, h'⟩ := hp a b s t h
      exact ⟨.inl rfl, h'⟩
    | edges b =>
      have h : '[' :: (showItems [','] Point.show 0 a ++ [']'] ++ s) = '[' :: (showItems [','] showEdge 0 b ++ [']'] ++ t) := h
      simp only [List.cons.injEq, true_and, List.append_assoc] at h
      obtain ⟨⟨rfl, rfl⟩, h'⟩ := hm a b s t h
      exact ⟨.inr ⟨.inl rfl, .inr rfl⟩, h'⟩
  | edges a =>
    cases b with
    | points b =>
      have h : '[' :: (showItems [','] showEdge 0 a ++ [']'] ++ s) = '[' :: (showItems [','] Point.show 0 b ++ [']'] ++ t) := h
      simp only [List.cons.injEq, true_and, List.append_assoc] at h
      obtain ⟨⟨rfl, rfl⟩, h'⟩ := hm b a t s h.symm
      exact ⟨.inr ⟨.inr rfl, .inl rfl⟩, h'.symm⟩
    | edges b =>
      have h : '[' :: (showItems [','] showEdge 0 a ++ [']'] ++ s) = '[' :: (showItems [','] showEdge 0 b ++ [']'] ++ t) := h
      simp only [List.cons.injEq, true_and, List.append_assoc] at h
      obtain ⟨rfl, h'⟩ := he a b s t h
      exact ⟨.inl rfl, h'⟩

theorem Ring.show_cons (a : Ring) : ∃ r, a.show = '[' :: r := by
  cases a <;> exact ⟨_, rfl⟩

theorem showRings_recognisable : Recognisable (List.Forall₂ SameRing) showRings := by
  intro a b s t h
  have h : '[' :: (showItems [',', ' '] Ring.show 0 a ++ [']'] ++ s) = '[' :: (showItems [',', ' '] Ring.show 0 b ++ [']'] ++ t) := h
  simp only [List.cons.injEq, true_and, List.append_assoc] at h
  exact showItems_recognisable (c := '[') (e := ']') Ring.show_recognisable Ring.show_cons
    ⟨',', [' '], rfl, by decide⟩ (by decide) 0 a b s t h

end TopoGeo
