import Mathlib.Data.List.Rotate
import Mathlib.Data.List.Nodup
import Mathlib.Data.List.Chain
import Verif.Spec.Normalize
/-!
# Neighbours in cyclic lists, and maximal runs
-/

namespace TopoGeo

open Spec

/-! ## Who follows whom -/

theorem adjoins_rotate {α : Type} {l : List α} {a b : α} (h : Adjoins l a b) (k : Nat) : Adjoins (l.rotate k) a b := by
  obtain ⟨i, h1, h2⟩ := h
  have hi : i < l.length := by
    rw [List.getElem?_eq_some_iff] at h1; exact h1.1
  have hpos : 0 < l.length := by omega
  -- the new place of `a`
  have hk := Nat.mod_lt k hpos
  have key : ∀ j, (l.rotate k)[((j % l.length) + (l.length - k % l.length)) % l.length]? = l[j % l.length]? := by
    intro j
    rw [List.getElem?_rotate (Nat.mod_lt _ hpos)]
    congr 1
    have hj := Nat.mod_lt j hpos
    rw [Nat.mod_add_mod, ← Nat.add_mod_mod, Nat.add_assoc, Nat.sub_add_cancel hk.le, Nat.add_mod_right, Nat.mod_mod]
  refine ⟨((i % l.length) + (l.length - k % l.length)) % l.length, ?_, ?_⟩
  · rw [key, Nat.mod_eq_of_lt hi]; exact h1
  · rw [List.length_rotate, ← h2, ← key (i + 1)]
    congr 1
    rw [Nat.mod_add_mod, Nat.mod_add_mod, Nat.add_assoc, Nat.mod_add_mod]
    congr 1
    omega

theorem adjoins_isRotated {α : Type} {l l' : List α} {a b : α} (h : l ~r l') : Adjoins l a b ↔ Adjoins l' a b := by
  constructor
  · intro hf
    obtain ⟨k, rfl⟩ := h
    exact adjoins_rotate hf k
  · intro hf
    obtain ⟨k, rfl⟩ := h.symm
    exact adjoins_rotate hf k

theorem adjoins_mem {α : Type} {l : List α} {a b : α} (h : Adjoins l a b) : a ∈ l ∧ b ∈ l := by
  obtain ⟨i, h1, h2⟩ := h
  exact ⟨List.mem_of_getElem? h1, List.mem_of_getElem? h2⟩

theorem nodup_index {α : Type} {l : List α} (hn : l.Nodup) {i j : Nat} {a : α} (hi : l[i]? = some a) (hj : l[j]? = some a) :
    i = j := by
  obtain ⟨h1, h1'⟩ := List.getElem?_eq_some_iff.mp hi
  obtain ⟨h2, h2'⟩ := List.getElem?_eq_some_iff.mp hj
  exact (hn.getElem_inj_iff (hi := h1) (hj := h2)).mp (h1'.trans h2'.symm)

theorem adjoins_right_unique {α : Type} {l : List α} (hn : l.Nodup) {a b c : α} (h : Adjoins l a b) (h' : Adjoins l a c) :
    b = c := by
  obtain ⟨i, h1, h2⟩ := h
  obtain ⟨j, h3, h4⟩ := h'
  obtain rfl := nodup_index hn h1 h3
  exact Option.some.inj (h2.symm.trans h4)

theorem adjoins_left_unique {α : Type} {l : List α} (hn : l.Nodup) {a b c : α} (h : Adjoins l b a) (h' : Adjoins l c a) :
    b = c := by
  obtain ⟨i, h1, h2⟩ := h
  obtain ⟨j, h3, h4⟩ := h'
  have hij := nodup_index hn h2 h4
  have hi := (List.getElem?_eq_some_iff.mp h1).1
  have hj := (List.getElem?_eq_some_iff.mp h3).1
  have : i = j := by
    by_cases hi' : i + 1 = l.length
    · by_cases hj' : j + 1 = l.length
      · omega
      · rw [hi', Nat.mod_self, Nat.mod_eq_of_lt (by omega)] at hij
        omega
    · rw [Nat.mod_eq_of_lt (by omega : i + 1 < l.length)] at hij
      by_cases hj' : j + 1 = l.length
      · rw [hj', Nat.mod_self] at hij
        omega
      · rw [Nat.mod_eq_of_lt (by omega)] at hij
        omega
  subst this
  exact Option.some.inj (h1.symm.trans h3)

theorem adjoins_inner {α : Type} (l1 l2 : List α) (a b : α) : Adjoins (l1 ++ a :: b :: l2) a b := by
  refine ⟨l1.length, by simp, ?_⟩
  rw [Nat.mod_eq_of_lt (by simp)]
  simp

theorem adjoins_wrap {α : Type} {l : List α} {a z : α} (ha : l.head? = some a) (hz : l.getLast? = some z) :
    Adjoins l z a := by
  have hne : l ≠ [] := by rintro rfl; simp at ha
  have hpos := List.length_pos_iff.mpr hne
  refine ⟨l.length - 1, ?_, ?_⟩
  · rw [← List.getLast?_eq_getElem?, hz]
  · rw [Nat.sub_add_cancel hpos, Nat.mod_self, ← List.head?_eq_getElem?, ha]

/-! ## Maximal runs -/

/-- A list that is linked without gaps, and either cannot be extended or is a
closed cycle. -/
structure Run {α : Type} (J : α → α → Prop) (l : List α) : Prop where
  ne : l ≠ []
  chain : l.IsChain J
  nodup : l.Nodup
  ends : ((∀ a, l.head? = some a → ∀ b, ¬ J b a) ∧ ∀ z, l.getLast? = some z → ∀ b, ¬ J z b) ∨
    ∀ a z, l.head? = some a → l.getLast? = some z → J z a

/-- It is a closed cycle. -/
def Cyclic {α : Type} (J : α → α → Prop) (l : List α) : Prop :=
  ∀ a z, l.head? = some a → l.getLast? = some z → J z a

theorem cyclic_succ {α : Type} {J : α → α → Prop} {l : List α} (hc : l.IsChain J) (hy : Cyclic J l) {a : α} (ha : a ∈ l) :
    ∃ b ∈ l, J a b := by
  obtain ⟨l1, l2, rfl⟩ := List.append_of_mem ha
  cases l2 with
  | nil =>
    cases hl : l1 ++ [a] with
    | nil => simp at hl
    | cons x xs =>
      refine ⟨x, by simp, hy x a (by rw [hl]; rfl) (by simp)⟩
  | cons b l2 =>
    refine ⟨b, by simp, ?_⟩
    have := (List.isChain_append.mp hc).2.1
    simp only [List.isChain_cons_cons] at this
    exact this.1

theorem cyclic_pred {α : Type} {J : α → α → Prop} {l : List α} (hc : l.IsChain J) (hy : Cyclic J l) {a : α} (ha : a ∈ l) :
    ∃ b ∈ l, J b a := by
  obtain ⟨l1, l2, rfl⟩ := List.append_of_mem ha
  rcases List.eq_nil_or_concat l1 with rfl | ⟨l1, b, rfl⟩
  · obtain ⟨z, hz⟩ : ∃ z, ([] ++ a :: l2).getLast? = some z :=
      Option.isSome_iff_exists.mp (by simp [List.getLast?_isSome])
    exact ⟨z, List.mem_of_getLast? hz, hy a z rfl hz⟩
  · refine ⟨b, by simp, ?_⟩
    rw [List.concat_eq_append, List.append_assoc, List.singleton_append] at hc
    have := (List.isChain_append.mp hc).2.1
    simp only [List.isChain_cons_cons] at this
    exact this.1

theorem chain_prefix {α : Type} {J : α → α → Prop} (hf : ∀ a b c, J a b → J a c → b = c) {a : α} {p q : List α}
    (hp : (a :: p).IsChain J) (hq : (a :: q).IsChain J) : p <+: q ∨ q <+: p := by
  induction p generalizing a q with
  | nil => exact Or.inl List.nil_prefix
  | cons b p ih =>
    cases q with
    | nil => exact Or.inr List.nil_prefix
    | cons c q =>
      simp only [List.isChain_cons_cons] at hp hq
      obtain rfl := hf a b c hp.1 hq.1
      rcases ih hp.2 hq.2 with h | h
      · exact Or.inl (List.prefix_cons_inj _ |>.mpr h)
      · exact Or.inr (List.prefix_cons_inj _ |>.mpr h)

theorem isChain_flip_reverse {α : Type} {J : α → α → Prop} {l : List α} (h : l.IsChain J) :
    l.reverse.IsChain fun a b => J b a := List.isChain_reverse.mpr h

theorem run_open_eq {α : Type} {J : α → α → Prop} (hf : ∀ a b c, J a b → J a c → b = c)
    (hg : ∀ a b c, J b a → J c a → b = c) {l l' : List α} (hc : l.IsChain J) (hc' : l'.IsChain J)
    (ho : (∀ a, l.head? = some a → ∀ b, ¬ J b a) ∧ ∀ z, l.getLast? = some z → ∀ b, ¬ J z b)
    (ho' : (∀ a, l'.head? = some a → ∀ b, ¬ J b a) ∧ ∀ z, l'.getLast? = some z → ∀ b, ¬ J z b)
    {a : α} (ha : a ∈ l) (ha' : a ∈ l') : l = l' := by
  have main : ∀ {J : α → α → Prop} (_ : ∀ a b c, J a b → J a c → b = c) {p q : List α} (_ : (a :: p).IsChain J)
      (_ : (a :: q).IsChain J) (_ : ∀ z, (a :: p).getLast? = some z → ∀ b, ¬ J z b)
      (_ : ∀ z, (a :: q).getLast? = some z → ∀ b, ¬ J z b), p = q := by
    intro J hf p q hp hq hzp hzq
    have aux : ∀ {p q : List α}, p <+: q → (a :: q).IsChain J → (∀ z, (a :: p).getLast? = some z → ∀ b, ¬ J z b) →
        p = q := by
      rintro p q ⟨r, rfl⟩ hq hz
      cases r with
      | nil => simp
      | cons b r =>
        exfalso
        obtain ⟨z, hzl⟩ : ∃ z, (a :: p).getLast? = some z := Option.isSome_iff_exists.mp (by simp [List.getLast?_isSome])
        rw [← List.cons_append] at hq
        exact hz z hzl b ((List.isChain_append.mp hq).2.2 z hzl b rfl)
    rcases chain_prefix hf hp hq with h | h
    · exact aux h hq hzp
    · exact (aux h hp hzq).symm
  obtain ⟨l1, l2, rfl⟩ := List.append_of_mem ha
  obtain ⟨k1, k2, rfl⟩ := List.append_of_mem ha'
  have e2 : l2 = k2 := by
    refine main hf (List.isChain_append.mp hc).2.1 (List.isChain_append.mp hc').2.1 ?_ ?_
    · intro z hz; exact ho.2 z (by rw [List.getLast?_append_of_ne_nil _ (by simp)]; exact hz)
    · intro z hz; exact ho'.2 z (by rw [List.getLast?_append_of_ne_nil _ (by simp)]; exact hz)
  have e1 : l1.reverse = k1.reverse := by
    have r : ∀ (l1 l2 : List α), (l1 ++ a :: l2).IsChain J → (a :: l1.reverse).IsChain fun a b => J b a := by
      intro l1 l2 h
      have : (l1 ++ [a]).IsChain J := by
        rw [← List.singleton_append, ← List.append_assoc] at h
        exact (List.isChain_append.mp h).1
      have := isChain_flip_reverse this
      simpa using this
    have s : ∀ (l1 l2 : List α), (∀ x, (l1 ++ a :: l2).head? = some x → ∀ b, ¬ J b x) →
        ∀ z, (a :: l1.reverse).getLast? = some z → ∀ b, ¬ J b z := by
      intro l1 l2 h z hz
      refine h z ?_
      cases l1 with
      | nil => simpa using hz
      | cons x l1 =>
        rw [List.reverse_cons, ← List.cons_append, List.getLast?_append] at hz
        simpa using hz
    exact main (J := fun a b => J b a) (fun x b c h1 h2 => hg x b c h1 h2) (r _ _ hc) (r _ _ hc') (s _ _ ho.1) (s _ _ ho'.1)
  rw [e2, List.reverse_injective e1]

theorem cyclic_rotated {α : Type} {J : α → α → Prop} {l1 l2 : List α} {a : α} (hc : (l1 ++ a :: l2).IsChain J)
    (hy : Cyclic J (l1 ++ a :: l2)) : (a :: l2 ++ l1).IsChain J ∧ Cyclic J (a :: l2 ++ l1) := by
  obtain ⟨h1, h2, h3⟩ := List.isChain_append.mp hc
  refine ⟨List.isChain_append.mpr ⟨h2, h1, ?_⟩, ?_⟩
  · intro x hx y hy'
    refine hy y x ?_ ?_
    · cases l1 with
      | nil => simp at hy'
      | cons z l1 => simpa using hy'
    · rw [List.getLast?_append_of_ne_nil _ (by simp)]; exact hx
  · intro b z hb hz
    obtain rfl : a = b := by simpa using hb
    rcases List.eq_nil_or_concat l1 with rfl | ⟨l1, y, rfl⟩
    · exact hy _ _ rfl (by simpa using hz)
    · rw [List.concat_eq_append, ← List.append_assoc, List.getLast?_concat] at hz
      obtain rfl := Option.some.inj hz
      exact h3 y (by simp) a rfl

theorem run_unique {α : Type} {J : α → α → Prop} (hf : ∀ a b c, J a b → J a c → b = c)
    (hg : ∀ a b c, J b a → J c a → b = c) {l l' : List α} (h : Run J l) (h' : Run J l') {a : α} (ha : a ∈ l)
    (ha' : a ∈ l') : l = l' ∨ l ~r l' ∧ Cyclic J l ∧ Cyclic J l' := by
  -- a run that meets a cycle stays on it
  have stay : ∀ {l l' : List α}, l.IsChain J → l'.IsChain J → Cyclic J l' → (∃ a ∈ l, a ∈ l') → ∀ b ∈ l, b ∈ l' := by
    intro l l' hc hc' hy ⟨a, ha, ha'⟩ b hb
    have fwd : ∀ (a : α) (p : List α), a ∈ l' → (a :: p).IsChain J → ∀ b ∈ p, b ∈ l' := by
      intro a p
      induction p generalizing a with
      | nil => simp
      | cons c p ih =>
        intro ha hp b hb
        simp only [List.isChain_cons_cons] at hp
        obtain ⟨d, hd, hjd⟩ := cyclic_succ hc' hy ha
        obtain rfl := hf _ _ _ hp.1 hjd
        rcases List.mem_cons.mp hb with rfl | hb
        · exact hd
        · exact ih c hd hp.2 b hb
    have bwd : ∀ (a : α) (p : List α), a ∈ l' → (a :: p).IsChain (fun a b => J b a) → ∀ b ∈ p, b ∈ l' := by
      intro a p
      induction p generalizing a with
      | nil => simp
      | cons c p ih =>
        intro ha hp b hb
        simp only [List.isChain_cons_cons] at hp
        obtain ⟨d, hd, hjd⟩ := cyclic_pred hc' hy ha
        obtain rfl := hg _ _ _ hp.1 hjd
        rcases List.mem_cons.mp hb with rfl | hb
        · exact hd
        · exact ih c hd hp.2 b hb
    obtain ⟨l1, l2, rfl⟩ := List.append_of_mem ha
    rcases List.mem_append.mp hb with hb | hb
    · refine bwd a l1.reverse ha' ?_ b (by simpa using hb)
      have : (l1 ++ [a]).IsChain J := by
        rw [← List.singleton_append, ← List.append_assoc] at hc
        exact (List.isChain_append.mp hc).1
      have := isChain_flip_reverse this
      simpa using this
    · rcases List.mem_cons.mp hb with rfl | hb
      · exact ha'
      · exact fwd a l2 ha' (List.isChain_append.mp hc).2.1 b hb
  have closed : ∀ {l l' : List α}, Run J l → Run J l' → Cyclic J l' → (∃ a ∈ l, a ∈ l') → Cyclic J l := by
    intro l l' h h' hy hm
    rcases h.ends with ho | hy'
    · obtain ⟨z, hz⟩ : ∃ z, l.getLast? = some z :=
        Option.isSome_iff_exists.mp (by rw [List.getLast?_isSome]; exact h.ne)
      obtain ⟨b, _, hb⟩ := cyclic_succ h'.chain hy (stay h.chain h'.chain hy hm z (List.mem_of_getLast? hz))
      exact absurd hb (ho.2 z hz b)
    · exact hy'
  by_cases hy : Cyclic J l
  · have hy' := closed h' h hy ⟨a, ha', ha⟩
    refine Or.inr ⟨?_, hy, hy'⟩
    obtain ⟨l1, l2, rfl⟩ := List.append_of_mem ha
    obtain ⟨k1, k2, rfl⟩ := List.append_of_mem ha'
    have r1 : (l1 ++ a :: l2) ~r (a :: l2 ++ l1) := List.isRotated_append
    have r2 : (k1 ++ a :: k2) ~r (a :: k2 ++ k1) := List.isRotated_append
    obtain ⟨c1, y1⟩ := cyclic_rotated h.chain hy
    obtain ⟨c2, y2⟩ := cyclic_rotated h'.chain hy'
    have n1 := r1.nodup_iff.mp h.nodup
    have n2 := r2.nodup_iff.mp h'.nodup
    have aux : ∀ {p q : List α}, p <+: q → (a :: q).IsChain J → (a :: q).Nodup → Cyclic J (a :: p) → p = q := by
      rintro p q ⟨r, rfl⟩ hq hn hy
      cases r with
      | nil => simp
      | cons b r =>
        exfalso
        obtain ⟨z, hzl⟩ : ∃ z, (a :: p).getLast? = some z := Option.isSome_iff_exists.mp (by simp [List.getLast?_isSome])
        rw [← List.cons_append] at hq
        have hb := (List.isChain_append.mp hq).2.2 z hzl b rfl
        have := hf z a b (hy a z rfl hzl) hb
        subst this
        simp at hn
    have : l2 ++ l1 = k2 ++ k1 := by
      rcases chain_prefix hf (by simpa using c1) (by simpa using c2) with hp | hp
      · exact aux hp (by simpa using c2) (by simpa using n2) (by simpa using y1)
      · exact (aux hp (by simpa using c1) (by simpa using n1) (by simpa using y2)).symm
    refine r1.trans (List.IsRotated.symm ?_)
    rw [List.cons_append, this, ← List.cons_append]
    exact r2
  · have hy' : ¬ Cyclic J l' := fun hy' => hy (closed h h' hy' ⟨a, ha, ha'⟩)
    left
    exact run_open_eq hf hg h.chain h'.chain (h.ends.resolve_right hy) (h'.ends.resolve_right hy') ha ha'

end TopoGeo
