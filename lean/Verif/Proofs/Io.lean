import Mathlib.Data.List.Forall2
import Verif.Proofs.Basic
import Verif.Spec.Dbf
/-!
# Lemmas about bytes, slices and chunks
-/

namespace TopoGeo

open Spec

/-! ## Numbers -/

theorem leBytes_length (k n : Nat) : (leBytes k n).length = k := by
  induction k generalizing n with
  | zero => rfl
  | succ k ih => simp [leBytes, ih]

theorem leNat_leBytes {k n : Nat} (h : n < 256 ^ k) : leNat (leBytes k n) = n := by
  induction k generalizing n with
  | zero => simp at h; subst h; rfl
  | succ k ih =>
    have h1 : n / 256 < 256 ^ k := by
      rw [Nat.div_lt_iff_lt_mul (by omega)]
      rw [Nat.pow_succ] at h
      exact h
    simp only [leBytes, leNat, ih h1]
    have : (UInt8.ofNat (n % 256)).toNat = n % 256 := by simp
    rw [this]
    omega

theorem leNat_lt (bs : Bytes) : leNat bs < 256 ^ bs.length := by
  induction bs with
  | nil => simp [leNat]
  | cons b bs ih =>
    simp only [leNat, List.length_cons, Nat.pow_succ]
    have := b.toNat_lt
    omega

theorem beBytes_length (k n : Nat) : (beBytes k n).length = k := by simp [beBytes, leBytes_length]

theorem beNat_beBytes {k n : Nat} (h : n < 256 ^ k) : beNat (beBytes k n) = n := by
  unfold beNat beBytes
  rw [List.reverse_reverse]
  exact leNat_leBytes h

theorem readLE_ok {k : Nat} {bs : Bytes} (h : bs.length = k) : readLE k bs = .ok (leNat bs) := by
  unfold readLE
  rw [if_pos (by omega), List.take_of_length_le (by omega)]

theorem readBE_ok {k : Nat} {bs : Bytes} (h : bs.length = k) : readBE k bs = .ok (beNat bs) := by
  unfold readBE
  rw [if_pos (by omega), List.take_of_length_le (by omega)]

/-! ## Slices -/

theorem slice_ok {α : Type} {buf : List α} {a b : Nat} (h1 : a ≤ b) (h2 : b ≤ buf.length) :
    slice buf a b = .ok ((buf.drop a).take (b - a)) := by
  unfold slice; exact if_pos ⟨h1, h2⟩

theorem slice_error {α : Type} {buf : List α} {a b : Nat} (h2 : buf.length < b) :
    slice buf a b = .error .index := by
  unfold slice; exact if_neg (by omega)

theorem slice_middle {α : Type} {buf pre mid post : List α} {a b : Nat} (h : buf = pre ++ mid ++ post)
    (ha : pre.length = a) (hb : pre.length + mid.length = b) : slice buf a b = .ok mid := by
  subst h ha hb
  rw [slice_ok (by omega) (by simp)]
  congr 1
  simp

/-! ## Chunks -/

theorem chunksFuel_enough {α : Type} {k : Nat} (hk : 0 < k) {fuel fuel' : Nat} {l : List α} (h : l.length ≤ fuel)
    (h' : l.length ≤ fuel') : chunksFuel k fuel l = chunksFuel k fuel' l := by
  induction fuel generalizing fuel' l with
  | zero =>
    have : l = [] := by simpa using h
    subst this
    cases fuel' <;> simp [chunksFuel]
  | succ fuel ih =>
    cases l with
    | nil => cases fuel' <;> simp [chunksFuel]
    | cons a l =>
      cases fuel' with
      | zero => simp at h'
      | succ fuel' =>
        simp only [chunksFuel]
        congr 1
        apply ih
        · simp only [List.length_drop, List.length_cons] at *; omega
        · simp only [List.length_drop, List.length_cons] at *; omega

theorem chunks_nil {α : Type} (k : Nat) : chunks k ([] : List α) = [] := rfl

theorem chunks_cons {α : Type} {k : Nat} (hk : 0 < k) {l : List α} (hl : l ≠ []) :
    chunks k l = l.take k :: chunks k (l.drop k) := by
  unfold chunks
  cases l with
  | nil => exact absurd rfl hl
  | cons a l =>
    rw [List.length_cons]
    simp only [chunksFuel]
    congr 1
    apply chunksFuel_enough hk
    · simp only [List.length_drop, List.length_cons]; omega
    · simp only [List.length_drop, List.length_cons]; omega

theorem chunks_append {α : Type} {k : Nat} (hk : 0 < k) {a : List α} (ha : a.length = k) (b : List α) :
    chunks k (a ++ b) = a :: chunks k b := by
  rw [chunks_cons hk (by intro h; have := congrArg List.length h; rw [List.length_append] at this; simp only [List.length_nil] at this; omega)]
  rw [List.take_left' ha, List.drop_left' ha]

theorem chunks_flatten {α : Type} {k : Nat} (hk : 0 < k) {ls : List (List α)} (h : ∀ l ∈ ls, l.length = k) :
    chunks k ls.flatten = ls := by
  induction ls with
  | nil => rfl
  | cons l ls ih =>
    rw [List.flatten_cons, chunks_append hk (h l (by simp)), ih fun x hx => h x (by simp [hx])]

/-- The whole chunks. -/
def wholes {α : Type} (k : Nat) (l : List α) : List (List α) :=
  (List.range (l.length / k)).map fun i => (l.drop (k * i)).take k

theorem wholes_short {α : Type} {k : Nat} {l : List α} (h : l.length < k) : wholes k l = [] := by
  unfold wholes
  rw [Nat.div_eq_of_lt h]
  rfl

theorem wholes_long {α : Type} {k : Nat} (hk : 0 < k) {l : List α} (h : k ≤ l.length) :
    wholes k l = l.take k :: wholes k (l.drop k) := by
  unfold wholes
  have : l.length / k = (l.length - k) / k + 1 := by
    rw [← Nat.add_div_right _ hk, Nat.sub_add_cancel h]
  rw [this, List.range_succ_eq_map, List.map_cons, List.map_map, List.length_drop]
  congr 1
  apply List.map_congr_left
  intro i _
  simp only [Function.comp, List.drop_drop]
  congr 2
  rw [Nat.succ_eq_add_one, Nat.mul_add]
  omega

theorem wholes_length {α : Type} {k : Nat} (hk : 0 < k) {l d : List α} (h : d ∈ wholes k l) : d.length = k := by
  obtain ⟨i, hi, rfl⟩ := List.mem_map.mp h
  have hi := List.mem_range.mp hi
  simp only [List.length_take, List.length_drop]
  have : k * (i + 1) ≤ l.length := by
    calc k * (i + 1) ≤ k * (l.length / k) := Nat.mul_le_mul_left _ (by omega)
      _ ≤ l.length := Nat.mul_div_le _ _
  rw [Nat.mul_add] at this
  omega

/-- Chunks of a list whose length is a multiple are all whole. -/
theorem chunks_wholes {α : Type} {k : Nat} (hk : 0 < k) {n : Nat} {l : List α} (h : l.length = k * n) :
    chunks k l = wholes k l := by
  induction n generalizing l with
  | zero =>
    have : l = [] := by simpa using h
    subst this
    rw [chunks_nil, wholes_short (by simpa using hk)]
  | succ n ih =>
    rw [Nat.mul_succ] at h
    rw [chunks_cons hk (by intro h0; subst h0; simp at h; omega), wholes_long hk (by omega), ih (by simp; omega)]

theorem wholes_flatten {α : Type} {k : Nat} (hk : 0 < k) {ls : List (List α)} (h : ∀ l ∈ ls, l.length = k) {rest : List α}
    (hr : rest.length < k) : wholes k (ls.flatten ++ rest) = ls := by
  induction ls with
  | nil => exact wholes_short hr
  | cons l ls ih =>
    have hl := h l (by simp)
    rw [List.flatten_cons, List.append_assoc, wholes_long hk (by simp; omega), List.take_left' hl, List.drop_left' hl,
      ih fun x hx => h x (by simp [hx])]

/-! ## Files -/

theorem memFile_ok {bs : Bytes} {n : Nat} (h : n ≤ bs.length) :
    Source.readExact (⟨bs⟩ : MemFile) n = (.ok (bs.take n), ⟨bs.drop n⟩) := by
  simp [Source.readExact, h]

theorem memFile_error {bs : Bytes} {n : Nat} (h : bs.length < n) :
    Source.readExact (⟨bs⟩ : MemFile) n = (.error .unexpectedEof, ⟨[]⟩) := by
  simp [Source.readExact, show ¬ n ≤ bs.length by omega]

end TopoGeo
